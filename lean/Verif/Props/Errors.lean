import Verif.Props.SBWitness
/-
C133: what the calls on a stream buffer, and its background thread, can raise of their own.
-/
namespace S2P
open Spec
variable {K V I : Type}

/-- The exceptions of the calls on a stream buffer with the setting `auto_drop=auto`, and of its threads outside of `read` and the append. -/
def mayRaise (auto : Bool) : Ev V I → Prop
  | .stopCalled (.error e) => e = .attributeError
  | .dropCalled n (.error e) => (auto = true ∧ e = .runtimeError) ∨ (auto = false ∧ (e = .attributeError ∨ (e = .indexError ∧ 0 < n)))
  | .dropCalled _ (.ok _) => auto = false
  | .madeReader (.error e) | .attached (.error e) => e = .streamNotStarted
  | .nextOn (.error e) => e = .streamNotStarted ∨ e = .typeError
  | .info (.error e) => e = .attributeError
  | .crashed _ e => e = .attributeError ∨ (auto = false ∧ e = .typeError)
  | _ => True

theorem SD.dropLoop_error (n : Nat) : ∀ (s : SD K V) (e : PyErr), (SD.dropLoop n s).2 = .error e → e = .indexError ∧ 0 < n := by
  induction n with
  | zero => intro s e h; simp [SD.dropLoop] at h
  | succ n ih =>
    intro s e h
    refine ⟨?_, Nat.succ_pos n⟩
    simp only [SD.dropLoop] at h
    split at h
    · rename_i e' h1; simp only [dqDel] at h1; split at h1 <;> simp_all
    · split at h
      · rename_i e' h1; simp only [dqDel] at h1; split at h1 <;> simp_all
      · exact (ih _ _ h).1

namespace SB
variable [LT K] [DecidableLT K] [BEq V] {cfg : SBCfg K V} {s s' : SB K V I} {as : List (SBAct K V I)}

theorem drop_error {c : Cons K V} {k : Int} {e : PyErr} (h : ((c.call (.drop k)).2.map fun _ => ()) = .error e) : e = .indexError ∧ 0 < k := by
  have h2 : (c.ch.buf.drop k).2 = .error e := by
    simp only [Cons.call, Ch.step] at h
    cases hr : (c.ch.buf.drop k).2 with
    | error e' => simp_all [Except.map]
    | ok u => simp_all [Except.map]
  have h3 := SD.dropLoop_error k.toNat c.ch.buf e h2
  exact ⟨h3.1, by omega⟩

set_option maxHeartbeats 4000000 in
theorem raise_step {a : SBAct K V I} (ih : ∀ e ∈ s.log, mayRaise cfg.autoDrop e) (hau : ∀ c p, s.drops c = some p → cfg.autoDrop = false)
    (hme : ∀ t b, s.thr t = .measuring b → cfg.autoDrop = false)
    (hs : s.step cfg a = some s') : (∀ e ∈ s'.log, mayRaise cfg.autoDrop e) ∧ (∀ c p, s'.drops c = some p → cfg.autoDrop = false) ∧
      (∀ t b, s'.thr t = .measuring b → cfg.autoDrop = false) := by
  have hst := step_to hs
  clear hs
  have app : ∀ l : List (Ev V I), (∀ e ∈ l, mayRaise cfg.autoDrop e) → ∀ e ∈ s.log ++ l, mayRaise cfg.autoDrop e := by
    intro l hl e he
    rcases List.mem_append.1 he with he | he
    · exact ih e he
    · exact hl e he
  have hdr : ∀ (k : Int) (c : Cons K V), cfg.autoDrop = false → mayRaise cfg.autoDrop (.dropCalled k ((c.call (.drop k)).2.map fun _ => ()) : Ev V I) := by
    intro k c ha
    cases hr : ((c.call (.drop k)).2.map fun _ => ()) with
    | ok u => exact ha
    | error e => exact .inr ⟨ha, .inr (drop_error hr)⟩
  cases hst
  case drop c k b x hc hx =>
    simp only [say, setDrop, setBuf]
    refine ⟨?_, ?_, hme⟩
    · rw [List.append_assoc]
      refine app _ ?_
      intro e he
      simp only [List.cons_append, List.nil_append, List.mem_cons, List.not_mem_nil, or_false] at he
      rcases he with rfl | rfl
      · trivial
      · exact hdr _ _ (hau _ _ hc)
    · intro c' p hp
      by_cases h : c' = c
      · simp [h] at hp
      · simp only [h, if_false] at hp; exact hau _ _ hp
  case mkReader h =>
    refine ⟨app _ ?_, hau, hme⟩
    intro e he
    rw [List.mem_singleton] at he
    subst he
    cases s.sourceBuffer with
    | none => rfl
    | some b => trivial
  all_goals
    try simp only [say, setThr, setBuf, setEvent, setNext, setDrop, setInfo, newSess, running] at *
    refine ⟨?_, ?_, ?_⟩ <;> try dsimp only
  all_goals first
    | assumption
    | grind [mayRaise]

/-- **C133** every execution: the calls on a stream buffer, and its threads outside of `read` and the append, raise only the exceptions of `mayRaise`. -/
theorem C133_exceptions (he : (SB.init : SB K V I).exec cfg as = some s) : ∀ e ∈ s.log, mayRaise cfg.autoDrop e :=
  (exec_ind (P := fun s => (∀ e ∈ s.log, mayRaise cfg.autoDrop e) ∧ (∀ c p, s.drops c = some p → cfg.autoDrop = false) ∧
      (∀ t b, s.thr t = .measuring b → cfg.autoDrop = false))
    (fun _ _ _ h hs => raise_step h.1 h.2.1 h.2.2 hs) ⟨by simp [init], by simp [init], by simp [init]⟩ he).1

set_option maxHeartbeats 4000000 in
theorem crash_step {a : SBAct K V I} (h2 : s.Inv2)
    (ih : ∀ t e, Ev.crashed t e ∈ s.log → cfg.autoDrop = false ∧ cfg.maxlen = none ∧ e = .typeError)
    (hau : ∀ t b, s.thr t = .measuring b → cfg.autoDrop = false)
    (hs : s.step cfg a = some s') : (∀ t e, Ev.crashed t e ∈ s'.log → cfg.autoDrop = false ∧ cfg.maxlen = none ∧ e = .typeError) ∧
      (∀ t b, s'.thr t = .measuring b → cfg.autoDrop = false) := by
  obtain ⟨g1, g2, g3, g4, g5⟩ := h2
  have hst := step_to hs
  clear hs
  cases hst
  all_goals
    try simp only [say, setThr, setBuf, setEvent, setNext, setDrop, setInfo, newSess, running] at *
    refine ⟨?_, ?_⟩ <;> try dsimp only
  all_goals first
    | assumption
    | grind [TPC.idle]

/-- **C133** when every restart finds the earlier threads ended, a thread raises outside of `read` and the append only with `auto_drop=False` and `maxlen=None`
(the comparison of the length with `None`). -/
theorem C133_thread_exceptions (he : (SB.init : SB K V I).exec cfg as = some s) (hset : (SB.init : SB K V I).Settled cfg as) (t : Nat) (e : PyErr)
    (h : Ev.crashed t e ∈ s.log) : cfg.autoDrop = false ∧ cfg.maxlen = none ∧ e = .typeError :=
  ((exec_ind_settled (P := fun s => (s.Inv ∧ s.Inv2) ∧ (∀ t e, Ev.crashed t e ∈ s.log → cfg.autoDrop = false ∧ cfg.maxlen = none ∧ e = .typeError) ∧
      (∀ t b, s.thr t = .measuring b → cfg.autoDrop = false))
    (fun _ _ _ h hs hset => ⟨⟨h.1.1.step hs, h.1.2.step h.1.1 hs hset⟩, crash_step h.1.2 h.2.1 h.2.2 hs⟩)
    ⟨⟨Inv.init, Inv2.init⟩, by simp [init], by simp [init]⟩ he hset).2.1) t e h

/-- Meets `C133_exceptions`: `stop()` and `drop` before the start, then `drop(5)` of two items. -/
def wErr : List A := [.stop, .drop 0 1, .mkReader] ++ wStart 7 ++ wItemM 0 1 ++ wItemM 0 2 ++ [.drop 0 0, .dropGo 0, .drop 0 5, .dropGo 0]

theorem C133_meets : ∃ s : S, SB.init.exec (mkCfg (some 2) false) wErr = some s ∧ Ev.stopCalled (.error .attributeError) ∈ s.log ∧
    Ev.dropCalled 1 (.error .attributeError) ∈ s.log ∧ Ev.madeReader (.error .streamNotStarted) ∈ s.log ∧
    Ev.dropCalled 0 (.ok ()) ∈ s.log ∧ Ev.dropCalled 5 (.error .indexError) ∈ s.log :=
  ⟨_, rfl, List.mem_of_getElem? (i := 0) rfl, List.mem_of_getElem? (i := 1) rfl, List.mem_of_getElem? (i := 2) rfl,
    List.mem_of_getElem? (i := 11) rfl, List.mem_of_getElem? (i := 13) rfl⟩

/-- Meets `C133_thread_exceptions`: `auto_drop=False` with an unbounded buffer. -/
theorem C133_meets_thread : ∃ s : S, SB.init.exec (mkCfg none false) (wStart 7 ++ [.thr 0, .thr 0, .thr 0]) = some s ∧
    (SB.init : S).Settled (mkCfg none false) (wStart 7 ++ [.thr 0, .thr 0, .thr 0]) ∧ Ev.crashed 0 .typeError ∈ s.log :=
  ⟨_, rfl, settled_of_check rfl, List.mem_of_getElem? (i := 3) rfl⟩

end SB
end S2P
