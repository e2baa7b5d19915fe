import Verif.Model.Forget
import Verif.Props.Alive
import Verif.Props.EndToEndWitness
/-
C135: a StreamBuffer the program no longer refers to.
-/
namespace S2P
open Spec
variable {K V I : Type}

/-- What the stream buffer goes through in a step. -/
def DAct.below : DAct K V I → List (SBAct K V I)
  | .sb a => [a]
  | .forget => []
  | .del => [.stop]

namespace SB
section
variable [LT K] [DecidableLT K] [BEq V] {cfg : SBCfg K V} {s s' : SB K V I} {as : List (SBAct K V I)}

/-- A buffer's thread was started, unless the `start()` that made it is about to start it. -/
theorem has_thread (he : (SB.init : SB K V I).exec cfg as = some s) :
    ∀ b, (s.buf b).isSome = true → s.thr b ≠ .unborn ∧ (s.thr b = .fresh → s.start = some .launch ∧ b + 1 = s.n) := by
  refine (exec_ind (P := fun s : SB K V I => s.Inv ∧ ∀ b, (s.buf b).isSome = true → s.thr b ≠ .unborn ∧ (s.thr b = .fresh → s.start = some .launch ∧ b + 1 = s.n))
    (fun s a s' h hs => ⟨h.1.step hs, ?_⟩) ⟨Inv.init, by simp [init]⟩ he).2
  obtain ⟨h0, h⟩ := h
  obtain ⟨h1, h2, h3, h4, h5, h6, h7, h9, h10, h11, h8⟩ := h0
  have hlt := h8.lt
  have hst := step_to hs
  clear hs
  cases hst
  all_goals try simp only [say, setThr, setBuf, setEvent, setNext, setDrop, setInfo, newSess, running] at *
  all_goals first
    | assumption
    | grind [PhaseOk]

end

section
variable [LinearOrder K] [BEq V] {cfg : SBCfg K V} {s s' : SB K V I} {as : List (SBAct K V I)}

theorem exec_log {s : SB K V I} (he : s.exec cfg as = some s') : ∃ l, s'.log = s.log ++ l := by
  refine exec_ind (P := fun x : SB K V I => ∃ l, x.log = s.log ++ l) (fun x a x' ⟨l, h⟩ hs => ?_) ⟨[], by simp⟩ he
  obtain ⟨l', hl⟩ := step_log hs
  exact ⟨l ++ l', by rw [hl, h, List.append_assoc]⟩

set_option maxHeartbeats 4000000 in
/-- A thread leaves the loop because its event is set or because of an exception. -/
theorem fin_reason (he : (SB.init : SB K V I).exec cfg as = some s) :
    ∀ t, s.thr t = .fin1 ∨ s.thr t = .fin2 ∨ s.thr t = .fin3 → s.flag t = true ∨ Died s.log t := by
  refine (exec_ind (P := fun s : SB K V I => s.Inv ∧ ∀ t, s.thr t = .fin1 ∨ s.thr t = .fin2 ∨ s.thr t = .fin3 → s.flag t = true ∨ Died s.log t)
    (fun s a s' h hs => ⟨h.1.step hs, ?_⟩) ⟨Inv.init, by simp [init]⟩ he).2
  obtain ⟨h0, h⟩ := h
  have hm : ∀ t, Died s.log t → Died s'.log t := fun t h => by
    obtain ⟨l, hl⟩ := step_log hs
    rw [hl]; exact h.append l
  have hnew : ∀ u (e : Ev V I), isDeath e = true → byThread u e = true → Died (s.log ++ [e]) u := fun u e => Died.new
  obtain ⟨h1, h2, h3, h4, h5, h6, h7, h9, h10, h11, h8⟩ := h0
  have hst := step_to hs
  clear hs
  cases hst
  all_goals try simp only [say, setThr, setBuf, setEvent, setNext, setDrop, setInfo, newSess, running] at *
  all_goals first
    | assumption
    | grind [isDeath, byThread]
    | (cases hstart : s.start with
         | none => grind [PhaseOk, isDeath, byThread]
         | some p => cases p <;> grind [PhaseOk, isDeath, byThread])

end
end SB

namespace DSB
variable [LinearOrder K] [BEq V] {cfg : SBCfg K V} {s s' : DSB K V I} {as bs : List (DAct K V I)}

theorem Step.below {a : DAct K V I} (h : Step cfg s a s') : s.sb.exec cfg a.below = some s'.sb := by
  cases h with
  | sb a sb' hc hs => simp [DAct.below, SB.exec, hs]
  | forget hh => rfl
  | del sb' hh hg hf hs => simp [DAct.below, SB.exec, hs]

/-- **C135** everything that holds of all executions of a stream buffer holds when it is forgotten and finalized: `__del__` is a call of `stop()`. -/
theorem C135_is_stop (h : Exec cfg s as s') : s.sb.exec cfg (as.flatMap DAct.below) = some s'.sb := by
  induction h with
  | nil s => rfl
  | cons h1 h2 ih => rw [List.flatMap_cons, SB.exec_append, h1.below]; exact ih

theorem Exec.append {s1 : DSB K V I} (h : Exec cfg s as s1) (h' : Exec cfg s1 bs s') : Exec cfg s (as ++ bs) s' := by
  induction h with
  | nil s => exact h'
  | cons h1 _ ih => exact .cons h1 (ih h')

/-- Thread `t` runs the only session, and nobody is going to stop it. -/
structure Alone (t : Nat) (s : DSB K V I) : Prop where
  held : s.held = false
  gone : s.gone = false
  start : s.sb.start = none
  stopEvent : s.sb.stopEvent = some t
  flag : s.sb.flag t = false
  others : ∀ u, u ≠ t → (s.sb.thr u).idle = true
  me : (s.sb.thr t).idle = false
  fin : s.sb.thr t = .fin1 ∨ s.sb.thr t = .fin2 ∨ s.sb.thr t = .fin3 → SB.Died s.sb.log t

set_option maxHeartbeats 4000000 in
theorem alone_sb {t : Nat} {x x' : SB K V I} {a : SBAct K V I} (hc : a.isCall = false) (h1 : x.start = none) (h2 : x.stopEvent = some t)
    (h3 : x.flag t = false) (h4 : ∀ u, u ≠ t → (x.thr u).idle = true) (h5 : (x.thr t).idle = false)
    (h6 : x.thr t = .fin1 ∨ x.thr t = .fin2 ∨ x.thr t = .fin3 → SB.Died x.log t) (hs : x.step cfg a = some x') (hd : ¬ SB.Died x'.log t) :
    x'.start = none ∧ x'.stopEvent = some t ∧ x'.flag t = false ∧ (∀ u, u ≠ t → (x'.thr u).idle = true) ∧ (x'.thr t).idle = false ∧
    (x'.thr t = .fin1 ∨ x'.thr t = .fin2 ∨ x'.thr t = .fin3 → SB.Died x'.log t) := by
  have hm : SB.Died x.log t → SB.Died x'.log t := fun h => by
    obtain ⟨l, hl⟩ := SB.step_log hs
    rw [hl]; exact h.append l
  have hnew : ∀ u (e : Ev V I), isDeath e = true → byThread u e = true → SB.Died (x.log ++ [e]) u := fun u e => SB.Died.new
  have hst := SB.step_to hs
  clear hs
  cases hst
  all_goals try simp only [SB.say, SB.setThr, SB.setBuf, SB.setEvent, SB.setNext, SB.setDrop, SB.setInfo, SB.newSess, SB.running] at *
  all_goals refine ⟨?_, ?_, ?_, ?_, ?_, ?_⟩ <;> try dsimp only
  all_goals first
    | assumption
    | grind [SBAct.isCall, TPC.idle, isDeath, byThread]

theorem Alone.step {t : Nat} {a : DAct K V I} (h : Alone t s) (hs : Step cfg s a s') (hd : ¬ SB.Died s'.sb.log t) : Alone t s' := by
  cases hs with
  | sb a sb' hc hs =>
    have hc' : a.isCall = false := by
      cases hx : a.isCall
      · rfl
      · exact absurd (hc hx) (by simp [h.held])
    obtain ⟨g1, g2, g3, g4, g5, g6⟩ := alone_sb hc' h.start h.stopEvent h.flag h.others h.me h.fin hs hd
    exact ⟨h.held, h.gone, g1, g2, g3, g4, g5, g6⟩
  | forget hh => exact absurd hh (by simp [h.held])
  | del sb' hh hg hf hs =>
    have := h.me
    rcases hf.2.2.2.2.2 t with h | h | h <;> simp [h, TPC.idle] at this

theorem Alone.exec {t : Nat} (h : Alone t s) (hs : Exec cfg s as s') (hd : ¬ SB.Died s'.sb.log t) : Alone t s' := by
  induction hs with
  | nil s => exact h
  | @cons s s1 s2 a as h1 h2 ih =>
    refine ih (h.step h1 fun hx => hd ?_) hd
    obtain ⟨l, hl⟩ := SB.exec_log (C135_is_stop h2)
    rw [hl]; exact hx.append l

theorem over_sb {x x' : SB K V I} {a : SBAct K V I} (hc : a.isCall = false) (h1 : x.start = none) (h2 : ∀ t, x.stopEvent = some t → x.flag t = true)
    (hs : x.step cfg a = some x') : x'.start = none ∧ ∀ t, x'.stopEvent = some t → x'.flag t = true := by
  have hst := SB.step_to hs
  clear hs
  cases hst
  all_goals try simp only [SB.say, SB.setThr, SB.setBuf, SB.setEvent, SB.setNext, SB.setDrop, SB.setInfo, SB.newSess, SB.running] at *
  all_goals refine ⟨?_, ?_⟩ <;> try dsimp only
  all_goals first
    | assumption
    | grind [SBAct.isCall]

/-- A finalized stream buffer's stop event is set, and stays. -/
theorem gone_set (he : Exec cfg (init : DSB K V I) as s) (hg : s.gone = true) {t : Nat} (ht : s.sb.stopEvent = some t) : s.sb.flag t = true := by
  have key : ∀ {s0 s : DSB K V I} {as}, Exec cfg s0 as s →
      (s0.gone = true → s0.held = false ∧ s0.sb.start = none ∧ ∀ t, s0.sb.stopEvent = some t → s0.sb.flag t = true) →
      (s.gone = true → s.held = false ∧ s.sb.start = none ∧ ∀ t, s.sb.stopEvent = some t → s.sb.flag t = true) := by
    intro s0 s as h
    induction h with
    | nil s => exact fun h => h
    | @cons s s1 s2 a as h1 h2 ih =>
      intro h
      refine ih fun hg => ?_
      cases h1 with
      | sb a sb' hc hs =>
        obtain ⟨g1, g2, g3⟩ := h hg
        refine ⟨g1, over_sb ?_ g2 g3 hs⟩
        cases hx : a.isCall
        · rfl
        · exact absurd (hc hx) (by simp [g1])
      | forget hh => exact absurd hh (by simp [(h hg).1])
      | del sb' hh hg' hf hs =>
        refine ⟨hh, ?_⟩
        cases hse : s.sb.stopEvent with
        | none => simp only [SB.step, hse, Option.some.injEq] at hs; subst hs; exact ⟨hf.1, by simp [SB.say, hse]⟩
        | some e => simp only [SB.step, hse, Option.some.injEq] at hs; subst hs; exact ⟨hf.1, by simp [SB.say, SB.setEvent, hse]⟩
  exact (key he (by simp [init]) hg).2.2 t ht

/-- **C135** the program lets go of a running stream buffer (session `t`; no `start()` in progress, earlier sessions over) without calling `stop()`:
until an exception ends the reading loop, it is not finalized, its stop event is not set and its source not closed, whatever happens. -/
theorem C135_runs_on (he : Exec cfg (init : DSB K V I) as s) (hh : s.held = false) (t : Nat) (hst : s.sb.start = none)
    (hl : Ev.launched t ∈ s.sb.log) (hev : Ev.eventSet t ∉ s.sb.log)
    (hold : ∀ u, u ≠ t → Ev.launched u ∈ s.sb.log → ∃ ok, Ev.closed u ok ∈ s.sb.log)
    (hs : Exec cfg s bs s') (hd : ¬ SB.Died s'.sb.log t) :
    s'.gone = false ∧ Ev.eventSet t ∉ s'.sb.log ∧ (∀ ok, Ev.closed t ok ∉ s'.sb.log) ∧ (∀ c, s'.sb.view t = some c → c.stopped = false) := by
  have hg := SB.good (C135_is_stop he)
  have hn := hg.inv.noThr
  obtain ⟨l1, l2⟩ := hg.log.launched t hl
  have hfl : s.sb.flag t = false := by
    cases hx : s.sb.flag t
    · rfl
    · exact absurd ((hg.log.flag t).1 hx) hev
  have htn : t + 1 = s.sb.n := by
    by_contra hne
    rcases Nat.lt_or_gt_of_ne hne with h | h
    · rw [hg.inv.oldFlag t h] at hfl; simp at hfl
    · exact l1 (hn t (by omega))
  have hph := hg.inv.ph
  rw [hst] at hph
  have hse : s.sb.stopEvent = some t := by
    rcases hph with ⟨-, h⟩ | ⟨h, -⟩
    · omega
    · rw [h]; congr 1; omega
  have hal : s.gone = false → Alone t s := by
    intro hgo
    refine ⟨hh, hgo, hst, hse, hfl, fun u hu => ?_, ?_, fun h => ?_⟩
    · cases hx : s.sb.thr u with
      | unborn | fresh | done => rfl
      | _ =>
        obtain ⟨ok, hok⟩ := hold u hu (hg.log.launched' u (by simp [hx]) (by simp [hx]))
        rw [hg.log.closed u ok hok] at hx; simp at hx
    · cases hx : s.sb.thr t with
      | unborn => exact absurd hx l1
      | fresh => exact absurd hx l2
      | done => have := SB.ended (C135_is_stop he) t (.inr hx); rw [hfl] at this; simp at this
      | _ => rfl
    · rcases SB.fin_reason (C135_is_stop he) t h with h | h
      · rw [hfl] at h; simp at h
      · exact h
  have hgo : s.gone = false := by
    cases hx : s.gone
    · rfl
    · exact absurd (gone_set he hx hse) (by simp [hfl])
  have hA := (hal hgo).exec hs hd
  have hg' := SB.good (C135_is_stop (he.append hs))
  refine ⟨hA.gone, fun h => ?_, fun ok h => ?_, fun c h => ?_⟩
  · have := (hg'.log.flag t).2 h; rw [hA.flag] at this; simp at this
  · have := hA.me; rw [hg'.log.closed t ok h] at this; simp [TPC.idle] at this
  · obtain ⟨x, hx, rfl⟩ := Option.map_eq_some_iff.1 h
    show s'.sb.flag x.evt = false
    rw [hg'.inv.evt t x hx]; exact hA.flag

/-- **C135** `__del__`, whenever it runs, calls nothing on the source and changes nothing a reader of the stream buffer can see. -/
theorem C135_del_harmless (he : Exec cfg (init : DSB K V I) as s) (hs : Step cfg s .del s') :
    (∀ b, s'.sb.view b = s.sb.view b) ∧
    (s'.sb.log = s.sb.log ++ [.stopCalled (.error .attributeError)] ∨ ∃ e, s'.sb.log = s.sb.log ++ [.eventSet e, .stopCalled (.ok ())]) := by
  cases hs with
  | del sb' hh hgo hf hs =>
    have hex := C135_is_stop he
    have hg := SB.good hex
    cases hse : s.sb.stopEvent with
    | none =>
      simp only [SB.step, hse, Option.some.injEq] at hs
      subst hs
      exact ⟨fun b => rfl, .inl rfl⟩
    | some e =>
      simp only [SB.step, hse, Option.some.injEq] at hs
      subst hs
      refine ⟨fun b => ?_, .inr ⟨e, by simp [SB.say, SB.setEvent]⟩⟩
      simp only [SB.view, SB.say, SB.setEvent]
      cases hb : s.sb.buf b with
      | none => rfl
      | some x =>
        have hev := hg.inv.evt b x hb
        simp only [Option.map_some, Option.some.injEq, Cons.mk.injEq, true_and]
        split
        · obtain ⟨h1, h2⟩ := SB.has_thread hex b (by simp [hb])
          rcases hf.2.2.2.2.2 b with h | h | h
          · exact absurd h h1
          · rw [hf.1] at h2; simp at h2; exact absurd h h2
          · rw [hev]; exact ⟨(SB.ended hex b (.inr h)).symm, trivial⟩
        · exact ⟨rfl, trivial⟩

/-- An execution of the stream buffer, seen with the object's references. -/
theorem Exec.of_sb : ∀ {as : List (SBAct K V I)} {s : DSB K V I} {x : SB K V I}, s.sb.exec cfg as = some x → (s.held = true ∨ ∀ a ∈ as, a.isCall = false) →
    Exec cfg s (as.map .sb) { s with sb := x } := by
  intro as
  induction as with
  | nil => intro s x h _; simp only [SB.exec, Option.some.injEq] at h; subst h; exact .nil _
  | cons a as ih =>
    intro s x h hc
    simp only [SB.exec] at h
    split at h
    · rename_i x1 h1
      refine .cons (.sb s a x1 (fun ha => ?_) h1) (ih (s := { s with sb := x1 }) h ?_)
      · rcases hc with h | h
        · exact h
        · exact absurd ha (by simp [h a (by simp)])
      · rcases hc with h | h
        · exact .inl h
        · exact .inr fun b hb => h b (by simp [hb])
    · simp at h

end DSB

namespace SB

/-- Meets `C135_runs_on`: the stream is started and forgotten, goes on reading two items, and a reader made before gets one. -/
theorem _root_.S2P.DSB.C135_meets : ∃ (s s' : DSB Nat Nat Nat) (as bs : List (DAct Nat Nat Nat)), DSB.Exec (mkCfg none true) DSB.init as s ∧ s.held = false ∧
    s.sb.start = none ∧ Ev.launched 0 ∈ s.sb.log ∧ Ev.eventSet 0 ∉ s.sb.log ∧ (∀ u, u ≠ 0 → Ev.launched u ∈ s.sb.log → ∃ ok, Ev.closed u ok ∈ s.sb.log) ∧
    DSB.Exec (mkCfg none true) s bs s' ∧ ¬ Died s'.sb.log 0 ∧ storedIn 0 s'.sb.log = [1, 2] ∧ ∃ c, s'.sb.view 0 = some c ∧ received c 0 = [1] := by
  have h1 : ∃ x : S, SB.init.exec (mkCfg none true) (wStart 7) = some x ∧ x.start = none ∧ x.log = [.opened 0, .bufferMade 0 7, .launched 0] ∧
      ∃ x' c, x.exec (mkCfg none true) (wItem 0 1 ++ wItem 0 2 ++ wNext 0) = some x' ∧
        x'.log.all (fun e => !(isDeath e && byThread 0 e)) = true ∧ storedIn 0 x'.log = [1, 2] ∧ x'.view 0 = some c ∧ received c 0 = [1] :=
    ⟨_, rfl, rfl, rfl, _, _, rfl, rfl, rfl, rfl, rfl⟩
  obtain ⟨x, e1, e2, e3, x', c, f1, f2, f3, f4, f5⟩ := h1
  refine ⟨{ sb := x, held := false, gone := false }, { sb := x', held := false, gone := false }, _, _,
    (DSB.Exec.of_sb (s := DSB.init) e1 (.inl rfl)).append (.cons (.forget _ rfl) (.nil _)), rfl, e2, ?_, ?_, ?_,
    DSB.Exec.of_sb (s := { sb := x, held := false, gone := false }) f1 (.inr ?_), ?_, f3, c, f4, f5⟩
  · rw [e3]; simp
  · rw [e3]; simp
  · rw [e3]; intro u hu; simp [hu]
  · intro a ha
    have : (wItem 0 1 ++ wItem 0 2 ++ wNext 0 : List A).all (fun a => !a.isCall) = true := rfl
    simpa using List.all_eq_true.1 this a ha
  · rintro ⟨e, he, h1, h2⟩
    have := List.all_eq_true.1 f2 e he
    simp [h1, h2] at this

/-- Meets `C135_del_harmless`: stopped, thread ended, forgotten, finalized; the item left in the buffer can be read afterwards. -/
theorem _root_.S2P.DSB.C135_meets_del : ∃ (s s' : DSB Nat Nat Nat) (as : List (DAct Nat Nat Nat)), DSB.Exec (mkCfg none true) DSB.init as s ∧
    DSB.Step (mkCfg none true) s .del s' ∧ ∃ c, s'.sb.view 0 = some c ∧ c.ch.buf.items = [1] := by
  have h1 : ∃ x : S, SB.init.exec (mkCfg none true) (wStart 7 ++ wItem 0 1 ++ wStop 0) = some x ∧ x.start = none ∧ x.stopping = 0 ∧
      x.nexts = (fun _ => .idle) ∧ x.drops = (fun _ => none) ∧ x.infos = (fun _ => .idle) ∧ x.thr 0 = .done ∧ x.n = 1 ∧
      ∃ x' c, x.step (mkCfg none true) .stop = some x' ∧ x'.view 0 = some c ∧ c.ch.buf.items = [1] := ⟨_, rfl, rfl, rfl, rfl, rfl, rfl, rfl, rfl, _, _, rfl, rfl, rfl⟩
  obtain ⟨x, e1, e2, e3, e4, e5, e6, e7, e8, x', c, f1, f2, f3⟩ := h1
  refine ⟨{ sb := x, held := false, gone := false }, { sb := x', held := false, gone := true }, _,
    (DSB.Exec.of_sb (s := DSB.init) e1 (.inl rfl)).append (.cons (.forget _ rfl) (.nil _)),
    .del _ _ rfl rfl ⟨e2, e3, by simp [e4], by simp [e5], by simp [e6], fun t => ?_⟩ f1, c, f2, f3⟩
  by_cases ht : t = 0
  · subst ht; exact .inr (.inr e7)
  · exact .inl ((good e1).inv.noThr t (by show x.n ≤ t; omega))

end SB
end S2P
