import Verif.Proofs.StreamSource
/-
Counting of open readers, and the state of the stream buffer of a StreamSource.
-/
namespace S2P
open Spec
variable {K V I : Type} [LT K] [DecidableLT K] [BEq V]
namespace Src

/-- The readers returned by `open_reader()`, in order. -/
def openedL (log : List SrcEv) : List Nat := log.filterMap fun | .opened r _ _ => some r | _ => none

/-- The readers closed, in order. -/
def closedL (log : List SrcEv) : List Nat := log.filterMap fun | .closed r _ => some r | _ => none

/-- Nobody replaced the `onclose` of a reader. -/
def untouched (log : List SrcEv) : Bool := log.all fun | .assigned _ _ => false | _ => true

theorem settings_snoc (l : List SrcEv) (e : SrcEv) : settings (l ++ [e]) =
    (match e with | .configured c' (.ok _) => c' | _ => settings l) := by
  simp only [settings, List.foldl_append, List.foldl_cons, List.foldl_nil]
  cases e with
  | configured c r => cases r <;> rfl
  | _ => rfl

theorem openedL_snoc (l : List SrcEv) (e : SrcEv) : openedL (l ++ [e]) = openedL l ++ (match e with | .opened r _ _ => [r] | _ => []) := by
  cases e <;> simp [openedL]

theorem closedL_snoc (l : List SrcEv) (e : SrcEv) : closedL (l ++ [e]) = closedL l ++ (match e with | .closed r _ => [r] | _ => []) := by
  cases e <;> simp [closedL]

theorem untouched_snoc (l : List SrcEv) (e : SrcEv) : untouched (l ++ [e]) =
    (untouched l && (match e with | .assigned _ _ => false | _ => true)) := by
  cases e <;> simp [untouched]

theorem filter_grow (l m : List Nat) (r : Nat) (h : ∀ x ∈ l, x < r) :
    (l.filter fun x => decide (x ∈ m ++ [r])) = l.filter fun x => decide (x ∈ m) := by
  apply List.filter_congr
  intro x hx
  have := h x hx
  simp only [List.mem_append, List.mem_singleton, decide_eq_decide]
  constructor
  · rintro (h | h)
    · exact h
    · omega
  · exact .inl

/-- The counter counts the readers returned by `open_reader()` minus the calls of `close()` on them. -/
structure Cnt (s : Src K V I) : Prop where
  openLt : ∀ r ∈ openedL s.log, r < s.made
  openNd : (openedL s.log).Nodup
  closeLt : ∀ r ∈ closedL s.log, r < s.made
  on : untouched s.log = true → ∀ r, s.onclose r = .handler ↔ r ∈ openedL s.log
  count : untouched s.log = true →
    s.openReaders = ((openedL s.log).length : Int) - (((closedL s.log).filter fun r => decide (r ∈ openedL s.log)).length : Int)

theorem Cnt.init : (Src.init : Src K V I).Cnt := by
  refine ⟨?_, ?_, ?_, ?_, ?_⟩ <;> simp [Src.init, openedL, closedL]

set_option maxHeartbeats 4000000 in
theorem Cnt.step {cfg : SrcCfg K V} {s s' : Src K V I} {a : SrcAct K V I} (h : s.Cnt) (hs : s.step cfg a = some s') : s'.Cnt := by
  have hst := step_to hs
  clear hs
  obtain ⟨h1, h2, h3, h4, h5⟩ := h
  have hg := filter_grow (closedL s.log) (openedL s.log) s.made h3
  cases hst
  case bg => exact ⟨h1, h2, h3, h4, h5⟩
  case closeGo => exact ⟨h1, h2, h3, h4, h5⟩
  case openMore => exact ⟨h1, h2, h3, h4, h5⟩
  case started => exact ⟨h1, h2, h3, h4, h5⟩
  all_goals
    refine ⟨?_, ?_, ?_, ?_, ?_⟩ <;> simp only [say, setOnclose, openedL_snoc, closedL_snoc, untouched_snoc, List.append_nil, Bool.and_true, Bool.and_false]
    all_goals first
      | assumption
      | grind

/-- What holds in every reachable state. -/
structure Good (cfg : SrcCfg K V) (s : Src K V I) : Prop where
  reach : ∀ c x, s.sb = some (c, x) → ∃ as, SB.init.exec (cfg.sb c) as = some x
  one : ∀ c x, s.sb = some (c, x) → x.One
  idle : ∀ c x, s.sb = some (c, x) → s.pc ≠ .starting → x.start = none
  src : ∀ c x, s.sb = some (c, x) → 0 < s.made → x.sourceBuffer = some 0
  noSb : s.sb = none → s.pc = .idle ∧ s.made = 0
  start0 : s.pc = .starting → s.made = 0

theorem Good.init (cfg : SrcCfg K V) : Good cfg (Src.init : Src K V I) := by
  refine ⟨?_, ?_, ?_, ?_, ?_, ?_⟩ <;> simp [Src.init]

/-- A step of the stream buffer other than `start()`. -/
theorem Good.sbStep {cfg : SrcCfg K V} {s : Src K V I} (h : s.Good cfg) {c : Option Nat × Bool} {x x' : SB K V I} {a : SBAct K V I}
    (hx : s.sb = some (c, x)) (hne : a ≠ .start) (hs : x.step (cfg.sb c) a = some x') :
    (∃ as, SB.init.exec (cfg.sb c) as = some x') ∧ x'.One ∧ (x.start = none → x'.start = none ∧ x'.sourceBuffer = x.sourceBuffer) := by
  obtain ⟨as, has⟩ := h.reach c x hx
  have hid := SB.step_idle hne hs
  exact ⟨⟨as ++ [a], by rw [SB.exec_append, has]; simp [SB.exec, hs]⟩, (h.one c x hx).step hne hs, fun h => ⟨(hid h).1, (hid h).2.1⟩⟩

theorem Good.stopEvent {cfg : SrcCfg K V} {s : Src K V I} (h : s.Good cfg) {c : Option Nat × Bool} {x : SB K V I}
    (hx : s.sb = some (c, x)) (hp : s.pc ≠ .starting) : x.stopEvent = some 0 := by
  have h3 := h.idle c x hx hp
  have h4 := (h.one c x hx).n1 (.inl h3)
  have h5 := (h.one c x hx).inv.ph
  rw [h3] at h5
  simp only [SB.PhaseOk, h4] at h5
  simpa using h5

/-- Replacing the stream buffer by a later state of it. -/
theorem Good.setSb {cfg : SrcCfg K V} {s s' : Src K V I} (h : s.Good cfg) {c : Option Nat × Bool} {x x' : SB K V I} {a : SBAct K V I}
    (hx : s.sb = some (c, x)) (hne : a ≠ .start) (hs : x.step (cfg.sb c) a = some x') (h1 : s'.sb = some (c, x')) (h2 : s'.made = s.made)
    (h3 : s'.pc = .starting ↔ s.pc = .starting) : s'.Good cfg := by
  obtain ⟨k1, k2, k3⟩ := h.sbStep hx hne hs
  refine ⟨?_, ?_, ?_, ?_, ?_, ?_⟩
  · intro c1 x1 e; rw [h1] at e; cases e; exact k1
  · intro c1 x1 e; rw [h1] at e; cases e; exact k2
  · intro c1 x1 e hp; rw [h1] at e; cases e
    exact (k3 (h.idle c x hx (by rwa [Ne, ← h3]))).1
  · intro c1 x1 e hm; rw [h1] at e; cases e
    rw [h2] at hm
    have hp : s.pc ≠ .starting := fun hp => by have := h.start0 hp; omega
    rw [(k3 (h.idle c x hx hp)).2]
    exact h.src c x hx hm
  · simp [h1]
  · intro hp; rw [h2]; exact h.start0 (h3.1 hp)

/-- Steps that leave the stream buffer and the readers alone. -/
theorem Good.setPc {cfg : SrcCfg K V} {s s' : Src K V I} (h : s.Good cfg) (h1 : s'.sb = s.sb) (h2 : s'.made = s.made)
    (h3 : s'.pc ≠ .starting) (h4 : s.pc = .starting → ∀ c x, s.sb = some (c, x) → x.start = none) (h5 : s.sb = none → s'.pc = .idle) : s'.Good cfg := by
  refine ⟨?_, ?_, ?_, ?_, ?_, ?_⟩
  · rw [h1]; exact h.reach
  · rw [h1]; exact h.one
  · rw [h1]; intro c x hx _
    by_cases hp : s.pc = .starting
    · exact h4 hp c x hx
    · exact h.idle c x hx hp
  · rw [h1, h2]; exact h.src
  · rw [h1, h2]; exact fun hn => ⟨h5 hn, (h.noSb hn).2⟩
  · exact fun hp => absurd hp h3

theorem Good.step {cfg : SrcCfg K V} {s s' : Src K V I} {a : SrcAct K V I} (h : s.Good cfg) (hs : s.step cfg a = some s') : s'.Good cfg := by
  have hst := step_to hs
  clear hs
  cases hst with
  | bg a c x x' ha hx hs =>
    exact h.setSb hx (by rintro rfl; simp [SBAct.isBg] at ha) hs rfl rfl Iff.rfl
  | closeGo r c x x' hp hx hs => exact h.setSb hx (by simp) hs rfl rfl (by simp [hp])
  | closeLast r c x x' e hp hr ho hn hx hs he => exact h.setSb hx (by simp) hs rfl rfl (by simp [say, hp])
  | closeErr r c x x' hp hr ho hn hx hs he => exact absurd (h.stopEvent hx (by simp [hp])) (by simp [he])
  | openFirst x hp hx hs =>
    have k2 := SB.One.start hs
    have k3 : x.start = some .chk1 := by
      simp only [SB.init, SB.step, if_true, Option.some.injEq] at hs
      subst hs; simp
    refine ⟨?_, ?_, ?_, ?_, ?_, ?_⟩
    · rintro _ _ ⟨⟩; exact ⟨[.start], by simp only [SB.exec, hs]⟩
    · rintro _ _ ⟨⟩; exact k2
    · rintro _ _ ⟨⟩ hp; exact absurd rfl hp
    · rintro _ _ ⟨⟩ hm
      have := (h.noSb hx).2
      simp only [say] at hm; omega
    · simp [say]
    · exact fun _ => (h.noSb hx).2
  | opened c x b hp hx hb =>
    have h0 := ((h.one c x hx).inv.sb b hb).2
    have h1 := (h.one c x hx).n1 (.inl (h.idle c x hx (by simp [hp])))
    have hb0 : b = 0 := by omega
    subst hb0
    refine ⟨h.reach, h.one, fun c x hx _ => h.idle c x hx (by simp [hp]), ?_, ?_, ?_⟩
    · intro c1 x1 e _
      simp only [say, setOnclose] at e
      rw [hx] at e; cases e; exact hb
    · simp [say, setOnclose, hx]
    · simp [say, setOnclose]
  | mk c x b hp hx hb =>
    have h0 := ((h.one c x hx).inv.sb b hb).2
    have h1 := (h.one c x hx).n1 (.inl (h.idle c x hx (by simp [hp])))
    have hb0 : b = 0 := by omega
    subst hb0
    refine ⟨h.reach, h.one, fun c x hx _ => h.idle c x hx (by simp [hp]), ?_, ?_, ?_⟩
    · intro c1 x1 e _
      simp only [say, setOnclose] at e
      rw [hx] at e; cases e; exact hb
    · simp [say, setOnclose, hx]
    · simp [say, setOnclose, hp]
  | started c x b hp hx hxs hb =>
    exact h.setPc rfl rfl (by simp) (by intro _ c1 x1 e; rw [hx] at e; cases e; exact hxs) (by simp [hx])
  | startErr c x hp hx hxs hb =>
    exact h.setPc rfl rfl (by simp [say]) (by intro _ c1 x1 e; rw [hx] at e; cases e; exact hxs) (by simp [hx])
  | openErr c x hp hx hb => exact h.setPc rfl rfl (by simp [say]) (by simp [hp]) (by simp [hx])
  | openMore y hp hx => exact h.setPc rfl rfl (by simp) (by simp [hp]) (by simp [hx])
  | _ => exact h.setPc rfl rfl (by simp [say, setOnclose, *]) (by simp [*]) (by simp [say, setOnclose, *])

/-- Settings, and calls of `stop()`. -/
structure Good2 (s : Src K V I) : Prop where
  conf : s.sb = none → s.conf.getD (some 100, true) = settings s.log ∧ (∀ c, SrcEv.bufferMade c ∉ s.log) ∧ SrcEv.stopped ∉ s.log ∧
    ∀ c e, SrcEv.configured c (.error e) ∉ s.log
  used : ∀ c x, s.sb = some (c, x) → c = settings s.log ∧ SrcEv.bufferMade c ∈ s.log ∧
    (Ev.stopCalled (.ok ()) ∈ x.log ↔ SrcEv.stopped ∈ s.log) ∧ (SrcEv.stopped ∈ s.log → x.flag 0 = true)

theorem Good2.init : (Src.init : Src K V I).Good2 := by
  refine ⟨?_, ?_⟩ <;> simp [Src.init, settings]

theorem Good2.step {cfg : SrcCfg K V} {s s' : Src K V I} {a : SrcAct K V I} (hg : s.Good cfg) (h : s.Good2) (hs : s.step cfg a = some s') :
    s'.Good2 := by
  have hst := step_to hs
  clear hs
  obtain ⟨h1, h2⟩ := h
  cases hst with
  | bg a c x x' ha hx hs =>
    have hl := SB.log_stop hs (by rintro rfl; simp [SBAct.isBg] at ha)
    have hm := SB.flag_mono hs 0
    refine ⟨by simp, ?_⟩
    rintro _ _ ⟨⟩
    obtain ⟨k1, k2, k3, k4⟩ := h2 c x hx
    exact ⟨k1, k2, hl.trans k3, fun h => hm (k4 h)⟩
  | closeGo r c x x' hp hx hs =>
    have hl := SB.log_stop hs (by simp)
    have hm := SB.flag_mono hs 0
    refine ⟨by simp, ?_⟩
    rintro _ _ ⟨⟩
    obtain ⟨k1, k2, k3, k4⟩ := h2 c x hx
    exact ⟨k1, k2, hl.trans k3, fun h => hm (k4 h)⟩
  | closeLast r c x x' e hp hr ho hn hx hs he =>
    refine ⟨by simp [say], ?_⟩
    rintro _ _ ⟨⟩
    obtain ⟨k1, k2, k3, k4⟩ := h2 c x hx
    have hx' : x' = ({ x.setEvent e with stopping := x.stopping + 1 }).say (.stopCalled (.ok ())) := by
      simp only [SB.step, he] at hs; injection hs with hs; exact hs.symm
    have he0 := (hg.one c x hx).ev e he
    subst he0
    refine ⟨by simp only [say, settings_snoc]; exact k1, by simp [say, k2], ?_, ?_⟩
    · rw [hx']; simp [say, SB.say]
    · intro _; rw [hx']; simp [SB.say, SB.setEvent]
  | closeErr r c x x' hp hr ho hn hx hs he => exact absurd (hg.stopEvent hx (by simp [hp])) (by simp [he])
  | openFirst x hp hx hs =>
    refine ⟨by simp [say], ?_⟩
    rintro _ _ ⟨⟩
    obtain ⟨k1, k2, k3, k4⟩ := h1 hx
    have k5 : x.log = [] := by
      simp only [SB.init, SB.step, if_true, Option.some.injEq] at hs
      subst hs; simp
    simp [say, settings_snoc, k1, k3, k5]
  | openMore => exact ⟨h1, h2⟩
  | started => exact ⟨h1, h2⟩
  | confErr c y hp hx =>
    refine ⟨by simp [say, hx], ?_⟩
    simp only [say, settings_snoc]
    intro c x hx
    obtain ⟨k1, k2, k3, k4⟩ := h2 c x hx
    refine ⟨k1, by simp [k2], by simpa using k3, by simpa using k4⟩
  | conf c hp hx =>
    refine ⟨?_, by simp [say, hx]⟩
    simp only [say, settings_snoc]
    obtain ⟨k1, k2, k3, k4⟩ := h1 hx
    intro _
    refine ⟨rfl, by simpa using k2, by simpa using k3, by simpa using k4⟩
  | _ =>
    refine ⟨?_, ?_⟩ <;> simp only [say, setOnclose, settings_snoc]
    · intro hx
      obtain ⟨k1, k2, k3, k4⟩ := h1 hx
      refine ⟨k1, by simpa using k2, by simpa using k3, by simpa using k4⟩
    · intro c x hx
      obtain ⟨k1, k2, k3, k4⟩ := h2 c x hx
      refine ⟨k1, by simp [k2], by simpa using k3, by simpa using k4⟩

/-! ### Executions -/

theorem exec_append (cfg : SrcCfg K V) (s : Src K V I) (as bs : List (SrcAct K V I)) :
    s.exec cfg (as ++ bs) = (s.exec cfg as).bind (·.exec cfg bs) := by
  induction as generalizing s with
  | nil => rfl
  | cons a as ih =>
    simp only [List.cons_append, exec]
    cases s.step cfg a with
    | none => rfl
    | some t => exact ih t

theorem exec_ind {cfg : SrcCfg K V} {P : Src K V I → Prop} (hstep : ∀ s a s', P s → s.step cfg a = some s' → P s')
    {as : List (SrcAct K V I)} {s s' : Src K V I} (h : P s) (he : s.exec cfg as = some s') : P s' := by
  induction as generalizing s with
  | nil => simp only [exec, Option.some.injEq] at he; exact he ▸ h
  | cons a as ih =>
    simp only [exec] at he
    split at he
    · exact ih (hstep _ _ _ h ‹_›) he
    · simp at he

theorem good_exec {cfg : SrcCfg K V} {as : List (SrcAct K V I)} {s : Src K V I} (he : Src.init.exec cfg as = some s) :
    s.Good cfg ∧ s.Good2 ∧ s.Cnt :=
  exec_ind (P := fun s => s.Good cfg ∧ s.Good2 ∧ s.Cnt) (fun _ _ _ h hs => ⟨h.1.step hs, h.2.1.step h.1 hs, h.2.2.step hs⟩)
    ⟨Good.init cfg, Good2.init, Cnt.init⟩ he

/-- Every step appends to the log. -/
theorem log_grows {cfg : SrcCfg K V} {s s' : Src K V I} {a : SrcAct K V I} (hs : s.step cfg a = some s') : ∃ new, s'.log = s.log ++ new := by
  have hst := step_to hs
  clear hs
  cases hst <;> first
    | exact ⟨[], (List.append_nil _).symm⟩
    | exact ⟨_, rfl⟩
    | exact ⟨[_, _], List.append_assoc _ [_] [_]⟩

theorem log_prefix {cfg : SrcCfg K V} {as : List (SrcAct K V I)} {s s' : Src K V I} (he : s.exec cfg as = some s') : ∃ new, s'.log = s.log ++ new := by
  refine exec_ind (P := fun s' : Src K V I => ∃ new, s'.log = s.log ++ new) ?_ ⟨[], by simp⟩ he
  rintro s1 a s2 ⟨new, h⟩ hs
  obtain ⟨new', h'⟩ := log_grows hs
  exact ⟨new ++ new', by rw [h', h, List.append_assoc]⟩

/-- Every event was appended by some step. -/
theorem event_origin {cfg : SrcCfg K V} {as : List (SrcAct K V I)} {s : Src K V I} (he : Src.init.exec cfg as = some s)
    {pre post : List SrcEv} {e : SrcEv} (hl : s.log = pre ++ e :: post) :
    ∃ as1 a as2 s1 s2, Src.init.exec cfg as1 = some s1 ∧ s1.step cfg a = some s2 ∧ s2.exec cfg as2 = some s ∧
      s1.log.length ≤ pre.length ∧ pre.length < s2.log.length := by
  have key : ∀ (as : List (SrcAct K V I)) (s0 : Src K V I) (as0 : List (SrcAct K V I)), Src.init.exec cfg as0 = some s0 → s0.log.length ≤ pre.length →
      s0.exec cfg as = some s → ∃ as1 a as2 s1 s2, Src.init.exec cfg as1 = some s1 ∧ s1.step cfg a = some s2 ∧ s2.exec cfg as2 = some s ∧
      s1.log.length ≤ pre.length ∧ pre.length < s2.log.length := by
    intro as
    induction as with
    | nil =>
      intro s0 as0 h0 hle h
      simp only [exec, Option.some.injEq] at h
      subst h
      have := congrArg List.length hl
      simp only [List.length_append, List.length_cons] at this
      omega
    | cons a as ih =>
      intro s0 as0 h0 hle h
      simp only [exec] at h
      split at h
      · rename_i s1 hs1
        by_cases hlt : pre.length < s1.log.length
        · exact ⟨as0, a, as, s0, s1, h0, hs1, h, hle, hlt⟩
        · exact ih s1 (as0 ++ [a]) (by rw [exec_append, h0]; simp [exec, hs1]) (by omega) h
      · simp at h
  exact key as Src.init [] rfl (by simp [Src.init]) he

end Src
end S2P
