import Verif.Props.Alive
import Verif.Props.SBWitness
/- Cases that meet the hypotheses of Props/Alive.lean, and an execution that shows that C85 needs the threads of earlier sessions to have ended. -/
namespace S2P
open Spec
namespace SB

/-- Check of `Asked`. -/
def askedOk (cfg : SBCfg Nat Nat) (t : Nat) : S → List A → Bool
  | _, [] => false
  | s, a :: as => (decide (t < s.n) && (match a with | .stop => true | .start => true | _ => false)) ||
    (match s.step cfg a with | some s' => s'.askedOk cfg t as | none => false)

theorem asked_check {cfg : SBCfg Nat Nat} {t : Nat} {as : List A} (h : askedOk cfg t SB.init as = false) : ¬ Asked cfg as t := by
  rintro ⟨as1, a, as2, s1, rfl, he, hn, ha⟩
  have main : ∀ (as1 : List A) (s : S), s.exec cfg as1 = some s1 → askedOk cfg t s (as1 ++ a :: as2) = true := by
    intro as1
    induction as1 with
    | nil =>
      intro s he
      simp only [exec, Option.some.injEq] at he
      subst he
      rcases ha with rfl | rfl <;> simp [askedOk, hn]
    | cons b as1 ih =>
      intro s he
      simp only [exec] at he
      split at he
      · rename_i s2 hs2
        simp only [List.cons_append, askedOk, hs2, ih s2 he, Bool.or_true]
      · simp at he
  rw [main as1 SB.init he] at h
  simp at h

theorem died_check {l : List (Ev Nat Nat)} {t : Nat} (h : l.all (fun e => !(isDeath e && byThread t e)) = true) : ¬ Died l t := by
  rintro ⟨e, he, h1, h2⟩
  have := List.all_eq_true.1 h e he
  simp [h1, h2] at this

theorem no_death {l : List (Ev Nat Nat)} (h : l.all (fun e => !isDeath e) = true) (t : Nat) : ¬ Died l t := by
  rintro ⟨e, he, h1, -⟩
  have := List.all_eq_true.1 h e he
  simp [h1] at this

/-- Check of `NeverFull`. -/
def roomOk (cfg : SBCfg Nat Nat) (t : Nat) : S → List A → Bool
  | _, [] => true
  | s, a :: as => (match s.thr t, cfg.maxlen with | .measuring b, some m => decide ((s.items b).length < m) | _, _ => true) &&
    (match s.step cfg a with | some s' => s'.roomOk cfg t as | none => true)

theorem room_check {cfg : SBCfg Nat Nat} {t : Nat} (as : List A) : ∀ s : S, s.roomOk cfg t as = true → s.NeverFull cfg t as := by
  induction as with
  | nil => intro s _; trivial
  | cons a as ih =>
    intro s h
    simp only [roomOk, Bool.and_eq_true] at h
    refine ⟨fun _ b m hb hm => ?_, fun s' hs' => ih s' (by have := h.2; rwa [hs'] at this)⟩
    have := h.1
    rw [hb, hm] at this
    simpa using this

/-- Meets C85 (second session of a settled execution, no `stop()` since, `None` was read) and C86 (3 reads in 13 steps of the thread). -/
theorem C85_meets : ∃ s s' : S, SB.init.exec (mkCfg (some 2) true) (wStart 7 ++ wItem 0 1 ++ wStop 0 ++ wStart 8) = some s ∧
    s.exec (mkCfg (some 2) true) (wNone 1 ++ wItem 1 5 ++ wItem 1 6) = some s' ∧
    (SB.init : S).Settled (mkCfg (some 2) true) (wStart 7 ++ wItem 0 1 ++ wStop 0 ++ wStart 8 ++ (wNone 1 ++ wItem 1 5 ++ wItem 1 6)) ∧
    Ev.launched 1 ∈ s.log ∧ ¬ Asked (mkCfg (some 2) true) (wStart 7 ++ wItem 0 1 ++ wStop 0 ++ wStart 8 ++ (wNone 1 ++ wItem 1 5 ++ wItem 1 6)) 1 ∧
    ¬ Died s'.log 1 ∧ storedIn 1 s'.log = [5, 6] ∧ (wNone 1 ++ wItem 1 5 ++ wItem 1 6).countP (SBAct.ofThread (K := Nat) (V := Nat) (I := Nat) 1) = 14 ∧
    Ev.eventSet 0 ∈ s.log ∧ Asked (mkCfg (some 2) true) (wStart 7 ++ wItem 0 1 ++ wStop 0 ++ wStart 8) 0 := by
  refine ⟨_, _, rfl, rfl, settled_of_check rfl, by decide +kernel, asked_check rfl, died_check (by decide +kernel), rfl, rfl, by decide +kernel, ?_⟩
  exact ⟨wStart 7 ++ wItem 0 1, .stop, [.thr 0, .thr 0, .close 0 true, .stopEnd] ++ wStart 8, _, rfl, rfl, by decide, .inl rfl⟩

/-- Meets C86 with `auto_drop=False`: the thread looks at the buffer and never finds it full. -/
example : ∃ s s' : S, SB.init.exec (mkCfg (some 2) false) (wStart 7) = some s ∧ s.exec (mkCfg (some 2) false) (wItemM 0 1 ++ wItemM 0 2) = some s' ∧
    Ev.launched 0 ∈ s.log ∧ s.NeverFull (mkCfg (some 2) false) 0 (wItemM 0 1 ++ wItemM 0 2) := by
  refine ⟨_, _, rfl, rfl, by decide +kernel, ?_⟩
  exact room_check _ _ rfl

/-- Meets C85: a session that ended because `read()` raised. -/
example : ∃ s : S, SB.init.exec (mkCfg (some 2) true) (wStart 7 ++ [.thr 0, .thr 0, .readRaise 0 .runtimeError, .thr 0, .thr 0, .close 0 true]) = some s ∧
    Ev.eventSet 0 ∈ s.log ∧ Died s.log 0 ∧ ¬ Asked (mkCfg (some 2) true) (wStart 7 ++ [.thr 0, .thr 0, .readRaise 0 .runtimeError, .thr 0, .thr 0, .close 0 true]) 0 :=
  ⟨_, rfl, by decide +kernel, ⟨.readRaised 0 .runtimeError, by decide +kernel, rfl, rfl⟩, asked_check rfl⟩

/-- **C85** needs its condition: a thread of an earlier session, stopped in the regular way, that is still about to end when the next session is up
ends that one, too. Nobody called `stop()`, nothing was raised. -/
theorem C85_settled_needed : ∃ s : S, SB.init.exec (mkCfg (some 2) true) (wStart 7 ++ [.stop, .stopEnd, .thr 0] ++ wStart 8 ++ [.thr 0, .thr 0]) = some s ∧
    Ev.eventSet 1 ∈ s.log ∧ ¬ Asked (mkCfg (some 2) true) (wStart 7 ++ [.stop, .stopEnd, .thr 0] ++ wStart 8 ++ [.thr 0, .thr 0]) 1 ∧
    (∀ t, ¬ Died s.log t) := by
  refine ⟨_, rfl, by decide +kernel, asked_check rfl, ?_⟩
  exact no_death (by decide +kernel)

/-- Meets C90: `read()` raised in the second session; the thread then looks at the event, sets it and closes the source, while others read. -/
theorem C90_meets : ∃ s s' : S, SB.init.exec (mkCfg (some 2) true) (wStart 7 ++ wStop 0 ++ wStart 8 ++ wItem 1 5 ++ [.thr 1, .thr 1, .readRaise 1 .runtimeError]) = some s ∧
    Died s.log 1 ∧ s.exec (mkCfg (some 2) true) [.thr 1, .mkReader, .thr 1, .isRunning, .close 1 true] = some s' ∧ Ev.closed 1 true ∈ s'.log ∧
    s'.log.filter (byThread 1) = s.log.filter (byThread 1) ++ [.closed 1 true] ∧ Ev.isRunning false ∈ s'.log :=
  ⟨_, _, rfl, ⟨.readRaised 1 .runtimeError, by decide +kernel, rfl, rfl⟩, rfl, by decide +kernel, rfl, by decide +kernel⟩

end SB
end S2P
