import Verif.Props.Fair
/-
C157: a `start()` comes to an end.
-/
namespace S2P
open Spec
variable {K V I : Type}

/-- A statement of the `start()` that holds `start_lock`, or a return from the source inside it. -/
def SBAct.ofStart : SBAct K V I → Bool
  | .startGo | .openOk | .openRaise | .bufOk _ | .bufRaise => true
  | _ => false

/-- The outcome of a `start()`: the thread was started, or `open()` or `info` of the source raised. -/
def Ev.isOutcome : Ev V I → Bool
  | .launched _ | .openRaised _ | .infoRaised _ => true
  | _ => false

namespace SB
variable [LinearOrder K] [BEq V] [ReflBEq V] {cfg : SBCfg K V}

/-- What is known of the event at the second check, at line 276. -/
def Checked (s : SB K V I) : Prop :=
  match s.start with
  | some .clr1 | some .chk2 => s.running = false
  | some .set2 | some .clr2 => False
  | _ => True

omit [ReflBEq V] in
theorem Checked.step {s s' : SB K V I} {a : SBAct K V I} (h : s.Checked) (hi : s.Inv) (hs : s.step cfg a = some s') : s'.Checked := by
  have ph := hi.ph
  have hst := step_to hs
  clear hs
  unfold Checked at *
  cases hst
  all_goals simp only [say, setThr, setBuf, setEvent, setNext, setDrop, setInfo, newSess, running] at *
  all_goals grind

omit [ReflBEq V] in
theorem checked {as : List (SBAct K V I)} {s : SB K V I} (he : SB.init.exec cfg as = some s) : s.Checked :=
  (exec_ind (P := fun s : SB K V I => s.Checked ∧ s.Inv) (fun _ _ _ h hs => ⟨h.1.step h.2 hs, h.2.step hs⟩) ⟨by simp [Checked, SB.init], Inv.init⟩ he).1

/-- How many statements a `start()` has before it at most. -/
def toGo : StartPC → Nat
  | .chk1 => 10 | .set1 => 9 | .clr1 => 8 | .chk2 => 7 | .set2 => 0 | .clr2 => 0
  | .wipe => 6 | .mkThr => 5 | .mkEvt => 4 | .opening => 3 | .mkBuf => 2 | .launch => 1

omit [ReflBEq V] in
theorem start_step {s s' : SB K V I} {a : SBAct K V I} {p : StartPC} (hp : s.start = some p) (hc : s.Checked) (hs : s.step cfg a = some s') :
    (a.ofStart = false → s'.start = some p ∧ s'.log.countP Ev.isOutcome = s.log.countP Ev.isOutcome) ∧
    (a.ofStart = true → (∃ p', s'.start = some p' ∧ toGo p' < toGo p ∧ s'.log.countP Ev.isOutcome = s.log.countP Ev.isOutcome) ∨
      (s'.start = none ∧ s'.log.countP Ev.isOutcome = s.log.countP Ev.isOutcome + 1)) := by
  have hst := step_to hs
  clear hs
  unfold Checked at hc
  rw [hp] at hc
  cases hst
  all_goals simp only [say, setThr, setBuf, setEvent, setNext, setDrop, setInfo, newSess] at *
  all_goals first
    | (refine ⟨fun _ => ⟨hp, ?_⟩, fun h => by cases h⟩; simp [List.countP_append, Ev.isOutcome]; done)
    | (exfalso; simp_all; done)
    | (have e : p = _ := Option.some.inj (hp.symm.trans ‹s.start = some _›); subst e; refine ⟨(fun h => by cases h), fun _ => ?_⟩
       simp_all [List.countP_append, Ev.isOutcome, toGo]; done)
    | (have e : p = _ := Option.some.inj (hp.symm.trans ‹s.start = some _›); subst e; refine ⟨(fun h => by cases h), fun _ => ?_⟩
       cases hr : s.running <;> simp_all [toGo]; done)

/-- **C157** A `start()` is never stuck: whatever else goes on, it can do its next statement, or it is inside `open()` or `info` of the source and goes on, one way or
the other, when these return or raise. -/
theorem C157_never_stuck {as : List (SBAct K V I)} {s : SB K V I} (he : SB.init.exec cfg as = some s) (h : s.start ≠ none) :
    (s.step cfg .startGo).isSome ∨ ((s.step cfg .openOk).isSome ∧ (s.step cfg .openRaise).isSome) ∨
    ((∀ info, (s.step cfg (.bufOk info)).isSome) ∧ (s.step cfg .bufRaise).isSome) := by
  have hi : s.Inv := exec_ind (P := fun s : SB K V I => s.Inv) (fun _ _ _ h hs => h.step hs) Inv.init he
  have ph := hi.ph
  cases hp : s.start with
  | none => exact absurd hp h
  | some p =>
    rw [hp] at ph
    cases p <;> simp only [PhaseOk] at ph <;> simp [SB.step, startGo, hp, ph]

/-- **C157** It ends within 10 statements of its own, with one outcome: from any point of a `start()` on, in any execution, either it has ended, after at most 10
of its statements, or fewer than 10 of them were done and it is still going on. Nothing else ends it or gives an outcome. -/
theorem C157_bounded {as bs : List (SBAct K V I)} {s s' : SB K V I} (h0 : SB.init.exec cfg as = some s) (h : s.start ≠ none) (he : s.exec cfg bs = some s') :
    (∃ bs1 bs2 u, bs = bs1 ++ bs2 ∧ s.exec cfg bs1 = some u ∧ u.start = none ∧ bs1.countP SBAct.ofStart ≤ 10 ∧
      u.log.countP Ev.isOutcome = s.log.countP Ev.isOutcome + 1) ∨
    (s'.start ≠ none ∧ bs.countP SBAct.ofStart < 10 ∧ s'.log.countP Ev.isOutcome = s.log.countP Ev.isOutcome) := by
  obtain ⟨p, hp⟩ := Option.ne_none_iff_exists'.1 h
  have key : (∃ bs1 bs2 u, bs = bs1 ++ bs2 ∧ s.exec cfg bs1 = some u ∧ u.start = none ∧ bs1.countP SBAct.ofStart ≤ toGo p ∧
      u.log.countP Ev.isOutcome = s.log.countP Ev.isOutcome + 1) ∨
      (∃ p', s'.start = some p' ∧ bs.countP SBAct.ofStart + toGo p' ≤ toGo p ∧ s'.log.countP Ev.isOutcome = s.log.countP Ev.isOutcome) := by
    clear h
    induction bs generalizing s as p with
    | nil => simp only [SB.exec, Option.some.injEq] at he; subst he; exact .inr ⟨p, hp, by simp, rfl⟩
    | cons a bs ih =>
      simp only [SB.exec] at he
      split at he
      · rename_i s1 hs1
        have h1 : SB.init.exec cfg (as ++ [a]) = some s1 := by rw [exec_append, h0]; simp [SB.exec, hs1]
        have hst := start_step hp (checked h0) hs1
        by_cases ha : a.ofStart = true
        · rcases hst.2 ha with ⟨p', hp', hlt, hl⟩ | ⟨hn, hl⟩
          · rcases ih h1 he p' hp' with ⟨b1, b2, u, rfl, hu, hn, hle, hl'⟩ | ⟨p'', hp'', hle, hl'⟩
            · exact .inl ⟨a :: b1, b2, u, rfl, by simp [SB.exec, hs1, hu], hn, by simp [ha]; omega, by omega⟩
            · exact .inr ⟨p'', hp'', by simp [ha]; omega, by omega⟩
          · refine .inl ⟨[a], bs, s1, rfl, by simp [SB.exec, hs1], hn, ?_, hl⟩
            have hc := checked h0
            unfold Checked at hc
            rw [hp] at hc
            simp [ha]
            cases p <;> simp [toGo] at hc ⊢
        · simp only [Bool.not_eq_true] at ha
          obtain ⟨hp', hl⟩ := hst.1 ha
          rcases ih h1 he p hp' with ⟨b1, b2, u, rfl, hu, hn, hle, hl'⟩ | ⟨p'', hp'', hle, hl'⟩
          · exact .inl ⟨a :: b1, b2, u, rfl, by simp [SB.exec, hs1, hu], hn, by simp [ha]; omega, by omega⟩
          · exact .inr ⟨p'', hp'', by simp [ha]; omega, by omega⟩
      · simp at he
  have h10 : toGo p ≤ 10 := by cases p <;> simp [toGo]
  rcases key with ⟨b1, b2, u, h1, h2, h3, h4, h5⟩ | ⟨p', hp', hle, hl⟩
  · exact .inl ⟨b1, b2, u, h1, h2, h3, by omega, h5⟩
  · refine .inr ⟨by simp [hp'], ?_, hl⟩
    have hc : s'.Checked := checked (as := as ++ bs) (by rw [exec_append, h0]; exact he)
    unfold Checked at hc
    rw [hp'] at hc
    have : 1 ≤ toGo p' := by cases p' <;> simp [toGo] at hc ⊢
    omega

namespace Forever
variable {r : Forever I cfg}

/-- **C157** Under a fair scheduler (and if `open()` and `info` return or raise) every `start()` ends, with an outcome. -/
theorem C157_ends (k : Nat) (hf : r.Fair (fun s => s.start ≠ none) SBAct.ofStart) :
    ∃ j, k ≤ j ∧ (r.st j).start = none ∧ ((r.st k).start ≠ none → (r.st j).log.countP Ev.isOutcome = (r.st k).log.countP Ev.isOutcome + 1) := by
  by_cases h : (r.st k).start = none
  · exact ⟨k, Nat.le_refl k, h, fun h' => absurd h h'⟩
  by_contra hno
  have hno : ∀ j, k ≤ j → (r.st j).start = none → (r.st j).log.countP Ev.isOutcome ≠ (r.st k).log.countP Ev.isOutcome + 1 := fun j hj hn hl => hno ⟨j, hj, hn, fun _ => hl⟩
  have step : ∀ m, (r.st (k + m)).start ≠ none ∧ (r.seg k m).countP SBAct.ofStart < 10 := by
    intro m
    rcases C157_bounded (exec_to r k) h (exec_seg r k m) with ⟨b1, b2, u, hb, hu, hn, -, hl⟩ | h'
    · exfalso
      have hm : b1 = r.seg k b1.length := by
        have h1 := congrArg (List.take b1.length) hb
        rw [List.take_left'  rfl] at h1
        have hle : b1.length ≤ m := by have := congrArg List.length hb; simp [Run.seg] at this; omega
        obtain ⟨x, rfl⟩ := Nat.exists_eq_add_of_le hle
        rw [Run.seg_add, List.take_left' (by simp [Run.seg])] at h1
        exact h1.symm
      rw [hm, exec_seg] at hu
      injection hu with hu
      exact hno (k + b1.length) (by omega) (hu ▸ hn) (hu ▸ hl)
    · exact ⟨h'.1, h'.2.1⟩
  obtain ⟨m, hm⟩ := r.many hf k (fun j hj => by obtain ⟨m, rfl⟩ := Nat.exists_eq_add_of_le hj; exact (step m).1) 10
  have := (step m).2
  omega

end Forever
end SB
end S2P
