import Verif.Props.StartEnds
import Verif.Props.FairWitness
/- Concrete cases for C157. -/
namespace S2P
open Spec
namespace SB

theorem idle_stays {cfg : SBCfg Nat Nat} {s s' : S} {a : A} (hs : s.step cfg a = some s') (h : s.start = none) (ha : a ≠ .start) : s'.start = none := by
  have hst := step_to hs
  clear hs
  cases hst <;> simp_all [say, setThr, setBuf, setEvent, setNext, setDrop, setInfo, newSess]

/-- Meets `C157_bounded`: a `start()` on a running stream buffer takes all 10 steps; `is_running` has to wait, others go on in between. -/
theorem C157_meets : ∃ s u : S, SB.init.exec (mkCfg none true) (wStart 7 ++ [.start]) = some s ∧ s.start = some .chk1 ∧ s.step (mkCfg none true) .isRunning = none ∧
    s.exec (mkCfg none true) ([.startGo, .startGo, .thr 0, .startGo, .startGo, .startGo, .startGo, .startGo, .thr 0, .openOk, .bufOk 8, .startGo] : List A) = some u ∧
    u.start = none ∧ ([.startGo, .startGo, .thr 0, .startGo, .startGo, .startGo, .startGo, .startGo, .thr 0, .openOk, .bufOk 8, .startGo] : List A).countP SBAct.ofStart = 10 ∧
    s.log.countP Ev.isOutcome = 1 ∧ u.log.countP Ev.isOutcome = 2 := ⟨_, _, rfl, rfl, rfl, rfl, rfl, rfl, rfl, rfl⟩

/-- and with `open()` raising. -/
theorem C157_meets_raise : ∃ u : S, SB.init.exec (mkCfg none true) wStartFails = some u ∧ u.start = none ∧ u.log.countP Ev.isOutcome = 1 := ⟨_, rfl, rfl, rfl⟩

/-- Meets `C157_ends`. -/
theorem C157_meets_fair : ∃ r : Forever Nat (mkCfg none true), r.Fair (fun s => s.start ≠ none) SBAct.ofStart ∧ (r.st 3).start ≠ none := by
  obtain ⟨r, hr⟩ := run_stop
  have h9 : ∀ m, (r.st (9 + m)).start = none := by
    intro m
    induction m with
    | zero =>
      have h := lasso_st hr 9 (by decide)
      have : ∃ s : S, SB.init.exec (mkCfg none true) (fStop.take 9) = some s ∧ s.start = none := ⟨_, rfl, rfl⟩
      obtain ⟨s, h1, h2⟩ := this
      rw [h1] at h; injection h with h; exact h ▸ h2
    | succ m ih =>
      refine idle_stays (r.next (9 + m)) ih ?_
      rw [hr]
      have hno : ∀ a ∈ fStop.drop 9 ++ [.isRunning], a ≠ SBAct.start := by
        have : (fStop.drop 9 ++ [SBAct.isRunning]).all (fun a => match a with | .start => false | _ => true) = true := by decide
        intro a ha he; have := List.all_eq_true.1 this a ha; subst he; simp at this
      refine hno _ ?_
      unfold lassoAct
      split
      · rename_i h
        rw [getElem!_pos fStop _ h]
        refine List.mem_append_left _ ?_
        rw [List.mem_iff_getElem]
        exact ⟨m, by simp at h ⊢; omega, by simp⟩
      · simp [Nat.mod_one]
  refine ⟨r, fun k hk => ⟨8, ?_, ?_⟩, ?_⟩
  · by_contra h
    obtain ⟨m, rfl⟩ := Nat.exists_eq_add_of_le (show 9 ≤ k by omega)
    exact hk (h9 m)
  · rw [hr]; decide
  · have h := lasso_st hr 3 (by decide)
    have : ∃ s : S, SB.init.exec (mkCfg none true) (fStop.take 3) = some s ∧ s.start ≠ none := ⟨_, rfl, by decide⟩
    obtain ⟨s, h1, h2⟩ := this
    rw [h1] at h; injection h with h; exact h ▸ h2

end SB
end S2P
