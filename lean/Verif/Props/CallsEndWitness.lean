import Verif.Props.CallsEnd
import Verif.Props.StartEndsWitness
/- Concrete cases for C158. -/
namespace S2P
open Spec
namespace SB

/-- Meets `C158_bounded`: three statements of `next`, two of `source_reader_info`, one of `drop`. -/
theorem C158_meets : ∃ s u : S, SB.init.exec (mkCfg (some 3) false) (wStart 7 ++ wItemM 0 1 ++ [.next 0, .info 0, .drop 0 1]) = some s ∧ s.nexts 0 = .make ∧ s.infos 0 = .test 0 ∧
    s.drops 0 = some (0, 1) ∧ s.exec (mkCfg (some 3) false) [.nextGo 0, .infoGo 0, .nextGo 0, .infoGo 0, .dropGo 0, .nextGo 0] = some u ∧ u.nexts 0 = .idle ∧ u.infos 0 = .idle ∧
    u.drops 0 = none := ⟨_, _, rfl, rfl, rfl, rfl, rfl, rfl, rfl, rfl⟩

/-- A `drop(1)` and a `next`; then `next` and `source_reader_info` for ever. -/
def fCalls : List A := wStart 7 ++ [.drop 0 1, .dropGo 0, .next 0, .nextGo 0, .nextGo 0, .nextGo 0]

theorem drops_stay {cfg : SBCfg Nat Nat} {s s' : S} {a : A} (hs : s.step cfg a = some s') (h : s.drops 0 = none) (ha : ∀ n, a ≠ .drop 0 n) : s'.drops 0 = none := by
  have hst := step_to hs
  clear hs
  cases hst
  all_goals simp only [say, setThr, setBuf, setEvent, setNext, setDrop, setInfo, newSess] at *
  all_goals grind

theorem run_calls : ∃ r : Forever Nat (mkCfg (some 3) false), ∀ i, r.act i = lassoAct fCalls [.next 0, .nextGo 0, .info 0, .infoGo 0] i := by
  refine lasso_run fCalls _ (by simp) (fun s => s.start = none ∧ s.nextReader = some 0 ∧ s.nexts 0 = .idle ∧ s.infos 0 = .idle ∧ s.sourceBuffer = some 0 ∧
    ∃ x, s.buf 0 = some x ∧ x.cons.ch.buf.len = 0) ?_ ?_
  · have h : ∃ s : S, SB.init.exec (mkCfg (some 3) false) fCalls = some s ∧ s.start = none ∧ s.nextReader = some 0 ∧ s.nexts 0 = .idle ∧ s.infos 0 = .idle ∧
        s.sourceBuffer = some 0 ∧ ∃ x, s.buf 0 = some x ∧ x.cons.ch.buf.len = 0 := ⟨_, rfl, rfl, rfl, rfl, rfl, rfl, _, rfl, rfl⟩
    rw [foldlM_exec]
    exact h
  · rintro s ⟨h1, h2, h3, h4, h5, x, h6, h7⟩
    refine ⟨((((s.setNext 0 .use).setNext 0 .idle).say (.nextOn (.ok 0))).setInfo 0 (.test 0)).setInfo 0 .idle |>.say (.info (.ok none)), ?_, ?_⟩
    · rw [foldlM_exec]
      simp [exec, step, setNext, setInfo, say, h2, h3, h4, h5, h6, h7]
    · simp only [setNext, setInfo, say, h1, h2, h5, h6, if_true, true_and, Option.some.injEq, exists_eq_left', h7]

/-- Meets `C158_ends`; in the third state the `start()` is going on, in the tenth the `drop`, in the twelfth the `next`. -/
theorem C158_meets_fair : ∃ r : Forever Nat (mkCfg (some 3) false), r.Fair (fun s => s.start ≠ none) SBAct.ofStart ∧ r.StrongFair (.nextGo 0) ∧ r.StrongFair (.infoGo 0) ∧
    r.StrongFair (.dropGo 0) ∧ (r.st 10).drops 0 ≠ none ∧ (r.st 12).nexts 0 ≠ .idle := by
  obtain ⟨r, hr⟩ := run_calls
  have later : ∀ m, r.act (11 + m) ≠ .start ∧ ∀ n, r.act (11 + m) ≠ .drop 0 n := by
    intro m
    rw [hr]
    have hno : ∀ a ∈ fCalls.drop 11 ++ ([.next 0, .nextGo 0, .info 0, .infoGo 0] : List A), a ≠ SBAct.start ∧ ∀ n, a ≠ .drop 0 n := by
      have : (fCalls.drop 11 ++ ([.next 0, .nextGo 0, .info 0, .infoGo 0] : List A)).all (fun a : A => match a with | .start => false | .drop _ _ => false | _ => true) = true := by decide
      intro a ha
      have := List.all_eq_true.1 this a ha
      exact ⟨fun he => by subst he; simp at this, fun n he => by subst he; simp at this⟩
    refine hno _ ?_
    unfold lassoAct
    split
    · rename_i h
      rw [getElem!_pos fCalls _ h]
      refine List.mem_append_left _ ?_
      rw [List.mem_iff_getElem]
      exact ⟨m, by simp at h ⊢; omega, by simp⟩
    · refine List.mem_append_right _ ?_
      have h : (11 + m - fCalls.length) % 4 < 4 := Nat.mod_lt _ (by omega)
      rw [getElem!_pos ([.next 0, .nextGo 0, .info 0, .infoGo 0] : List A) _ h]; exact List.getElem_mem _
  have at' : ∀ n, n ≤ fCalls.length → ∀ P : S → Prop, (∃ s : S, SB.init.exec (mkCfg (some 3) false) (fCalls.take n) = some s ∧ P s) → P (r.st n) := by
    rintro n hn P ⟨s, h1, h2⟩
    have h := lasso_st hr n hn
    rw [h1] at h; injection h with h; exact h ▸ h2
  have h11 : ∀ m, (r.st (11 + m)).start = none ∧ (r.st (11 + m)).drops 0 = none := by
    intro m
    induction m with
    | zero => exact at' 11 (by decide) (fun s => s.start = none ∧ s.drops 0 = none) ⟨_, rfl, rfl, rfl⟩
    | succ m ih => exact ⟨idle_stays (r.next (11 + m)) ih.1 (later m).1, drops_stay (r.next (11 + m)) ih.2 (later m).2⟩
  have h9 : (r.st 9).start = none := at' 9 (by decide) (fun s => s.start = none) ⟨_, rfl, rfl⟩
  have h10 : (r.st 10).start = none := at' 10 (by decide) (fun s => s.start = none) ⟨_, rfl, rfl⟩
  refine ⟨r, fun k hk => ⟨8, ?_, ?_⟩, fun _ k => ?_, fun _ k => ?_, fun h => ?_, ?_, ?_⟩
  · by_contra h
    rcases (by omega : k = 9 ∨ k = 10 ∨ 11 ≤ k) with rfl | rfl | h
    · exact hk h9
    · exact hk h10
    · obtain ⟨m, rfl⟩ := Nat.exists_eq_add_of_le h
      exact hk (h11 m).1
  · rw [hr]; decide
  · exact lasso_again hr 1 (by decide) k
  · exact lasso_again hr 3 (by decide) k
  · obtain ⟨j, h1, h2⟩ := h 11
    obtain ⟨m, rfl⟩ := Nat.exists_eq_add_of_le h1
    simp [step, (h11 m).2] at h2
  · exact at' 10 (by decide) (fun s => s.drops 0 ≠ none) ⟨_, rfl, by decide⟩
  · exact at' 12 (by decide) (fun s => s.nexts 0 ≠ .idle) ⟨_, rfl, by decide⟩

end SB
end S2P
