import Verif.Props.AgedReaderAll
import Verif.Props.AgedReaderWitness
/-
C175: witnesses.
-/
namespace S2P.AgedCh
open Spec

/-- `range(a, b)` of reader `i`. -/
def ahRange (i : Nat) (a b : Nat) : Happening Nat Nat := .call (.rd i (.range a b none false none true false false))

/-- Room for three. Object 2 has the key 7 while 4 is stored, and its own again when readers are called; then 5 is stored and 2 is not in the buffer any more, and gets the
key 4 for good; then reader 1 is told that it has read 2 last. -/
def ahLife : List (Happening Nat Nat) :=
  [.call (.append 1), .call (.append 2), .call (.append 3), arRead 0 1, .change (arKey' 2 7) arEq, .call (.append 4), .change arKey arEq, ahRange 0 1 3,
    .call (.rd 1 (.head false)), .call (.append 5), .change (arKey' 2 4) arEq, .call (.rd 1 (.tail false false true)), .call (.rd 1 (.setLast 2)), arRead 1 2]

theorem ahLife_kept : RetainedKept arKey (.ok none) (some 3) arCfg ahLife := by
  intro hs1 i op hs2 h
  have hl : hs1.length < 14 := by have := congrArg List.length h; simp [ahLife] at this; omega
  have e1 : hs1 = ahLife.take hs1.length := by rw [h]; simp
  have e2 : ahLife[hs1.length]? = some (.call (.rd i op)) := by rw [h]; simp
  generalize hs1.length = k at hl e1 e2
  subst e1
  have hcases : k = 3 ∨ k = 7 ∨ k = 8 ∨ k = 11 ∨ k = 12 ∨ k = 13 := by
    interval_cases k <;> simp [ahLife, arRead, ahRange] at e2 <;> omega
  rcases hcases with rfl | rfl | rfl | rfl | rfl | rfl <;> decide +kernel

/-- **C175** meets: the buffer has room for three; object 2 has another key while 4 is stored, and its own again when readers are called, and yet another
after it has left the buffer; `read`, `range`, `head`, `tail` answer from what is there by the keys of storing. -/
theorem C175_meets : RetainedKept arKey (.ok none) (some 3) arCfg ahLife ∧ (∀ k e, Happening.change k e ∈ ahLife → ∀ v, e v v = true) ∧
    (((init arKey arEq (.ok none) (some 3) arCfg).run ahLife).2.drop 3) =
      [.ok (.one 1), .ok .none, .ok (.many [2, 3]), .ok (.one 2), .ok .none, .ok (.one 5), .ok .none, .ok (.many [5])] ∧
    ((init arKey arEq (.ok none) (some 3) arCfg).run ahLife).1.ch.buf.items = [3, 4, 5] := by
  refine ⟨ahLife_kept, ?_, by decide +kernel, by decide +kernel⟩
  intro k e h v
  simp only [ahLife, arRead, ahRange, List.mem_cons, Happening.change.injEq, reduceCtorEq, false_or, or_false, List.not_mem_nil] at h
  rcases h with ⟨-, rfl⟩ | ⟨-, rfl⟩ | ⟨-, rfl⟩ <;> simp [arEq]

/-- Without the condition **C175** fails: object 3 has got the key 0 while in the buffer; a reader that has read 1 to 3 then has 0 as its
last key, and its `range` from 1 to 4 gives it 1 to 3 again; with no change it gives 4 alone. -/
theorem C175_refuted_changed :
    ((init arKey arEq (.ok none) (some 4) arCfg).run (arStored ++ [.change (arKey' 3 0) arEq, arRead 1 3, ahRange 1 1 4])).2.drop 4 =
        [.ok (.many [1, 2, 3]), .ok (.many [1, 2, 3, 4])] ∧
    ((init arKey arEq (.ok none) (some 4) arCfg).run (arStored ++ [arRead 1 3, ahRange 1 1 4])).2.drop 4 =
        [.ok (.many [1, 2, 3]), .ok (.many [4])] := by
  constructor <;> decide +kernel

end S2P.AgedCh
