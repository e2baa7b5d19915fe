import Verif.Props.Past
import Verif.Props.LoopWitness
import Verif.Props.DocLoopWitness
/-
Concrete executions for C121.
-/
namespace S2P
open Spec
namespace SB

/-- Five items, room for three. -/
def wFive : List A := wStart 7 ++ wItem 0 1 ++ wItem 0 2 ++ wItem 0 3 ++ wItem 0 4 ++ wItem 0 5

/-- Meets C121: `range(2, 9)` finds what is left of the items 2 to 5, `range(4, 9, 2)` is complete, `tail()` and `head()`. -/
theorem C121_meets : ∃ s s1 s2 s3 s4 : S, SB.init.exec (mkCfg (some 3) true) wFive = some s ∧ storedIn 0 s.log = [1, 2, 3, 4, 5] ∧
    Returns (mkCfg (some 3) true) s 0 0 (.range 2 9 none false (some false) false false false) (.ok (.many [3, 4, 5])) s1 ∧
    Returns (mkCfg (some 3) true) s1 0 0 (.range 4 9 (some 2) true (some false) false false false) (.ok (.many [4])) s2 ∧
    ((storedIn 0 s.log).filter fun v => decide (4 ≤ (mkCfg (some 3) true).key v)).length ≤ 3 ∧
    Returns (mkCfg (some 3) true) s2 0 0 (.tail true false false) (.ok (.one 5)) s3 ∧
    Returns (mkCfg (some 3) true) s3 0 0 (.head true) (.ok (.one 3)) s4 :=
  ⟨_, _, _, _, _, rfl, rfl, ⟨rfl, _, rfl, rfl⟩, ⟨rfl, _, rfl, rfl⟩, by decide +kernel, ⟨rfl, _, rfl, rfl⟩, ⟨rfl, _, rfl, rfl⟩⟩

/-- Three items, `drop(2)`. -/
def wThree : List A := wStart 7 ++ wItemM 0 1 ++ wItemM 0 2 ++ wItemM 0 3 ++ [.drop 0 2, .dropGo 0]

/-- The same with `auto_drop=False` and room for five, the two oldest dropped. -/
theorem C121_meets_drop : ∃ s s1 : S, SB.init.exec (mkCfg (some 5) false) wThree = some s ∧ storedIn 0 s.log = [1, 2, 3] ∧
    droppedFrom 0 s.log = [1, 2] ∧ SB.init.Settled (mkCfg (some 5) false) wThree ∧
    Returns (mkCfg (some 5) false) s 0 0 (.range 2 9 none false (some false) false false false) (.ok (.many [3])) s1 :=
  ⟨_, _, rfl, rfl, rfl, settled_of_check rfl, ⟨rfl, _, rfl, rfl⟩⟩

end SB
end S2P
