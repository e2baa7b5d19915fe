import Verif.Props.LoopLeft
import Verif.Props.LoopWitness
/- A case for Props/LoopLeft.lean. -/
namespace S2P
open Spec
namespace SB

/-- Three items are stored; the loop has been given the first and its body runs. -/
def wBody : List A := wStart 7 ++ wItem 0 1 ++ wItem 0 2 ++ wItem 0 3 ++ [.rd 0 (.callIter 0), .rd 0 (.go 0)]
/-- `break`; then `next(reader)`; 4 is stored. -/
def wBreak : List A := .rd 0 (.leave 0) :: (wNext 0 ++ wItem 0 4)
/-- A new loop, four steps. -/
def wAgain : List A := .rd 0 (.callIter 0) :: List.replicate 4 (.rd 0 (.go 0))

/-- Meets C151: the first loop is given 1, `next` 2, the second loop 3 and 4. -/
theorem C151_meets : ∃ (s s1 s2 : S) (c c1 c2 : Cons Nat Nat), SB.init.exec (mkCfg none true) wBody = some s ∧ s.exec (mkCfg none true) wBreak = some s1 ∧
    s1.exec (mkCfg none true) wAgain = some s2 ∧ (∀ a ∈ wBody ++ wBreak ++ wAgain, OneUser 0 0 a) ∧
    (∀ a ∈ (List.replicate 4 (.rd 0 (.go 0)) : List A), isLeave 0 0 a = false) ∧ s.view 0 = some c ∧ c.pc 0 = .iterYield ∧ s1.view 0 = some c1 ∧
    unreadOf c1.ch 0 = [3, 4] ∧ s2.view 0 = some c2 ∧
    c2.evtsOf 0 = [.yielded (.one 1), .next (.one 2), .yielded (.one 3), .yielded (.one 4)] :=
  ⟨_, _, _, _, _, _, rfl, rfl, rfl, oneUser_of_check rfl, stay_of_check rfl, rfl, rfl, rfl, rfl, rfl, rfl⟩

end SB
end S2P
