import Verif.Props.Onward
import Verif.Props.EndToEndWitness
/-
Concrete case that meets C162.
-/
namespace S2P
open Spec
namespace SB

/-- A reader that has seen 1 and 2 of session 0 is attached to session 1, which holds 1, 2, 3; its consumer calls `next`, then 4 is stored. -/
theorem C162_meets : ∃ (s s1 s2 : S) (c c' c2 : Cons Nat Nat), SB.init.exec (mkCfg none true) (wStart 7 ++ wItem 0 1 ++ wItem 0 2 ++
      [.rd 0 (.call (.rd 0 (.read (some 2) none none none)))] ++ wStop 0 ++ wStart 8 ++ wItem 1 1 ++ wItem 1 2 ++ wItem 1 3) = some s ∧
    s.start = none ∧ s.view 0 = some c ∧ current s.log = some 1 ∧ s.view 1 = some c' ∧ c'.pc 5 = .idle ∧ (c.ch.readers 0).lastItem = some 2 ∧
    s.step (mkCfg none true) (.attach 0 0 5) = some s1 ∧
    (∀ a ∈ ([.rd 1 (.callNext 5), .rd 1 (.go 5)] ++ wItem 1 4 : List A), OneUser 1 5 a) ∧
    s1.exec (mkCfg none true) ([.rd 1 (.callNext 5), .rd 1 (.go 5)] ++ wItem 1 4) = some s2 ∧ s2.view 1 = some c2 ∧
    received c2 5 = [3] ∧ unreadOf c2.ch 5 = [4] ∧ storedIn 1 s2.log = [1, 2, 3, 4] ∧ s2.items 1 = [1, 2, 3, 4] :=
  ⟨_, _, _, _, _, _, rfl, rfl, rfl, rfl, rfl, rfl, rfl, rfl, oneUser_of_check rfl, rfl, rfl, rfl, rfl, rfl, rfl⟩

/-- With room for two items, a consumer that comes late misses some of them, and gets none twice. -/
theorem C162_meets_bounded : ∃ (s1 s2 : S) (c1 c2 : Cons Nat Nat), SB.init.exec (mkCfg (some 2) true) (wStart 7 ++ wItem 0 1 ++ wNext 0) = some s1 ∧
    s1.view 0 = some c1 ∧ c1.pc 0 = .idle ∧ (c1.ch.readers 0).lastItem = some 1 ∧
    (∀ a ∈ (wItem 0 2 ++ wItem 0 3 ++ wItem 0 4 ++ wNext 0 : List A), OneUser 0 0 a) ∧
    s1.exec (mkCfg (some 2) true) (wItem 0 2 ++ wItem 0 3 ++ wItem 0 4 ++ wNext 0) = some s2 ∧ s2.view 0 = some c2 ∧
    received c2 0 = [1, 3] ∧ unreadOf c2.ch 0 = [4] :=
  ⟨_, _, _, _, rfl, rfl, rfl, rfl, oneUser_of_check rfl, rfl, rfl, rfl, rfl⟩

end SB
end S2P
