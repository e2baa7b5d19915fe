import Mathlib.Order.Nat
import Verif.Props.Aged
/-
C160: a deque in which an item changes its key.
-/
namespace S2P.SD
open Spec

/-- Items are objects 1, 2, 3, ... whose key is at first their number. -/
def agKey : Nat → Nat := fun v => v

/-- Object 2 has been changed and now has key 9. -/
def agKey' : Nat → Nat := fun v => if v = 2 then 9 else v

def ag (op : Op Nat Nat) : Happens Nat Nat := .call inferInstance inferInstance inferInstance op

/-- Object 2 changes while it is in the deque, then objects 2 and 5 are given to it. -/
def agLife : List (Happens Nat Nat) := [.change agKey', ag (.remove 2), ag (.append 5), ag (.append 2)]

/-- **C160** meets: object 2 is in the deque but is not found and cannot be removed, `find(2)` still finds it; it may be appended a second time, under its new
key; after `copy()` everything is sorted by the present keys and it is found (twice). -/
theorem C160_meets :
    let s := ((new [3, 1, 2] agKey (.ok none) none).live (agLife.take 2)).1
    let t := (new [3, 1, 2] agKey (.ok none) none).live agLife
    s.items = [1, 2, 3] ∧ s.contains 2 = .ok false ∧ s.find (some 2) = .ok 2 ∧ s.find (some 9) = .error .valueError ∧
    t.2 = [.error .valueError, .ok (), .ok ()] ∧ t.1.items = [1, 2, 3, 5, 2] ∧ t.1.contains 2 = .ok true ∧ t.1.count 2 = .ok 1 ∧
    t.1.copy.items = [1, 3, 5, 2, 2] ∧ t.1.copy.count 2 = .ok 2 := by
  refine ⟨rfl, rfl, rfl, rfl, rfl, rfl, rfl, rfl, rfl, rfl⟩

end S2P.SD
