import Mathlib.Order.Nat
import Verif.Props.Iterate
/-
C161: iterations that are disturbed.
-/
namespace S2P.IterSD
open Spec

abbrev W := IterSD Nat Nat

/-- Keys are the items. -/
def w0 (m : Option Nat) : W := new [1, 2, 3] id (.ok none) m

/-- What iterator `i` answered. -/
def answers (i : Nat) (l : List (ItEv Nat Nat)) : List (ItAns Nat) := l.filterMap fun | .next j a => if j = i then some a else none | _ => none

/-- A deque: iterator 0 is spoiled by an append, a refused append spoils nothing, iterator 1 (backwards) goes on over the items that `clear()` took away, also after
further appends. -/
theorem C161_meets : ∃ s : W, (w0 (some 3)).exec false
      ([.iter 0 false, .next 0, .call (.append 2), .next 0, .iter 1 true, .next 1, .call .clear, .call (.append 9), .next 1, .next 1, .next 1, .next 0, .iter 2 false,
        .next 2, .call (.append 10), .next 2] : List (ItAct Nat Nat)) = some s ∧
    answers 0 s.log = [.item 1, .item 2, .item 3] ∧ answers 1 s.log = [.item 3, .item 2, .item 1, .stop] ∧ answers 2 s.log = [.item 9, .runtimeError] := ⟨_, rfl, rfl, rfl, rfl⟩

/-- A deque iterated backwards: iterator 0 has given everything before the append and ends all the same; iterator 1 raises once and then ends; a forward one that has
given everything raises, again and again. -/
theorem C161_meets_reversed : ∃ s : W, (w0 none).exec false
      ([.iter 0 true, .iter 1 true, .iter 2 false, .next 0, .next 0, .next 0, .next 1, .next 2, .next 2, .next 2, .next 2, .call (.append 4),
        .next 0, .next 1, .next 1, .next 1, .next 2, .next 2] : List (ItAct Nat Nat)) = some s ∧
    answers 0 s.log = [.item 3, .item 2, .item 1, .stop] ∧ answers 1 s.log = [.item 3, .runtimeError, .stop, .stop] ∧
    answers 2 s.log = [.item 1, .item 2, .item 3, .stop, .runtimeError, .runtimeError] := ⟨_, rfl, rfl, rfl, rfl⟩

/-- A collection iterated backwards: an insert of a smaller item makes it leave one out, a removal makes it give one twice; after removals an iterator ends early, for good. -/
theorem C161_collection_reversed : ∃ s u t : W,
    (w0 none).exec true ([.iter 0 true, .next 0, .next 0, .call (.insert 0), .next 0, .next 0] : List (ItAct Nat Nat)) = some s ∧
    answers 0 s.log = [.item 3, .item 2, .item 0, .stop] ∧
    (w0 none).exec true ([.iter 0 true, .next 0, .call (.remove 1), .next 0, .next 0, .next 0] : List (ItAct Nat Nat)) = some u ∧
    answers 0 u.log = [.item 3, .item 3, .item 2, .stop] ∧
    (w0 none).exec true ([.iter 0 true, .iter 1 true, .next 0, .call (.remove 3), .call (.remove 2), .next 0, .next 1, .call (.insert 5), .call (.insert 6), .next 0, .next 1] :
      List (ItAct Nat Nat)) = some t ∧ answers 0 t.log = [.item 3, .stop, .stop] ∧ answers 1 t.log = [.stop, .stop] := ⟨_, _, _, rfl, rfl, rfl, rfl, rfl, rfl, rfl⟩

/-- A collection: an item inserted in front makes the iterator give an item twice; one removed in front makes it leave one out. -/
theorem C161_twice_and_left_out : ∃ s t : W,
    (w0 none).exec true ([.iter 0 false, .next 0, .next 0, .call (.insert 0), .next 0, .next 0, .next 0] : List (ItAct Nat Nat)) = some s ∧
    answers 0 s.log = [.item 1, .item 2, .item 2, .item 3, .stop] ∧
    (w0 none).exec true ([.iter 0 false, .next 0, .call (.remove 1), .next 0, .next 0, .call (.insert 7), .next 0] : List (ItAct Nat Nat)) = some t ∧
    answers 0 t.log = [.item 1, .item 3, .stop, .stop] := ⟨_, _, rfl, rfl, rfl, rfl⟩

/-- Meets `C161_insert_behind`: items inserted behind are given in their turn. -/
theorem C161_behind_meets : ∃ (s t : W) (w : LWatch Nat), (w0 none).exec true ([.iter 0 false, .next 0, .next 0] : List (ItAct Nat Nat)) = some s ∧
    lwatch 0 s.log = some w ∧ w.given = 2 ∧ w.items = [1, 2, 3] ∧ w.rev = false ∧ w.rebuilt = false ∧ (s.its 0).isSome ∧ s.sd.maxlen = none ∧
    s.exec true ([.call (.insert 3), .call (.insertRight 5), .next 0, .next 0, .next 0, .next 0] : List (ItAct Nat Nat)) = some t ∧
    answers 0 t.log = [.item 1, .item 2, .item 3, .item 3, .item 5, .stop] := ⟨_, _, _, rfl, rfl, rfl, rfl, rfl, rfl, rfl, rfl, rfl, rfl⟩

end S2P.IterSD
