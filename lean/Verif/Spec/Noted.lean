import Mathlib.Order.Defs.LinearOrder
import Verif.Model.SortedDeque
import Verif.Spec.Sorted
/-
Reference semantics of a sorted deque whose items may change while they are in it: a list of notes (key an item had when it was put in, item).
Only the names of the calls (`SD.Op`) are taken from the model.
-/
namespace S2P.Spec
variable {K V : Type}

/-- The notes, oldest key first; the key function as the items are at present; the bound. -/
structure Noted (K V : Type) where
  notes : List (K × V)
  key : V → K
  maxlen : Option Nat

/-- What happens to a deque: items somewhere change, so that the key function now gives other keys (`change`); or a call is made, with `==` and `<` between
items being whatever they are at that moment. -/
inductive Happens (K V : Type) where
  | change (key : V → K)
  | call (eq : BEq V) (lt : LT V) (dec : DecidableLT V) (op : SD.Op K V)

namespace Noted
variable [LinearOrder K]

/-- Everything is noted afresh: Python's `sorted` of the pairs (present key, item), the newest `m` of them. -/
def afresh [BEq V] [LT V] [DecidableLT V] (l : List V) (key : V → K) (m : Option Nat) : Noted K V :=
  ⟨newest m (pySorted tupleLt (l.map fun v => (key v, v))), key, m⟩

/-- The items. -/
def items (p : Noted K V) : List V := p.notes.map (·.2)

/-- One call. The key of the argument is its present one; items inside count with the key noted. -/
def call [BEq V] [LT V] [DecidableLT V] (p : Noted K V) : SD.Op K V → Noted K V × Py Unit
  | .append v =>
    if mayAppend (·.1) p.notes (p.key v, v) then ({ p with notes := newest p.maxlen (p.notes ++ [(p.key v, v)]) }, .ok ()) else (p, .error .valueError)
  | .insert v =>
    if p.maxlen = some p.notes.length then (p, .error .indexError)
    else ({ p with notes := p.notes.filter (fun n => decide (n.1 < p.key v)) ++ (p.key v, v) :: p.notes.filter (fun n => decide (p.key v ≤ n.1)) }, .ok ())
  | .insertRight v =>
    if p.maxlen = some p.notes.length then (p, .error .indexError)
    else ({ p with notes := p.notes.filter (fun n => decide (n.1 ≤ p.key v)) ++ (p.key v, v) :: p.notes.filter (fun n => decide (p.key v < n.1)) }, .ok ())
  | .remove v =>
    if p.notes.any (fun n => decide (n.1 = p.key v) && n.2 == v)
    then ({ p with notes := p.notes.eraseP (fun n => decide (n.1 = p.key v) && n.2 == v) }, .ok ()) else (p, .error .valueError)
  | .drop n => ({ p with notes := p.notes.drop n.toNat }, if n ≤ p.notes.length then .ok () else .error .indexError)
  | .clear => ({ p with notes := [] }, .ok ())
  | .setMaxlen m => (if m ≠ p.maxlen then afresh p.items p.key m else p, .ok ())
  | .setKey k _ => (afresh p.items k none, .ok ())
  | .delKey k _ => (afresh p.items k p.maxlen, .ok ())
  | .copy => (afresh p.items p.key p.maxlen, .ok ())
  | .roundTrip => (afresh p.items p.key p.maxlen, .ok ())

/-- Any number of happenings; the outcomes of the calls, in order. -/
def run (p : Noted K V) : List (Happens K V) → Noted K V × List (Py Unit)
  | [] => (p, [])
  | .change k :: hs => run { p with key := k } hs
  | .call eq lt dec op :: hs =>
    let (q, r) := @call K V _ eq lt dec p op
    let (q', rs) := run q hs
    (q', r :: rs)

end Noted
end S2P.Spec
