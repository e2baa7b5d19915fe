import Verif.Spec.Iterate
/-
Model of iterators over a SortedDeque or SortedCollection while it is used: sorted_collection.py 111-115 (`__iter__`, `__reversed__` return the iterators of
`_items`), CPython's `deque` iterators (a counter of changes is compared; the reversed one first looks whether it has anything left to give) and `list` iterators (a position,
which for the reversed one starts at the end of that time).
-/
namespace S2P
open Spec

/-- An iterator: the object it iterates over, that object's counter of changes and length when it was made, how many items it gave, its direction, and whether it
has let go of the list (lists) or has raised (deques, reversed). -/
structure DqIter where
  obj : Nat
  ver : Nat
  len : Nat
  pos : Nat
  rev : Bool
  done : Bool

/-- A SortedDeque (`lst = false`) or SortedCollection (`lst = true`) with the iterators made from it. `_items` is the object number `cur`; `objs` gives content
and counter of changes of every object that `_items` has been. -/
structure IterSD (K V : Type) where
  sd : SD K V
  cur : Nat
  objs : Nat → List V × Nat
  its : Nat → Option DqIter
  log : List (ItEv K V)

inductive ItAct (K V : Type) where
  | call (op : SD.Op K V)
  | iter (i : Nat) (rev : Bool)
  | next (i : Nat)

namespace IterSD
variable {K V : Type} [DecidableEq K] [LT K] [DecidableLT K] [BEq V] [LT V] [DecidableLT V]

/-- sorted_deque.py 21-25, sorted_collection.py 79-85. -/
def new (iterable : List V) (key : V → K) (keyNone : Py (Option K)) (maxlen : Option Nat) : IterSD K V :=
  let s := SD.new iterable key keyNone maxlen
  { sd := s, cur := 0, objs := fun _ => (s.items, 0), its := fun _ => none, log := [] }

/-- `_items` was changed in place: `deque.append`, `deque.insert`, `del deque[i]` count up the deque's `state` (a call that does it several times, here once). -/
def inPlace (s : IterSD K V) (t : SD K V) : IterSD K V :=
  { s with sd := t, objs := fun o => if o = s.cur then (t.items, (s.objs o).2 + 1) else s.objs o }

/-- `__init__` ran again and made a new `_items` (sorted_deque.py 43-56, sorted_collection.py 90-100). -/
def rebuilt (s : IterSD K V) (t : SD K V) : IterSD K V :=
  { s with sd := t, cur := s.cur + 1, objs := fun o => if o = s.cur + 1 then (t.items, 0) else s.objs o }

/-- A call. `copy()` and pickling make another deque. `drop(n)` (sorted_deque.py 150-152) deletes something iff `n > 0` and there is something. -/
def call (s : IterSD K V) (op : SD.Op K V) : IterSD K V :=
  let (t, r) := s.sd.apply op
  let s' := match op with
    | .append _ | .insert _ | .insertRight _ | .remove _ => match r with
      | .ok _ => s.inPlace t
      | .error _ => { s with sd := t }
    | .drop n => if 0 < n ∧ s.sd.items ≠ [] then s.inPlace t else { s with sd := t }
    | .clear | .setKey _ _ | .delKey _ _ => s.rebuilt t
    | .setMaxlen m => if m ≠ s.sd.maxlen then s.rebuilt t else s
    | .copy | .roundTrip => s
  { s' with log := s.log ++ [.called op r s.sd s'.sd] }

/-- What a `deque` iterator answers: `RuntimeError` if the deque has changed, otherwise the next item. The reversed one answers `StopIteration`, changed or not, when it
has given as many items as there were, and after it has raised. -/
def dqNext (s : IterSD K V) (it : DqIter) : ItAns V × DqIter :=
  let (l, v) := s.objs it.obj
  if it.rev && (it.done || decide (it.len ≤ it.pos)) then (.stop, it)
  else if v ≠ it.ver then (.runtimeError, { it with done := true })
  else match (if it.rev then l.reverse else l)[it.pos]? with
    | some x => (.item x, { it with pos := it.pos + 1 })
    | none => (.stop, it)

/-- What a `list` iterator answers: the item at its position (the reversed one counts down from the end of the time it was made); at the end it lets go of the list. -/
def listNext (s : IterSD K V) (it : DqIter) : ItAns V × DqIter :=
  if it.done then (.stop, it)
  else match (if it.rev then (if it.pos < it.len then (s.objs it.obj).1[it.len - 1 - it.pos]? else none) else (s.objs it.obj).1[it.pos]?) with
    | some x => (.item x, { it with pos := it.pos + 1 })
    | none => (.stop, { it with done := true })

/-- One step. -/
def step (lst : Bool) (s : IterSD K V) : ItAct K V → Option (IterSD K V)
  | .call op => some (s.call op)
  | .iter i rev =>
    some { s with its := fun j => if j = i then some ⟨s.cur, (s.objs s.cur).2, s.sd.items.length, 0, rev, false⟩ else s.its j, log := s.log ++ [.made i rev s.sd.items] }
  | .next i => match s.its i with
    | none => none
    | some it =>
      let (a, it') := if lst then s.listNext it else s.dqNext it
      some { s with its := fun j => if j = i then some it' else s.its j, log := s.log ++ [.next i a] }

def exec (lst : Bool) : IterSD K V → List (ItAct K V) → Option (IterSD K V)
  | s, [] => some s
  | s, a :: as => match s.step lst a with
    | some s' => s'.exec lst as
    | none => none

end IterSD
end S2P
