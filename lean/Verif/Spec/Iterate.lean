import Verif.Model.SortedDeque
/-
What an iterator over a SortedDeque or SortedCollection owes its user, as a machine that watches what happens. From the model it uses the names of the calls
(`SD.Op`) and the record of a deque.
-/
namespace S2P.Spec
variable {K V : Type}

/-- An answer of `next(iterator)`. -/
inductive ItAns (V : Type) where
  | item (v : V) | stop | runtimeError
  deriving DecidableEq

/-- What is seen: a call on the deque, with the deque before and after and the outcome; `iter(d)` or `reversed(d)` giving iterator `i`; `next` of it. -/
inductive ItEv (K V : Type) where
  | called (op : SD.Op K V) (out : Py Unit) (before after : SD K V)
  | made (i : Nat) (rev : Bool) (items : List V)
  | next (i : Nat) (ans : ItAns V)

/-- Does the call put the deque on a new footing? (`clear()`, assigning `maxlen` a different value, assigning or deleting the key.) -/
def rebuilds (before : SD K V) : SD.Op K V → Bool
  | .clear | .setKey _ _ | .delKey _ _ => true
  | .setMaxlen m => decide (m ≠ before.maxlen)
  | _ => false

/-- Has the call put something in or taken something out? -/
def alters (before after : SD K V) (out : Py Unit) : SD.Op K V → Bool
  | .append _ | .insert _ | .insertRight _ | .remove _ => out.isOk
  | .drop _ => decide (after.items.length ≠ before.items.length)
  | _ => false

/-- An iterator over a deque: the items as they were when it was made, in the order of iteration; its direction; how many were given; whether the deque was altered
since, before being rebuilt; whether the iterator has raised `RuntimeError`. -/
structure Watch (V : Type) where
  items : List V
  rev : Bool
  given : Nat
  rebuilt : Bool
  altered : Bool
  failed : Bool

/-- It owes: the items of the time it was made, one after the other; but `RuntimeError` once the deque was altered. An iterator of `reversed(d)` however ends, altered or
not, when all were given, and raises only once. -/
def Watch.answer (w : Watch V) : ItAns V :=
  if w.rev && (w.failed || decide (w.items.length ≤ w.given)) then .stop else if w.altered then .runtimeError else match w.items[w.given]? with
    | some v => .item v
    | none => .stop

/-- What it has seen of one event. -/
def watch1 (i : Nat) (w : Option (Watch V)) : ItEv K V → Option (Watch V)
  | .made j rev l => if j = i then some ⟨if rev then l.reverse else l, rev, 0, false, false, false⟩ else w
  | .next j a => if j = i then w.map fun w =>
      { w with given := w.given + (if a matches .item _ then 1 else 0), failed := w.failed || decide (a matches .runtimeError) } else w
  | .called op out b a => w.map fun w =>
      { w with rebuilt := w.rebuilt || rebuilds b op, altered := w.altered || (!w.rebuilt && alters b a out op) }

/-- Iterator `i` after the events. -/
def watch (i : Nat) (l : List (ItEv K V)) : Option (Watch V) := l.foldl (watch1 i) none

/-- An iterator over a SortedCollection: the items of the collection it was made from as they are now (until it is rebuilt), its direction, how many items there were
when it was made, how many were given, whether it has ended. -/
structure LWatch (V : Type) where
  items : List V
  rev : Bool
  size : Nat
  given : Nat
  rebuilt : Bool
  ended : Bool

/-- It owes: for the k-th call the item that is at position k at that moment; backwards, the one at position n - k, where n is how many there were when it was made; once
it has ended, nothing any more. -/
def LWatch.answer (w : LWatch V) : ItAns V :=
  if w.ended || (w.rev && decide (w.size ≤ w.given)) then .stop else match w.items[if w.rev then w.size - 1 - w.given else w.given]? with
    | some v => .item v
    | none => .stop

def lwatch1 (i : Nat) (w : Option (LWatch V)) : ItEv K V → Option (LWatch V)
  | .made j rev l => if j = i then some ⟨l, rev, l.length, 0, false, false⟩ else w
  | .next j a => if j = i then w.map fun w => { w with given := w.given + 1, ended := w.ended || decide (a matches .stop) } else w
  | .called op _ b a => w.map fun w =>
      if w.rebuilt then w else if rebuilds b op then { w with rebuilt := true }
      else match op with
        | .copy | .roundTrip => w
        | _ => { w with items := a.items }

def lwatch (i : Nat) (l : List (ItEv K V)) : Option (LWatch V) := l.foldl (lwatch1 i) none

end S2P.Spec
