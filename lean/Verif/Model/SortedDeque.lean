import Verif.Py
/-
Model of stream2py/utility/sorted_collection.py and stream2py/utility/sorted_deque.py.

`SortedDeque` keeps two parallel deques `_keys` and `_items` with the same `maxlen`.
`SortedCollection` is the same with plain lists, i.e. `maxlen = none`; the overridden methods
`__contains__`, `index`, `count` (sorted_deque.py 72-90 / sorted_collection.py 127-145) compute the same values.
-/
namespace S2P

/-- sorted_deque.py 9-25, sorted_collection.py 79-85: the attributes `_keys`, `_items`, `_key`, `_maxlen`.
`key` is the key function on items. `keyNone` is what the key function does when called on `None`
(used by buffer_reader.py 267): an exception, `None` (`ok none`) or a key.
Simplification: `_given_key` (only used by repr/pickle) is left out; the key function is pure. -/
structure SD (K V : Type) where
  keys : List K
  items : List V
  key : V → K
  keyNone : Py (Option K)
  maxlen : Option Nat

namespace SD
variable {K V : Type}

/-- `SortedDeque([], key, maxlen)`: what `__init__` gives on an empty iterable, whatever the key type's comparison
(stream_buffer.py 45 via locked_sorted_deque.py 31; `new_nil` shows it equals `new []`). -/
def empty (key : V → K) (keyNone : Py (Option K)) (maxlen : Option Nat) : SD K V := ⟨[], [], key, keyNone, maxlen⟩

section basic
variable [LT K] [DecidableLT K]

/-- sorted_collection.py 105-106 `__len__`. -/
def len (s : SD K V) : Nat := s.items.length

/-- sorted_collection.py 108-109 `__getitem__` with an integer index. -/
def getItem (s : SD K V) (i : Int) : Py V := dqGetInt s.items i

/-- sorted_deque.py 92-109 `append`. The comparison `k > _keys[-1]` is only reached when there is a last key;
the `IndexError` of `_keys[-1]` on an empty deque is swallowed (lines 105-107). -/
def append (s : SD K V) (item : V) : SD K V × Py Unit :=
  let k := s.key item
  match dqLast s.keys with
  | .ok l =>
    if ¬ (l < k) then (s, .error .valueError)
    else ({ s with keys := dqAppend s.maxlen s.keys k, items := dqAppend s.maxlen s.items item }, .ok ())
  | .error e =>
    if s.keys.length ≠ 0 then (s, .error e)
    else ({ s with keys := dqAppend s.maxlen s.keys k, items := dqAppend s.maxlen s.items item }, .ok ())

/-- sorted_deque.py 123-131 `range_by_index`. -/
def rangeByIndex (s : SD K V) (i j : Nat) (step : Option Int) : Py (List V) :=
  islice s.items i j step

/-- sorted_deque.py 111-121 `range`. -/
def range (s : SD K V) (start stop : Option K) (step : Option Int) : Py (List V) := do
  let i ← bisectLeft s.keys start
  let j ← bisectRight s.keys stop
  s.rangeByIndex i j step

/-- sorted_deque.py 133-142 `find_last_gt`: `_keys[-1] > k`, `IndexError` on an empty deque becomes `ValueError`. -/
def findLastGt (s : SD K V) (k : Option K) : Py V :=
  match dqLast s.keys with
  | .ok l =>
    match ltPy k (some l) with
    | .error e => .error e
    | .ok true => dqLast s.items
    | .ok false => .error .valueError
  | .error e => if s.keys.length ≠ 0 then .error e else .error .valueError

/-- sorted_deque.py 150-152, the loop of `drop`: `n` times `del _keys[0]; del _items[0]`, stopping at the first exception
with whatever has been deleted so far. -/
def dropLoop : Nat → SD K V → SD K V × Py Unit
  | 0, s => (s, .ok ())
  | n + 1, s =>
    match dqDel s.keys 0 with
    | .error e => (s, .error e)
    | .ok ks =>
      match dqDel s.items 0 with
      | .error e => ({ s with keys := ks }, .error e)
      | .ok is => dropLoop n { s with keys := ks, items := is }

/-- sorted_deque.py 144-152 `drop(n)`; `range(n)` is empty for negative `n`. -/
def drop (s : SD K V) (n : Int) : SD K V × Py Unit := dropLoop n.toNat s

/-- sorted_collection.py 167-172 `find`. -/
def find [DecidableEq K] (s : SD K V) (k : Option K) : Py V := do
  let i ← bisectLeft s.keys k
  if i ≠ s.len then
    let ki ← dqGet s.keys i
    if some ki = k then dqGet s.items i else .error .valueError
  else .error .valueError

/-- sorted_collection.py 174-179 `find_le`. -/
def findLe (s : SD K V) (k : Option K) : Py V := do
  let i ← bisectRight s.keys k
  if i ≠ 0 then dqGet s.items (i - 1) else .error .valueError

/-- sorted_collection.py 181-186 `find_lt`. -/
def findLt (s : SD K V) (k : Option K) : Py V := do
  let i ← bisectLeft s.keys k
  if i ≠ 0 then dqGet s.items (i - 1) else .error .valueError

/-- sorted_collection.py 188-193 `find_ge`. -/
def findGe (s : SD K V) (k : Option K) : Py V := do
  let i ← bisectLeft s.keys k
  if i ≠ s.len then dqGet s.items i else .error .valueError

/-- sorted_collection.py 195-200 `find_gt`. -/
def findGt (s : SD K V) (k : Option K) : Py V := do
  let i ← bisectRight s.keys k
  if i ≠ s.len then dqGet s.items i else .error .valueError

/-- sorted_deque.py 72-76 `__contains__`. -/
def contains [BEq V] (s : SD K V) (item : V) : Py Bool := do
  let k := s.key item
  let i ← bisectLeft s.keys (some k)
  let j ← bisectRight s.keys (some k)
  let sl ← islice s.items i j none
  .ok (sl.any (· == item))

/-- sorted_deque.py 78-83 `index`. -/
def index [BEq V] (s : SD K V) (item : V) : Py Nat := do
  let k := s.key item
  let i ← bisectLeft s.keys (some k)
  let j ← bisectRight s.keys (some k)
  dqIndex s.items item i j

/-- sorted_deque.py 85-90 `count`. -/
def count [BEq V] (s : SD K V) (item : V) : Py Nat := do
  let k := s.key item
  let i ← bisectLeft s.keys (some k)
  let j ← bisectRight s.keys (some k)
  let sl ← islice s.items i j none
  .ok (sl.countP (· == item))

/-- sorted_collection.py 151-152 / 158-159: `_keys.insert(i, k)` then `_items.insert(i, item)`. -/
def insertAt (s : SD K V) (i : Nat) (item : V) : SD K V × Py Unit :=
  match dqInsert s.maxlen s.keys i (s.key item) with
  | .error e => (s, .error e)
  | .ok ks =>
    match dqInsert s.maxlen s.items i item with
    | .error e => ({ s with keys := ks }, .error e)
    | .ok is => ({ s with keys := ks, items := is }, .ok ())

/-- sorted_collection.py 147-152 `insert`. -/
def insert (s : SD K V) (item : V) : SD K V × Py Unit :=
  match bisectLeft s.keys (some (s.key item)) with
  | .error e => (s, .error e)
  | .ok i => s.insertAt i item

/-- sorted_collection.py 154-159 `insert_right`. -/
def insertRight (s : SD K V) (item : V) : SD K V × Py Unit :=
  match bisectRight s.keys (some (s.key item)) with
  | .error e => (s, .error e)
  | .ok i => s.insertAt i item

/-- sorted_collection.py 161-165 `remove`. -/
def remove [BEq V] (s : SD K V) (item : V) : SD K V × Py Unit :=
  match s.index item with
  | .error e => (s, .error e)
  | .ok i =>
    match dqDel s.keys i with
    | .error e => (s, .error e)
    | .ok ks =>
      match dqDel s.items i with
      | .error e => ({ s with keys := ks }, .error e)
      | .ok is => ({ s with keys := ks, items := is }, .ok ())

end basic

section init
variable [DecidableEq K] [LT K] [DecidableLT K] [BEq V] [LT V] [DecidableLT V]

/-- sorted_collection.py 79-85 and sorted_deque.py 21-25 `__init__`: sort the `(key, item)` tuples, split them, and put both
halves in deques bounded by `maxlen`.
Simplification: items whose keys tie are assumed comparable (Python raises `TypeError` otherwise), `maxlen ≥ 0`. -/
def new (iterable : List V) (key : V → K) (keyNone : Py (Option K)) (maxlen : Option Nat) : SD K V :=
  let decorated := pySorted tupleLt (iterable.map fun v => (key v, v))
  { keys := dqOf maxlen (decorated.map (·.1))
    items := dqOf maxlen (decorated.map (·.2))
    key := key, keyNone := keyNone, maxlen := maxlen }

/-- sorted_deque.py 55-56 `clear`. -/
def clear (s : SD K V) : SD K V := new [] s.key s.keyNone s.maxlen

/-- sorted_deque.py 58-59 `copy`. -/
def copy (s : SD K V) : SD K V := new s.items s.key s.keyNone s.maxlen

/-- sorted_deque.py 42-49 `maxlen` setter and deleter. The identity test `maxlen is not self._maxlen` of line 43 is
modelled by inequality. -/
def setMaxlen (s : SD K V) (maxlen : Option Nat) : SD K V :=
  if maxlen ≠ s.maxlen then new s.items s.key s.keyNone maxlen else s

/-- The `key` property setter, sorted_collection.py 90-92 and 97: the property object of line 97 holds the *base class*
`_setkey`, so `d.key = f` runs `self.__init__(self._items, key=key)` with the default `maxlen=None` of sorted_deque.py 21
(the override of sorted_deque.py 51-53 is not called). For an `f` that is a different object from the current key. -/
def setKey (s : SD K V) (key : V → K) (keyNone : Py (Option K)) : SD K V :=
  new s.items key keyNone none

/-- The `key` property deleter, sorted_collection.py 94-97 then sorted_deque.py 51-53: `self._setkey(None)` is dispatched
dynamically, so `maxlen` is kept. `ident` stands for the identity key function `lambda x: x` (sorted_collection.py 81),
for which keys and items are the same Python objects. -/
def delKey (s : SD K V) (ident : V → K) (keyNone : Py (Option K)) : SD K V :=
  new s.items ident keyNone s.maxlen

/-- sorted_deque.py 27-37 `from_jdict(d.to_jdict())` and 69-70 pickling through `__reduce__`: rebuild from the item list with
the same key and bound. -/
def roundTrip (s : SD K V) : SD K V := new s.items s.key s.keyNone s.maxlen

/-- The public calls that can change a deque (or, for `copy`/`roundTrip`, replace it by the returned one). -/
inductive Op (K V : Type) where
  | append (v : V) | insert (v : V) | insertRight (v : V) | remove (v : V)
  | drop (n : Int) | clear | setMaxlen (m : Option Nat)
  | setKey (key : V → K) (keyNone : Py (Option K)) | delKey (ident : V → K) (keyNone : Py (Option K))
  | copy | roundTrip

/-- One call: the deque afterwards and the outcome. -/
def apply (s : SD K V) : Op K V → SD K V × Py Unit
  | .append v => s.append v
  | .insert v => s.insert v
  | .insertRight v => s.insertRight v
  | .remove v => s.remove v
  | .drop n => s.drop n
  | .clear => (s.clear, .ok ())
  | .setMaxlen m => (s.setMaxlen m, .ok ())
  | .setKey k kn => (s.setKey k kn, .ok ())
  | .delKey k kn => (s.delKey k kn, .ok ())
  | .copy => (s.copy, .ok ())
  | .roundTrip => (s.roundTrip, .ok ())

/-- All deques a program can obtain: construct one, then make any calls, ignoring the exceptions. -/
inductive Reachable : SD K V → Prop
  | new (iterable : List V) (key : V → K) (keyNone : Py (Option K)) (maxlen : Option Nat) :
      Reachable (new iterable key keyNone maxlen)
  | step {s : SD K V} (op : Op K V) : Reachable s → Reachable (s.apply op).1

end init

end SD
end S2P
