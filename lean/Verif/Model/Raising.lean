import Verif.Py
import Batteries.Data.List.Basic
/-
stream2py/utility/sorted_deque.py and sorted_collection.py once more (see Model/SortedDeque.lean), now with everything that user code may do wrong:
key functions that raise, keys and items whose comparisons raise or contradict each other, bounds that `collections.deque` rejects; and with the
attributes `_given_key` and `_maxlen` that can get out of step with the rest.
-/
namespace S2P

/-- What keys and items do when they are compared, and `sorted`. `ltK a b`: `a < b` as `bisect` asks, and `b > a` as `append` and `find_last_gt` ask.
`ident`: the key function `lambda x: x` (sorted_collection.py 81). `sort`: `sorted` on a list of `(key, item)` tuples. -/
structure PyEnv (K V : Type) where
  ltK : K → K → Py Bool
  eqK : K → K → Py Bool
  ltV : V → V → Py Bool
  eqV : V → V → Py Bool
  ident : V → Py K
  sort : List (K × V) → Py (List (K × V))

namespace PyEnv
variable {K V : Type}

/-- Python `<` on 2-tuples: the first components that are not `==` decide. -/
def tupleLt (e : PyEnv K V) (a b : K × V) : Py Bool := do
  if ← e.eqK a.1 b.1 then
    if ← e.eqV a.2 b.2 then .ok false else e.ltV a.2 b.2
  else e.ltK a.1 b.1

/-- What is assumed of `sorted`, whatever the comparisons do: if it returns, it returns a rearrangement of its input, any two neighbours of which it
has compared, with the result that the first does not come after the second. True of CPython's sort (runs, binary insertion, merging). -/
structure Sorts (e : PyEnv K V) : Prop where
  perm : ∀ l l', e.sort l = .ok l' → l'.Perm l
  neighbours : ∀ l l', e.sort l = .ok l' → l'.IsChain fun x y => e.tupleLt y x = .ok false ∨ e.tupleLt x y = .ok true
  nil : e.sort [] = .ok []

end PyEnv

/-- sorted_deque.py 21-25, sorted_collection.py 79-85: the attributes. `cap`: the bound of the two containers `_keys` and `_items`, which is `none` also
when they are plain lists. -/
structure XD (K V : Type) where
  keys : List K
  items : List V
  key : V → Py K
  given : Option (V → Py K)
  maxlen : Option Nat
  cap : Option Nat

namespace XD
variable {K V : Type}

/-- sorted_collection.py 82: `sorted((key(item), item) for item in iterable)`. -/
def decorated (e : PyEnv K V) (key : V → Py K) (iterable : List V) : Py (List (K × V)) := do
  let l ← iterable.mapM fun v => do let k ← key v; pure (k, v)
  e.sort l

/-- sorted_deque.py 21-25 and sorted_collection.py 79-85 `__init__`, run on an object. `m`: the bound, or what `deque(..., maxlen=m)` raises for it
(`ValueError` if it is negative, `TypeError` if it is not an integer); this is raised at line 23, when `SortedCollection.__init__` is done. -/
def init (e : PyEnv K V) (s : XD K V) (iterable : List V) (given : Option (V → Py K)) (m : Py (Option Nat)) : XD K V × Py Unit :=
  match decorated e (given.getD e.ident) iterable with
  | .error x => ({ s with given := given }, .error x)
  | .ok d =>
    match m with
    | .error x => ({ s with given := given, keys := d.map (·.1), items := d.map (·.2), key := given.getD e.ident, cap := none }, .error x)
    | .ok m => ({ keys := dqOf m (d.map (·.1)), items := dqOf m (d.map (·.2)), key := given.getD e.ident, given := given, maxlen := m, cap := m }, .ok ())

/-- `SortedDeque(iterable, key, maxlen)`: no object if `__init__` raises. -/
def new (e : PyEnv K V) (iterable : List V) (given : Option (V → Py K)) (m : Py (Option Nat)) : Py (XD K V) :=
  match init e { keys := [], items := [], key := e.ident, given := none, maxlen := none, cap := none } iterable given m with
  | (s, .ok _) => .ok s
  | (_, .error x) => .error x

/-- `bisect.bisect_left(_keys, k)`. -/
def bisectL (e : PyEnv K V) (s : XD K V) (k : K) : Py Nat := bisectLoop (fun x => e.ltK x k) s.keys s.keys.length 0 s.keys.length

/-- `bisect.bisect_right(_keys, k)`. -/
def bisectR (e : PyEnv K V) (s : XD K V) (k : K) : Py Nat := bisectLoop (fun x => (e.ltK k x).map (! ·)) s.keys s.keys.length 0 s.keys.length

/-- sorted_deque.py 92-109. The `except` of 105 also catches an `IndexError` of the comparison; it is raised again (107). -/
def append (e : PyEnv K V) (s : XD K V) (v : V) : XD K V × Py Unit :=
  match s.key v with
  | .error x => (s, .error x)
  | .ok k =>
    match s.keys.getLast? with
    | none => ({ s with keys := dqAppend s.cap s.keys k, items := dqAppend s.cap s.items v }, .ok ())
    | some l => match e.ltK l k with
      | .error x => (s, .error x)
      | .ok false => (s, .error .valueError)
      | .ok true => ({ s with keys := dqAppend s.cap s.keys k, items := dqAppend s.cap s.items v }, .ok ())

/-- sorted_collection.py 151-152 / 158-159. -/
def insertAt (s : XD K V) (i : Nat) (k : K) (v : V) : XD K V × Py Unit :=
  match dqInsert s.cap s.keys i k with
  | .error x => (s, .error x)
  | .ok ks => match dqInsert s.cap s.items i v with
    | .error x => ({ s with keys := ks }, .error x)
    | .ok is => ({ s with keys := ks, items := is }, .ok ())

/-- sorted_collection.py 147-152. -/
def insert (e : PyEnv K V) (s : XD K V) (v : V) : XD K V × Py Unit :=
  match s.key v with
  | .error x => (s, .error x)
  | .ok k => match s.bisectL e k with
    | .error x => (s, .error x)
    | .ok i => s.insertAt i k v

/-- sorted_collection.py 154-159. -/
def insertRight (e : PyEnv K V) (s : XD K V) (v : V) : XD K V × Py Unit :=
  match s.key v with
  | .error x => (s, .error x)
  | .ok k => match s.bisectR e k with
    | .error x => (s, .error x)
    | .ok i => s.insertAt i k v

/-- `deque.index` / `list.index` on a slice beginning at position `i`: the first element that is equal. -/
def search (e : PyEnv K V) (v : V) : Nat → List V → Py Nat
  | _, [] => .error .valueError
  | i, w :: ws => do if ← e.eqV w v then .ok i else search e v (i + 1) ws

/-- sorted_deque.py 78-83. -/
def index (e : PyEnv K V) (s : XD K V) (v : V) : Py Nat := do
  let k ← s.key v
  let i ← s.bisectL e k
  let j ← s.bisectR e k
  search e v i ((s.items.take j).drop i)

/-- sorted_collection.py 161-165. -/
def remove (e : PyEnv K V) (s : XD K V) (v : V) : XD K V × Py Unit :=
  match s.index e v with
  | .error x => (s, .error x)
  | .ok i => match dqDel s.keys i with
    | .error x => (s, .error x)
    | .ok ks => match dqDel s.items i with
      | .error x => ({ s with keys := ks }, .error x)
      | .ok is => ({ s with keys := ks, items := is }, .ok ())

/-- sorted_deque.py 150-152. -/
def dropLoop : Nat → XD K V → XD K V × Py Unit
  | 0, s => (s, .ok ())
  | n + 1, s => match dqDel s.keys 0 with
    | .error x => (s, .error x)
    | .ok ks => match dqDel s.items 0 with
      | .error x => ({ s with keys := ks }, .error x)
      | .ok is => dropLoop n { s with keys := ks, items := is }

/-- sorted_collection.py 167-172. -/
def find (e : PyEnv K V) (s : XD K V) (k : K) : Py V := do
  let i ← s.bisectL e k
  if i ≠ s.items.length then
    let ki ← dqGet s.keys i
    if ← e.eqK ki k then dqGet s.items i else .error .valueError
  else .error .valueError

/-- sorted_collection.py 174-179. -/
def findLe (e : PyEnv K V) (s : XD K V) (k : K) : Py V := do
  let i ← s.bisectR e k
  if i ≠ 0 then dqGet s.items (i - 1) else .error .valueError

/-- sorted_collection.py 181-186. -/
def findLt (e : PyEnv K V) (s : XD K V) (k : K) : Py V := do
  let i ← s.bisectL e k
  if i ≠ 0 then dqGet s.items (i - 1) else .error .valueError

/-- sorted_collection.py 188-193. -/
def findGe (e : PyEnv K V) (s : XD K V) (k : K) : Py V := do
  let i ← s.bisectL e k
  if i ≠ s.items.length then dqGet s.items i else .error .valueError

/-- sorted_collection.py 195-200. -/
def findGt (e : PyEnv K V) (s : XD K V) (k : K) : Py V := do
  let i ← s.bisectR e k
  if i ≠ s.items.length then dqGet s.items i else .error .valueError

/-- sorted_deque.py 133-142. -/
def findLastGt (e : PyEnv K V) (s : XD K V) (k : K) : Py V :=
  match s.keys.getLast? with
  | none => .error .valueError
  | some l => do if ← e.ltK k l then dqLast s.items else .error .valueError

/-- sorted_deque.py 69-70: what `pickle.loads(pickle.dumps(d))` and `copy.copy(d)` make of it. -/
def rebuilt (e : PyEnv K V) (s : XD K V) : Py (XD K V) := new e s.items s.given (.ok s.maxlen)

/-- The calls that can change a deque. `setMaxlen`: the assignment of a bound that is another object than the old one (sorted_deque.py 42-44);
`setKey`: of a key function that is another object than the old one (sorted_collection.py 90-92, which resets the bound, C72); `delMaxlen` and `delKey`:
sorted_deque.py 46-47, 51-53, sorted_collection.py 94-95. -/
inductive Op (K V : Type) where
  | append (v : V) | insert (v : V) | insertRight (v : V) | remove (v : V)
  | drop (n : Int) | clear | setMaxlen (m : Py (Option Nat)) | delMaxlen | setKey (f : V → Py K) | delKey

/-- One call: the deque afterwards and the outcome. -/
def apply (e : PyEnv K V) (s : XD K V) : Op K V → XD K V × Py Unit
  | .append v => s.append e v
  | .insert v => s.insert e v
  | .insertRight v => s.insertRight e v
  | .remove v => s.remove e v
  | .drop n => dropLoop n.toNat s
  | .clear => s.init e [] (some s.key) (.ok s.maxlen) -- sorted_deque.py 55-56
  | .setMaxlen m => s.init e s.items (some s.key) m -- 42-44
  | .delMaxlen => if s.maxlen = none then (s, .ok ()) else s.init e s.items (some s.key) (.ok none) -- 46-47
  | .setKey f => s.init e s.items (some f) (.ok none) -- sorted_collection.py 90-92, 97
  | .delKey => s.init e s.items none (.ok s.maxlen) -- sorted_collection.py 94-95, sorted_deque.py 51-53

/-- All deques a program can have: one is made, then any calls are made on it, whether they raise or not. -/
inductive Reachable (e : PyEnv K V) : XD K V → Prop
  | new {iterable : List V} {given : Option (V → Py K)} {m : Py (Option Nat)} {s : XD K V} : new e iterable given m = .ok s → Reachable e s
  | step {s : XD K V} (op : Op K V) : Reachable e s → Reachable e (s.apply e op).1

end XD
end S2P
