import Verif.Model.Raising
import Verif.Spec.Calls
/-
stream2py/utility/sorted_deque.py and sorted_collection.py a third time (see Model/Raising.lean for what they return): which calls of user code
(key functions, comparisons) they make, in which order. `Props/Cost.lean` shows that leaving the calls out gives the functions of Model/Raising.lean.
Simplified: `sorted` (in `__init__`) is not looked into, so its comparisons are not listed; Python leaves out the `==` of an item with itself (same object).
-/
namespace S2P

/-- A computation with the calls of user code it made. -/
def Tr (K V α : Type) := Py α × List (UCall K V)

namespace Tr
variable {K V α β : Type}

def pure (a : α) : Tr K V α := (.ok a, [])
def raise (e : PyErr) : Tr K V α := (.error e, [])
/-- One statement after the other; an exception ends it. -/
def bind (x : Tr K V α) (f : α → Tr K V β) : Tr K V β :=
  match x.1 with
  | .error e => (.error e, x.2)
  | .ok a => ((f a).1, x.2 ++ (f a).2)

instance : Monad (Tr K V) where
  pure := pure
  bind := bind

/-- A call of user code. -/
def call (c : UCall K V) (r : Py α) : Tr K V α := (r, [c])
/-- Code that calls no user code. -/
def lift (r : Py α) : Tr K V α := (r, [])

end Tr

variable {K V : Type}

/-- `bisect.bisect_left` / `bisect.bisect_right` (see `bisectLoop` in Py.lean). -/
def bisectT (goRight : K → Tr K V Bool) (a : List K) : Nat → Nat → Nat → Tr K V Nat
  | 0, lo, _ => .pure lo
  | fuel + 1, lo, hi =>
    if lo < hi then
      match a[(lo + hi) / 2]? with
      | none => .raise .indexError
      | some m => (goRight m).bind fun b => if b then bisectT goRight a fuel ((lo + hi) / 2 + 1) hi else bisectT goRight a fuel lo ((lo + hi) / 2)
    else .pure lo

namespace XD

/-- `bisect_left(self._keys, k)`: asks `_keys[mid] < k`. -/
def bisectLT (e : PyEnv K V) (s : XD K V) (k : K) : Tr K V Nat := bisectT (fun x => .call (.lt x k) (e.ltK x k)) s.keys s.keys.length 0 s.keys.length

/-- `bisect_right(self._keys, k)`: asks `k < _keys[mid]`. -/
def bisectRT (e : PyEnv K V) (s : XD K V) (k : K) : Tr K V Nat :=
  bisectT (fun x => .call (.lt k x) ((e.ltK k x).map (! ·))) s.keys s.keys.length 0 s.keys.length

/-- `self._key(item)`. -/
def keyT (s : XD K V) (v : V) : Tr K V K := .call (.key v) (s.key v)

/-- sorted_collection.py 167-172. -/
def findT (e : PyEnv K V) (s : XD K V) (k : K) : Tr K V V := do
  let i ← s.bisectLT e k
  if i ≠ s.items.length then
    let ki ← Tr.lift (dqGet s.keys i)
    if ← Tr.call (.eqK ki k) (e.eqK ki k) then Tr.lift (dqGet s.items i) else Tr.raise .valueError
  else Tr.raise .valueError

/-- sorted_collection.py 174-179. -/
def findLeT (e : PyEnv K V) (s : XD K V) (k : K) : Tr K V V := do
  let i ← s.bisectRT e k
  if i ≠ 0 then Tr.lift (dqGet s.items (i - 1)) else Tr.raise .valueError

/-- sorted_collection.py 181-186. -/
def findLtT (e : PyEnv K V) (s : XD K V) (k : K) : Tr K V V := do
  let i ← s.bisectLT e k
  if i ≠ 0 then Tr.lift (dqGet s.items (i - 1)) else Tr.raise .valueError

/-- sorted_collection.py 188-193. -/
def findGeT (e : PyEnv K V) (s : XD K V) (k : K) : Tr K V V := do
  let i ← s.bisectLT e k
  if i ≠ s.items.length then Tr.lift (dqGet s.items i) else Tr.raise .valueError

/-- sorted_collection.py 195-200. -/
def findGtT (e : PyEnv K V) (s : XD K V) (k : K) : Tr K V V := do
  let i ← s.bisectRT e k
  if i ≠ s.items.length then Tr.lift (dqGet s.items i) else Tr.raise .valueError

/-- sorted_deque.py 133-142. -/
def findLastGtT (e : PyEnv K V) (s : XD K V) (k : K) : Tr K V V :=
  match s.keys.getLast? with
  | none => .raise .valueError
  | some l => do if ← Tr.call (.lt k l) (e.ltK k l) then Tr.lift (dqLast s.items) else Tr.raise .valueError

/-- sorted_deque.py 111-131 `range`. -/
def rangeT (e : PyEnv K V) (s : XD K V) (start stop : K) (step : Option Int) : Tr K V (List V) := do
  let i ← s.bisectLT e start
  let j ← s.bisectRT e stop
  Tr.lift (islice s.items i j step)

/-- `deque.index` on a slice beginning at position `i`. -/
def searchT (e : PyEnv K V) (v : V) : Nat → List V → Tr K V Nat
  | _, [] => .raise .valueError
  | i, w :: ws => (Tr.call (.eqV w v) (e.eqV w v)).bind fun b => if b then .pure i else searchT e v (i + 1) ws

/-- sorted_deque.py 78-83. -/
def indexT (e : PyEnv K V) (s : XD K V) (v : V) : Tr K V Nat := do
  let k ← s.keyT v
  let i ← s.bisectLT e k
  let j ← s.bisectRT e k
  searchT e v i ((s.items.take j).drop i)

/-- `item in` an iterable: stops at the first that is equal. -/
def anyT (e : PyEnv K V) (v : V) : List V → Tr K V Bool
  | [] => .pure false
  | w :: ws => (Tr.call (.eqV w v) (e.eqV w v)).bind fun b => if b then .pure true else anyT e v ws

/-- sorted_deque.py 72-76 `__contains__`. -/
def containsT (e : PyEnv K V) (s : XD K V) (v : V) : Tr K V Bool := do
  let k ← s.keyT v
  let i ← s.bisectLT e k
  let j ← s.bisectRT e k
  anyT e v ((s.items.take j).drop i)

/-- `sum(1 for x in ... if x == item)`. -/
def countAllT (e : PyEnv K V) (v : V) : List V → Tr K V Nat
  | [] => .pure 0
  | w :: ws => (Tr.call (.eqV w v) (e.eqV w v)).bind fun b => (countAllT e v ws).bind fun n => .pure (if b then n + 1 else n)

/-- sorted_deque.py 85-90 `count`. -/
def countT (e : PyEnv K V) (s : XD K V) (v : V) : Tr K V Nat := do
  let k ← s.keyT v
  let i ← s.bisectLT e k
  let j ← s.bisectRT e k
  countAllT e v ((s.items.take j).drop i)

/-- What a call that changes the deque did, its outcome, and the calls of user code. -/
abbrev Did (K V : Type) := (XD K V × Py Unit) × List (UCall K V)

/-- A computation that may raise, and then a change; nothing is changed if it raises. -/
def change {α : Type} (s : XD K V) (x : Tr K V α) (f : α → XD K V × Py Unit) : Did K V :=
  match x.1 with
  | .error e => ((s, .error e), x.2)
  | .ok a => (f a, x.2)

/-- sorted_deque.py 92-109. -/
def appendT (e : PyEnv K V) (s : XD K V) (v : V) : Did K V :=
  change s
    (do
      let k ← s.keyT v
      match s.keys.getLast? with
      | none => Tr.pure k
      | some l => if ← Tr.call (.lt l k) (e.ltK l k) then Tr.pure k else Tr.raise .valueError)
    fun k => ({ s with keys := dqAppend s.cap s.keys k, items := dqAppend s.cap s.items v }, .ok ())

/-- sorted_collection.py 147-152. -/
def insertT (e : PyEnv K V) (s : XD K V) (v : V) : Did K V :=
  change s (do let k ← s.keyT v; let i ← s.bisectLT e k; Tr.pure (i, k)) fun x => s.insertAt x.1 x.2 v

/-- sorted_collection.py 154-159. -/
def insertRightT (e : PyEnv K V) (s : XD K V) (v : V) : Did K V :=
  change s (do let k ← s.keyT v; let i ← s.bisectRT e k; Tr.pure (i, k)) fun x => s.insertAt x.1 x.2 v

/-- sorted_collection.py 161-165. -/
def removeT (e : PyEnv K V) (s : XD K V) (v : V) : Did K V :=
  change s (s.indexT e v) fun i => match dqDel s.keys i with
    | .error x => (s, .error x)
    | .ok ks => match dqDel s.items i with
      | .error x => ({ s with keys := ks }, .error x)
      | .ok is => ({ s with keys := ks, items := is }, .ok ())

/-- `[key(item) for item in iterable]`: stops when one raises (sorted_collection.py 82; the generator is consumed before anything is compared). -/
def keysT (key : V → Py K) : List V → Tr K V (List K)
  | [] => .pure []
  | v :: vs => (Tr.call (.key v) (key v)).bind fun k => (keysT key vs).bind fun ks => .pure (k :: ks)

/-- sorted_deque.py 21-25, sorted_collection.py 79-85: `__init__` of an object (the state and outcome from Model/Raising.lean, with the calls of the key function). -/
def initT (e : PyEnv K V) (s : XD K V) (iterable : List V) (given : Option (V → Py K)) (m : Py (Option Nat)) : Did K V :=
  (s.init e iterable given m, (keysT (given.getD e.ident) iterable).2)

/-- One call that can change the deque (see `apply` in Model/Raising.lean). -/
def applyT (e : PyEnv K V) (s : XD K V) : Op K V → Did K V
  | .append v => s.appendT e v
  | .insert v => s.insertT e v
  | .insertRight v => s.insertRightT e v
  | .remove v => s.removeT e v
  | .drop n => (dropLoop n.toNat s, []) -- sorted_deque.py 144-152
  | .clear => s.initT e [] (some s.key) (.ok s.maxlen)
  | .setMaxlen m => s.initT e s.items (some s.key) m
  | .delMaxlen => if s.maxlen = none then ((s, .ok ()), []) else s.initT e s.items (some s.key) (.ok none)
  | .setKey f => s.initT e s.items (some f) (.ok none)
  | .delKey => s.initT e s.items none (.ok s.maxlen)

/-- Calls one after the other, whether they raise or not: the deque, and all calls of user code. -/
def runT (e : PyEnv K V) : XD K V → List (Op K V) → XD K V × List (UCall K V)
  | s, [] => (s, [])
  | s, op :: ops => ((runT e (s.applyT e op).1.1 ops).1, (s.applyT e op).2 ++ (runT e (s.applyT e op).1.1 ops).2)

end XD
end S2P
