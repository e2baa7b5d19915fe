/-
Fragment of the Python runtime used by stream2py, as total functions with exceptions as values.
Nothing here is specific to /repo; each definition names the CPython construct it stands for.
-/
namespace S2P

/-- Python exceptions that stream2py raises, catches or lets through.
`other t` stands for any exception class not named here (raised by user code). -/
inductive PyErr where
  | valueError | typeError | indexError | attributeError | runtimeError
  | streamNotStarted | stopIteration
  | other (tag : Nat)
  deriving DecidableEq, Repr

/-- Result of a Python call: a value or an exception. -/
abbrev Py (α : Type _) := Except PyErr α

variable {K V α : Type _}

/-- Python `a < b` where `none` is Python's `None`: ordering against `None` is a `TypeError`. -/
def ltPy [LT K] [DecidableLT K] : Option K → Option K → Py Bool
  | some a, some b => .ok (decide (a < b))
  | _, _ => .error .typeError

/-- The loop of `bisect.bisect_left` / `bisect.bisect_right`:
`while lo < hi: mid = (lo + hi) // 2; if goRight(a[mid]): lo = mid + 1 else: hi = mid`.
`fuel` bounds the iterations; `hi - lo` shrinks in every iteration, so `len(a)` is enough
(`bisectLoop_spec` proves that the loop has really ended). -/
def bisectLoop (goRight : K → Py Bool) (a : List K) : Nat → Nat → Nat → Py Nat
  | 0, lo, _ => .ok lo
  | fuel + 1, lo, hi =>
    if lo < hi then
      match a[(lo + hi) / 2]? with
      | none => .error .indexError
      | some m =>
        match goRight m with
        | .error e => .error e
        | .ok true => bisectLoop goRight a fuel ((lo + hi) / 2 + 1) hi
        | .ok false => bisectLoop goRight a fuel lo ((lo + hi) / 2)
    else .ok lo

/-- `bisect.bisect_left(a, x)`: goes right while `a[mid] < x`. -/
def bisectLeft [LT K] [DecidableLT K] (a : List K) (x : Option K) : Py Nat :=
  bisectLoop (fun m => ltPy (some m) x) a a.length 0 a.length

/-- `bisect.bisect_right(a, x)`: goes left while `x < a[mid]`. -/
def bisectRight [LT K] [DecidableLT K] (a : List K) (x : Option K) : Py Nat :=
  bisectLoop (fun m => (ltPy x (some m)).map (! ·)) a a.length 0 a.length

/-- `d[i]` for a non-negative index. -/
def dqGet (l : List α) (i : Nat) : Py α :=
  match l[i]? with
  | some x => .ok x
  | none => .error .indexError

/-- `d[i]` for any integer index (negative counts from the right). -/
def dqGetInt (l : List α) (i : Int) : Py α :=
  if 0 ≤ i then dqGet l i.toNat
  else if 0 ≤ i + l.length then dqGet l (i + l.length).toNat
  else .error .indexError

/-- `d[-1]`. -/
def dqLast (l : List α) : Py α := dqGetInt l (-1)

/-- `collections.deque.append`: push right, then pop left if the length exceeds `maxlen`. -/
def dqAppend (maxlen : Option Nat) (l : List α) (x : α) : List α :=
  match maxlen with
  | none => l ++ [x]
  | some m => if m < (l ++ [x]).length then (l ++ [x]).tail else l ++ [x]

/-- `collections.deque(iterable, maxlen)`: append the elements one by one. -/
def dqOf (maxlen : Option Nat) (xs : List α) : List α :=
  xs.foldl (dqAppend maxlen) []

/-- `collections.deque.insert(i, x)` for `0 ≤ i ≤ len`: `IndexError` if the deque is at its maximum size. -/
def dqInsert (maxlen : Option Nat) (l : List α) (i : Nat) (x : α) : Py (List α) :=
  if maxlen = some l.length then .error .indexError else .ok (l.take i ++ x :: l.drop i)

/-- `del d[i]` for `i ≥ 0`. -/
def dqDel (l : List α) (i : Nat) : Py (List α) :=
  if i < l.length then .ok (l.eraseIdx i) else .error .indexError

/-- `d.index(x, start, stop)`: position of the first element of `d[start:stop]` equal to `x`, else `ValueError`. -/
def dqIndex [BEq α] (l : List α) (x : α) (start stop : Nat) : Py Nat :=
  match ((l.take stop).drop start).findIdx? (· == x) with
  | some i => .ok (i + start)
  | none => .error .valueError

/-- Elements at positions `c, c + step, c + 2*step, ...` of a list. -/
def everyNth (step : Nat) : Nat → List α → List α
  | _, [] => []
  | 0, x :: xs => x :: everyNth step (step - 1) xs
  | c + 1, _ :: xs => everyNth step c xs

/-- `list(itertools.islice(l, start, stop, step))`; `step` must be `None` or a positive integer. -/
def islice (l : List α) (start stop : Nat) (step : Option Int) : Py (List α) :=
  match step with
  | none => .ok ((l.take stop).drop start)
  | some s => if s ≤ 0 then .error .valueError else .ok (everyNth s.toNat 0 ((l.take stop).drop start))

/-- Python `<` on 2-tuples: first differing component (by `==`) decides. -/
def tupleLt [DecidableEq K] [LT K] [DecidableLT K] [BEq V] [LT V] [DecidableLT V]
    (a b : K × V) : Bool :=
  if a.1 = b.1 then (if a.2 == b.2 then false else decide (a.2 < b.2)) else decide (a.1 < b.1)

/-- Insert `x` before the first element that is not smaller. -/
def sortedInsert (lt : α → α → Bool) (x : α) : List α → List α
  | [] => [x]
  | y :: ys => if lt y x then y :: sortedInsert lt x ys else x :: y :: ys

/-- `sorted(xs)` with comparison `lt`. Python's sort is *the* stable sort, whose result does not depend on the
algorithm; modelled by stable insertion sort. -/
def pySorted (lt : α → α → Bool) (xs : List α) : List α :=
  xs.foldr (sortedInsert lt) []

end S2P
