import Verif.Model.SortedDeque
import Verif.Api
/-
Model of stream2py/buffer_reader.py: the body of every `BufferReader` method that touches the buffer, as one atomic step on
the buffer contents. Atomicity of a `with reader_lock()` block is the subject of `Model/RWLock.lean` (C28, C29); the waiting
loops (`__iter__`, `read(blocking=True)`) and `__next__`'s two phases are threads of `Model/Consumer.lean`.

Simplifications: `None` is not used as a bound of `range` nor assigned to `last_item`; `read_size`/`n` are integers.
-/
namespace S2P

/-- buffer_reader.py 120-141: `_last_item`, `_last_key` and the read defaults. The buffer is a separate argument. -/
structure Reader (K V : Type) where
  lastItem : Option V
  lastKey : Option K
  cfg : Cfg

namespace Reader
variable {K V : Type} [LT K] [DecidableLT K]

/-- buffer_reader.py 86-141 `__init__`. -/
def init (cfg : Cfg) : Reader K V := ⟨.none, .none, cfg⟩

omit [LT K] [DecidableLT K] in
/-- buffer_reader.py 214-216 `_setlast_item`. -/
def setLast (s : SD K V) (r : Reader K V) (item : V) : Reader K V :=
  { r with lastKey := some (s.key item), lastItem := some item }

omit [LT K] [DecidableLT K] in
/-- buffer_reader.py 218-222 `_dellast_item`. -/
def delLast (r : Reader K V) : Reader K V := { r with lastItem := .none, lastKey := .none }

/-- buffer_reader.py 392-405: the item after the cursor. `ok none` is the early `return None` of line 398. -/
def nextItem (s : SD K V) (r : Reader K V) (ignore : Bool) : Py (Option V) :=
  match s.findGt r.lastKey with
  | .ok v => .ok (some v)
  | .error .valueError => if ignore then .ok .none else .error .valueError
  | .error .typeError =>
    match r.lastItem with
    | .none => (s.getItem 0).map some
    | some _ => .error .typeError
  | .error e => .error e

/-- buffer_reader.py 341-420 `read` with `blocking=False`. The defaulting of lines 364-367 covers `n`,
`ignore_no_item_found` and `strict_n` but not `peek`: `not peek` with `peek=None` is true. -/
def read [BEq V] (s : SD K V) (r : Reader K V) (n : Option Int) (peek ignore strict : Option Bool) :
    Py (Ret V) × Reader K V :=
  let n := n.getD r.cfg.n
  let ignore := ignore.getD r.cfg.ignore
  let strict := strict.getD r.cfg.strict
  let peek := peek.getD false
  match r.nextItem s ignore with
  | .error e => (.error e, r)
  | .ok .none => (.ok .none, r)
  | .ok (some nextItem) =>
    if n > 1 then
      match s.index nextItem with
      | .error e => (.error e, r)
      | .ok i =>
        if strict && decide ((i : Int) + n ≥ s.len) then (.error .valueError, r)
        else
          match s.rangeByIndex i ((i : Int) + n).toNat .none with
          | .error e => (.error e, r)
          | .ok l =>
            if !peek then
              match dqLast l with
              | .error e => (.error e, r)
              | .ok last => (.ok (.many l), r.setLast s last)
            else (.ok (.many l), r)
    else if !peek then (.ok (.one nextItem), r.setLast s nextItem)
    else (.ok (.one nextItem), r)

/-- buffer_reader.py 422-431 `next(n=1, peek=False, ignore_no_item_found=False, strict_n=False)`. -/
def nextMethod [BEq V] (s : SD K V) (r : Reader K V) (n : Int) (peek ignore strict : Bool) : Py (Ret V) × Reader K V :=
  r.read s (some n) (some peek) (some ignore) (some strict)

/-- buffer_reader.py 141, 168: the `read(**_read_kwargs_for_next)` of `__next__`. -/
def readForNext [BEq V] (s : SD K V) (r : Reader K V) : Py (Ret V) × Reader K V :=
  r.read s (some r.cfg.n) (some r.cfg.peek) (some true) (some r.cfg.strict)

/-- buffer_reader.py 262-274: the effective start of `range`. `ok none` is the early `return None` of line 270.
The nested `self.read(n=1, peek=True, ...)` re-enters the reader lock (see C30); its result cannot be a list. -/
def rangeStart [BEq V] (s : SD K V) (r : Reader K V) (start : K) (ignore onlyNew : Bool) : Py (Option K) :=
  if onlyNew && r.lastKey.isSome then
    match (r.read s (some 1) (some true) (some ignore) .none).1 with
    | .error e => .error e
    | .ok next =>
      let nextKey : Py (Option K) := match next with
        | .none => s.keyNone
        | .one v => .ok (some (s.key v))
        | .many _ => .error .typeError
      match nextKey with
      | .error .typeError => if ignore then .ok .none else .error .typeError
      | .error e => .error e
      | .ok nk =>
        match ltPy nk (some start) with
        | .error e => .error e
        | .ok true => .ok (some start)
        | .ok false => .ok nk
  else .ok (some start)

/-- buffer_reader.py 275-279: `start_le`. -/
def roundStart (s : SD K V) (start : K) (startLe : Bool) : Py K :=
  if startLe then
    match s.findLe (some start) with
    | .ok v => .ok (s.key v)
    | .error .valueError => .ok start
    | .error e => .error e
  else .ok start

/-- buffer_reader.py 280-286: `stop_ge`. `ok none` is the early `return None` of line 285. -/
def roundStop (s : SD K V) (stop : K) (ignore stopGe : Bool) : Py (Option K) :=
  if stopGe then
    match s.findGe (some stop) with
    | .ok v => .ok (some (s.key v))
    | .error .valueError => if ignore then .ok .none else .error .valueError
    | .error e => .error e
  else .ok (some stop)

/-- buffer_reader.py 228-297 `range`. -/
def range [BEq V] (s : SD K V) (r : Reader K V) (start stop : K) (step : Option Int) (peek : Bool) (ignore : Option Bool)
    (onlyNew startLe stopGe : Bool) : Py (Ret V) × Reader K V :=
  let ignore := ignore.getD r.cfg.ignore
  match r.rangeStart s start ignore onlyNew with
  | .error e => (.error e, r)
  | .ok .none => (.ok .none, r)
  | .ok (some start) =>
    match roundStart s start startLe with
    | .error e => (.error e, r)
    | .ok start =>
      match roundStop s stop ignore stopGe with
      | .error e => (.error e, r)
      | .ok .none => (.ok .none, r)
      | .ok (some stop) =>
        match s.range (some start) (some stop) step with
        | .error e => (.error e, r)
        | .ok items =>
          if !peek then
            match dqLast items with
            | .ok v => (.ok (.many items), r.setLast s v)
            | .error e => if ignore then (.ok .none, r) else (.error e, r)
          else (.ok (.many items), r)

/-- buffer_reader.py 299-332 `tail`. -/
def tail (s : SD K V) (r : Reader K V) (peek ignore onlyNew : Bool) : Py (Ret V) × Reader K V :=
  let item : Py (Option V) :=
    if onlyNew then
      match s.findLastGt r.lastKey with
      | .ok v => .ok (some v)
      | .error .valueError => if ignore then .ok .none else .error .valueError
      | .error .typeError =>
        match r.lastItem with
        | .none => (s.getItem (-1)).map some
        | some _ => .error .typeError
      | .error e => .error e
    else
      match s.getItem (-1) with
      | .ok v => .ok (some v)
      | .error e => if ignore then .ok .none else .error e
  match item with
  | .error e => (.error e, r)
  | .ok .none => (.ok .none, r)
  | .ok (some v) => if !peek then (.ok (.one v), r.setLast s v) else (.ok (.one v), r)

/-- buffer_reader.py 334-339 `head`. -/
def head (s : SD K V) (r : Reader K V) (peek : Bool) : Py (Ret V) × Reader K V :=
  match s.getItem 0 with
  | .error e => (.error e, r)
  | .ok v => if !peek then (.ok (.one v), r.setLast s v) else (.ok (.one v), r)

end Reader
end S2P
