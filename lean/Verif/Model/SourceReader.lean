import Verif.Spec.SourceReader
/-
Model of stream2py/source_reader.py: the `closed` flag (SourceReader 78, 131-139, 167-174; QuickSourceReader 246-254) and iteration
(SourceReader 80-86, QuickSourceReader 211-217), and of iteration over a StreamSource (stream_source.py 69-77).
`open`, `close`, `read`, `is_valid_data`, `when_no_data` are the user's; what they return or raise is the environment's choice.
-/
namespace S2P

/-- What `open()` and `close()` of the class do with `_closed`. -/
inductive SRKind where
  /-- a subclass of SourceReader whose `open`/`close` do not touch `_closed` (simply.py 91-107, sources/http.py 100-109, examples/source_reader.py) -/
  | plain
  /-- QuickSourceReader (source_reader.py 246-254): `open` sets it to False and `close` to True, as their last statement -/
  | quick
  deriving DecidableEq, Repr

/-- A SourceReader. `closedFlag`: `_closed` (78). `log` is ghost. -/
structure SR where
  closedFlag : Bool
  log : List OCEv

/-- A call on the source reader; `ok`: whether the user's part of `open()` / `close()` returns (or raises). -/
inductive SRAct where
  /-- `source.open()`, by the user or by StreamBuffer.start() (stream_buffer.py 286) -/
  | open (ok : Bool)
  /-- `source.close()`, by the user or by the thread of a StreamBuffer (stream_buffer.py 269) -/
  | close (ok : Bool)
  /-- `source.__enter__()` -/
  | enter (ok : Bool)
  /-- `source.__exit__(...)` -/
  | exit (ok : Bool)
  deriving DecidableEq, Repr

namespace SR

/-- source_reader.py 78. -/
def init : SR := { closedFlag := true, log := [] }

/-- source_reader.py 95-98 / 246-250. -/
def «open» (k : SRKind) (s : SR) (ok : Bool) : SR :=
  { closedFlag := if ok && k == .quick then false else s.closedFlag, log := s.log ++ [.opened ok] }

/-- source_reader.py 100-105 / 252-254. -/
def close (k : SRKind) (s : SR) (ok : Bool) : SR :=
  { closedFlag := if ok && k == .quick then true else s.closedFlag, log := s.log ++ [.closed ok] }

/-- One call. -/
def step (k : SRKind) (s : SR) : SRAct → SR
  | .open ok => s.open k ok
  | .close ok => s.close k ok
  | .enter ok => if ok then { s.open k true with closedFlag := false } else s.open k false -- 167-170
  | .exit ok => if ok then { s.close k true with closedFlag := true } else s.close k false -- 172-174

/-- A history of calls. -/
def run (k : SRKind) (s : SR) (as : List SRAct) : SR := as.foldl (step k) s

end SR

/-! ### Iteration -/

/-- How far a generator got: it still waits for the next `read()`, or an exception left it, or it returned. -/
inductive GenEnd where
  | looping
  | raised (e : PyErr)
  | returned
  deriving DecidableEq, Repr

/-- source_reader.py 211-217 (and 80-86 with `valid` = "is not None" and no action): `reads` are the results of the calls of `read()`; `noData d` is
the exception of `when_no_data(d)`, if it raises. Returns what was yielded and how far the generator got. -/
def iterQuick {D : Type} (valid : D → Bool) (noData : D → Option PyErr) : List (Py D) → List D × GenEnd
  | [] => ([], .looping)
  | .error e :: _ => ([], .raised e) -- 213
  | .ok d :: rs =>
    if valid d then -- 214-215
      let (ys, g) := iterQuick valid noData rs
      (d :: ys, g)
    else match noData d with -- 217
      | some e => ([], .raised e)
      | none => iterQuick valid noData rs

/-- source_reader.py 80-86. -/
def iterPlain {V : Type} (reads : List (Py (Option V))) : List (Option V) × GenEnd := iterQuick Option.isSome (fun _ => none) reads

/-- stream_source.py 69-77: `isStopped`: the attribute `is_stopped` of the source, `none` if it has none (StreamSource defines none), else its value
when looked up after the `i`-th read. -/
def iterSource {V : Type} (isStopped : Option (Nat → Bool)) : Nat → List (Py (Option V)) → List V × GenEnd
  | _, [] => ([], .looping)
  | _, .error e :: _ => ([], .raised e) -- 71
  | i, .ok (some v) :: rs => -- 72-73
    let (ys, g) := iterSource isStopped (i + 1) rs
    (v :: ys, g)
  | i, .ok none :: rs => match isStopped with -- 74
    | none => ([], .raised .attributeError)
    | some f => if f i then ([], .returned) else iterSource isStopped (i + 1) rs -- 75-77

end S2P
