import Verif.Model.SourceObj
/-
Model of `QuickSourceReader` (stream2py/source_reader.py 197-264) as a source object, and of the reader of a list in
stream2py/tests/test_quick_source_reader.py 6-16.
-/
namespace S2P
namespace Quick

/-- source_reader.py 207-209: the attributes of the instance (`none` is Python's `None`, the class attribute), `_closed` (78, 250, 254), and the attributes
`user` of the subclass. `tick` counts the calls of `get_timestamp` made by `open` (it selects the reading of the clock; not an attribute). -/
structure St (τ : Type) where
  user : τ
  readIdx : Option Nat
  openTime : Option Int
  openInstance : Bool
  closed : Bool
  tick : Nat

/-- source_reader.py 256-261: what `info` returns: `open_time`, and whether `open_instance` is the instance itself (its `str` is not modelled). -/
structure Info where
  openTime : Option Int
  openInstance : Bool
  deriving DecidableEq

/-- A new instance (source_reader.py 78, 207-209; `_closed` is True until the first `open`). -/
def new {τ : Type} (u : τ) : St τ := { user := u, readIdx := none, openTime := none, openInstance := false, closed := true, tick := 0 }

/-- source_reader.py 246-250: `open`. `clock k` is what the `k`-th call of `get_timestamp` (160-165) returns. -/
def open' {τ : Type} (clock : Nat → Int) (s : St τ) : St τ :=
  { s with readIdx := some 0, openTime := some (clock s.tick), openInstance := true, closed := false, tick := s.tick + 1 }

/-- source_reader.py 252-254. -/
def close {τ : Type} (s : St τ) : St τ := { s with closed := true }

/-- `QuickSourceReader` (source_reader.py 197-264) with the subclass's `read`, which may use and set the attributes `user` and `read_idx`.
`key` (263-264) returns the data. -/
def quick {τ V : Type} (clock : Nat → Int) (uread : τ → Option Nat → Py (Option V) × τ × Option Nat) : SrcObj (St τ) V V Info where
  open' s := (.ok (), open' clock s)
  read s := ((uread s.user s.readIdx).1, { s with user := (uread s.user s.readIdx).2.1, readIdx := (uread s.user s.readIdx).2.2 })
  close s := (.ok (), close s)
  info s := .ok { openTime := s.openTime, openInstance := s.openInstance }
  key v := .ok v

/-- tests/test_quick_source_reader.py 6-16: `read` is `next` of an iterator over a list made in `__init__`, `None` when it is exhausted. The attribute is
the position of the iterator. -/
def listRead {V : Type} (l : List (Option V)) (pos : Nat) (idx : Option Nat) : Py (Option V) × Nat × Option Nat :=
  match l[pos]? with
  | some r => (.ok r, pos + 1, idx)
  | none => (.ok none, pos, idx)

/-- A `read` that uses the `read_idx` that `open` sets (source_reader.py 201: "open just sets an `open_time` attribute and a `read_idx` attribute (to 0)"): the
element of a list at `read_idx`, which it then increments; `None` past the end. Before `open`, `read_idx` is `None`, no index: `TypeError`. -/
def idxRead {V : Type} (l : List (Option V)) (u : Unit) (idx : Option Nat) : Py (Option V) × Unit × Option Nat :=
  match idx with
  | none => (.error .typeError, u, idx)
  | some i => match l[i]? with
    | some r => (.ok r, u, some (i + 1))
    | none => (.ok none, u, some i)

end Quick
end S2P
