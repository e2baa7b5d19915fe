import Verif.Model.SourceObj
/-
Model of stream2py/examples/source_reader.py (`SimpleCounterString`; the same class is in stream2py/examples/stream_source.py and in the
docstring of stream2py/source_reader.py 19-50). Strings are lists of characters.
-/
namespace S2P
namespace Counter

/-- `str(v)` for an `int`. -/
def pyStr (v : Int) : List Char := if v < 0 then '-' :: Nat.toDigits 10 v.natAbs else Nat.toDigits 10 v.natAbs

/-- `f's{v}'` (examples/source_reader.py 22). -/
def fmt (v : Int) : List Char := 's' :: pyStr v

/-- `int(s)` for strings of ASCII digits with an optional minus sign. Simplified: what else `int` accepts (blanks, `+`, `_`, other digits) is a
`ValueError` here; the source never returns such data. -/
def pyInt : List Char → Py Int
  | '-' :: l => if l ≠ [] ∧ l.all Char.isDigit = true then .ok (-(Nat.ofDigitChars 10 l 0 : Int)) else .error .valueError
  | l => if l ≠ [] ∧ l.all Char.isDigit = true then .ok (Nat.ofDigitChars 10 l 0 : Int) else .error .valueError

/-- The object's changing attributes (examples/source_reader.py 12-13): the iterator (the next value it would give), and `open_count`. -/
structure St where
  iter : Option Int
  openCount : Nat

/-- examples/source_reader.py 32: what `info` returns. -/
structure Info where
  start : Int
  stop : Int
  openCount : Nat
  deriving DecidableEq

/-- examples/source_reader.py 8-13. -/
def new : St := { iter := none, openCount := 0 }

/-- examples/source_reader.py 19-24: `next(None, None)` is a `TypeError`. -/
def read (stop : Int) (s : St) : Py (Option (List Char)) × St :=
  match s.iter with
  | none => (.error .typeError, s)
  | some v => if v < stop then (.ok (some (fmt v)), { s with iter := some (v + 1) }) else (.ok none, s)

/-- `SimpleCounterString(start, stop)`: `open` (15-17), `read` (19-24), `close` (26-28), `info` (30-32), `key` (34-35). -/
def counter (start stop : Int) : SrcObj St Int (List Char) Info where
  open' s := (.ok (), { iter := some start, openCount := s.openCount + 1 })
  read := read stop
  close s := (.ok (), { s with iter := none })
  info s := .ok { start := start, stop := stop, openCount := s.openCount }
  key v := pyInt v.tail

end Counter
end S2P
