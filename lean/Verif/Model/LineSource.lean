import Verif.Model.SourceObj
/-
`LineSourceReader`, the source the package documentation shows (stream2py/__init__.py 88-114), as the source object of a stream buffer (Model/SourceObj.lean).
-/
namespace S2P
namespace LineSrc
variable {L : Type}

/-- The outside world: the outcome of the `k`-th `open(self.file, self.mode)`: an exception, or the lines of the file as `readline()` gives them one after
the other (a line, or an exception such as one of decoding), after which it gives the empty line for ever. -/
abbrev Disk (L : Type) := Nat → Py (List (Py L))

/-- `self._f`: `None` (95), an open file with the lines left, or a closed file. -/
inductive File (L : Type) where
  | none
  | opened (rest : List (Py L))
  | closed

/-- The object. `opens`: calls of `open(self.file, ...)` so far. -/
structure St (L : Type) where
  lineCount : Nat
  f : File L
  opens : Nat

/-- __init__.py 91-95. -/
def new : St L := { lineCount := 0, f := .none, opens := 0 }

/-- __init__.py 97-99: the count is set before the file is opened; if that raises `self._f` stays. -/
def open' (d : Disk L) (s : St L) : Py Unit × St L :=
  match d s.opens with
  | .error e => (.error e, { s with lineCount := 0, opens := s.opens + 1 })
  | .ok l => (.ok (), { lineCount := 0, f := .opened l, opens := s.opens + 1 })

/-- __init__.py 101-104. `eof`: the empty line. -/
def read (eof : L) (s : St L) : Py (Option (Nat × L)) × St L :=
  match s.f with
  | .none => (.error .attributeError, s) -- `None.readline`
  | .closed => (.error .valueError, s) -- I/O operation on closed file
  | .opened [] => (.ok (some (s.lineCount, eof)), { s with lineCount := s.lineCount + 1 })
  | .opened (.ok x :: l) => (.ok (some (s.lineCount, x)), { s with lineCount := s.lineCount + 1, f := .opened l })
  | .opened (.error e :: l) => (.error e, { s with f := .opened l })

/-- __init__.py 106-107. -/
def close (s : St L) : Py Unit × St L :=
  match s.f with
  | .none => (.error .attributeError, s)
  | _ => (.ok (), { s with f := .closed })

/-- `LineSourceReader`: `info` (112-114; simplified to one value, it never changes), `key` (109-110: the number). -/
def lines (d : Disk L) (eof : L) : SrcObj (St L) Nat (Nat × L) Unit where
  open' := open' d
  read := read eof
  close := close
  info _ := .ok ()
  key v := .ok v.1

end LineSrc
end S2P
