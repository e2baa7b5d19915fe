import Verif.Model.SourceObj
import Mathlib.Data.Prod.Lex
/-
`HTTPResponseReader` (stream2py/sources/http.py 20-119) as the source object of a stream buffer (Model/SourceObj.lean). What `open()` sends is in
Model/Misc.lean.
-/
namespace S2P
namespace HttpSrc

/-- The outside world. `responses k`: the outcome of the `k`-th `urlopen`: an exception, or what the calls `read(*response_read_args)` on the response give
one after the other (pieces of the body, or exceptions such as a timeout), after which they give `b''` for ever. `clock n`: the `n`-th `time.time()`. -/
structure Web (T B : Type) where
  responses : Nat → Py (List (Py (List B)))
  clock : Nat → T

/-- The object. `response`: what is left of `self._response`; `none`: it is `''` (25) or `None` (109). `opens`, `ticks`: calls of `urlopen` and
`time.time()` so far. -/
structure St (B : Type) where
  response : Option (List (Py (List B)))
  opens : Nat
  ticks : Nat

/-- http.py 25. -/
def new {B : Type} : St B := { response := none, opens := 0, ticks := 0 }

variable {T B R : Type}

/-- http.py 101-104. -/
def open' (w : Web T B) (s : St B) : Py Unit × St B :=
  match w.responses s.opens with
  | .error e => (.error e, { s with opens := s.opens + 1 })
  | .ok l => (.ok (), { s with response := some l, opens := s.opens + 1 })

/-- http.py 114-119, the response having given `piece`; `rest`: what it gives next. -/
def piece (w : Web T B) (decode : List B → Py R) (s : St B) (piece : List B) (rest : List (Py (List B))) : Py (Option (T × R)) × St B :=
  let s' := { s with response := some rest, ticks := s.ticks + 1 }
  match decode piece with -- 117-118
  | .ok r => (.ok (some (w.clock s.ticks, r)), s')
  | .error e => (.error e, s')

/-- http.py 111-119. -/
def read (w : Web T B) (decode : List B → Py R) (s : St B) : Py (Option (T × R)) × St B :=
  match s.response with
  | none => (.error .attributeError, s) -- 115: `''.read`, `None.read`
  | some [] => piece w decode s [] []
  | some (.ok p :: l) => piece w decode s p l
  | some (.error e :: l) => (.error e, { s with response := some l })

/-- `HTTPResponseReader`: `open` (101-104), `read` (111-119), `close` (106-109; simplified: closing the response does not raise), `info` (66-87: the byte
count, which stays 0, C61), `key` (89-97: the data themselves, compared as tuples). `decode`: `bytes.decode(encoding)` (117-118), nothing if no
encoding is given. -/
def http (w : Web T B) (decode : List B → Py R) : SrcObj (St B) (T ×ₗ R) (T × R) Nat where
  open' := open' w
  read := read w decode
  close s := (.ok (), { s with response := none })
  info _ := .ok 0
  key v := .ok (toLex v)

end HttpSrc
end S2P
