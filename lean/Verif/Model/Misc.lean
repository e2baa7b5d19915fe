import Verif.Spec.Misc
/-
Model of small pieces: the sleep time of a StreamBuffer (stream_buffer.py 142-147), stream2py/util.py (ContextualizeCall and its validations) and
stream2py/sources/http.py (what `open()` sends, and `close()`).
-/
namespace S2P

/-! ### stream_buffer.py 142-147 -/

/-- `isinstance(v, (int, float))`; `bool` is a subclass of `int`. -/
def isIntOrFloat {F : Type} : PyNum F → Bool
  | .bool _ => true
  | .int _ => true
  | .float _ => true
  | .none => false
  | .other _ => false

/-- stream_buffer.py 142-147; `dflt`: line 22. -/
def sleepTime {F : Type} (dflt arg source : PyNum F) : PyNum F :=
  if isIntOrFloat arg then arg -- 142-143
  else if isIntOrFloat source then source -- 144-145
  else dflt -- 147

/-! ### util.py -/

/-- A Python object handed to or made by ContextualizeCall. `id`: which one. `sig`: none: not callable; `some none`: callable, but
`inspect.signature` raises; `some (some ps)`: its parameters. `isCtx`: made by ContextualizeCall. `func`, `enter`, `exit`: what its `__dict__` has
under `func`, `enter_func`, `exit_func`. -/
inductive PyObj where
  | mk (id : Nat) (sig : Option (Option (List PKind))) (isCtx : Bool) (func enter exit : Option PyObj)

namespace PyObj

def sig : PyObj → Option (Option (List PKind)) | .mk _ s _ _ _ _ => s
def isCtx : PyObj → Bool | .mk _ _ c _ _ _ => c
def func : PyObj → Option PyObj | .mk _ _ _ f _ _ => f
def enter : PyObj → Option PyObj | .mk _ _ _ _ e _ => e
def exit : PyObj → Option PyObj | .mk _ _ _ _ _ x => x

/-- util.py 47-49, 32-33: `callable(obj) and len(signature(obj).parameters) >= 1`. -/
def enterValid (o : PyObj) : Py Bool :=
  match o.sig with
  | none => .ok false
  | some none => .error .valueError
  | some (some ps) => .ok (decide (ps.length ≥ 1))

/-- util.py 55-59: the first operand of `or` is the function `_callable_has_a_variadic_pos` itself (it is not called), an object that is true; the
second operand is never evaluated. -/
def exitValid (o : PyObj) : Py Bool :=
  match o.sig with
  | none => .ok false
  | some _ => .ok true

/-- util.py 114-133. `wraps(func)(self)` (133) does `self.__dict__.update(func.__dict__)`, so attributes `func`, `enter_func`, `exit_func` of the wrapped
object replace those just assigned (129-131), and sets `__wrapped__`, which is what `signature` follows. `id`: the new object. -/
def contextualize (id : Nat) (func enter exit : PyObj) : Py PyObj :=
  match func.sig with
  | none => .error .typeError -- 116-117
  | some _ =>
    match enter.enterValid with -- 118-122
    | .error e => .error e
    | .ok false => .error .typeError
    | .ok true =>
      match exit.exitValid with -- 123-127
      | .error e => .error e
      | .ok false => .error .typeError
      | .ok true => .ok (.mk id func.sig true (func.func <|> some func) (func.enter <|> some enter) (func.exit <|> some exit)) -- 129-133

/-- util.py 135-136: what is finally called when `o` is called: ContextualizeCall objects pass the call on to `self.func`. (140 and 144 call
`enter_func` and `exit_func` in the same way.) -/
def calls : PyObj → PyObj
  | .mk id s true (some f) e x => f.calls
  | o => o

/-- util.py 138-140: entering `o` calls this function on this object. -/
def entering (o : PyObj) : Option (PyObj × PyObj) :=
  match o.enter, o.func with
  | some e, some f => some (e, f)
  | _, _ => none

/-- util.py 142-144: leaving `o` calls this function on this object (and the exception information). -/
def leaving (o : PyObj) : Option (PyObj × PyObj) :=
  match o.exit, o.func with
  | some x, some f => some (x, f)
  | _, _ => none

end PyObj

/-! ### sources/http.py -/

/-- http.py 27-37: the constructor arguments that matter for the request. -/
structure HttpCfg where
  url : Str
  method : Str
  headers : List (Str × Str)
  body : Str

namespace HttpCfg

/-- http.py 53-60: `self._request`, which nothing uses. -/
def request (c : HttpCfg) : Req :=
  { url := c.url, method := c.method, headers := c.headers, body := if c.method.map Char.toUpper = Spec.GET then none else some c.body }

/-- http.py 101-104: what `open()` sends: `Request(url, headers=headers)` has no data, and then urllib's method is GET. -/
def openSends (c : HttpCfg) : Req := { url := c.url, method := Spec.GET, headers := c.headers, body := none }

end HttpCfg

/-- `self._response`: `''` (25), `None` (109) or the `k`-th response. -/
inductive HttpResp where
  | emptyStr
  | pyNone
  | resp (k : Nat)
  deriving DecidableEq, Repr

/-- An HTTPResponseReader. `n`: responses obtained; `exited`: which responses were closed, in order (ghost); `bytesRead`: `_n_bytes_read` (57);
`got`: how many bytes were read (ghost). -/
structure Http where
  response : HttpResp
  n : Nat
  exited : List Nat
  bytesRead : Nat
  got : Nat

/-- Calls: `open()` (returning or raising), `close()` (the close of the response returning or raising), `read()` (returning that many bytes or raising). -/
inductive HttpAct where
  | open (ok : Bool)
  | close (ok : Bool)
  | read (r : Option Nat)
  deriving DecidableEq, Repr

namespace Http

/-- http.py 25, 57. -/
def init : Http := { response := .emptyStr, n := 0, exited := [], bytesRead := 0, got := 0 }

/-- One call. -/
def step (s : Http) : HttpAct → Http
  | .open ok => if ok then { s with response := .resp s.n, n := s.n + 1 } else s -- 101-104
  | .close ok => match s.response with -- 107: a response is true, `''` and `None` are false
    | .resp k =>
      if ok then { s with response := .pyNone, exited := s.exited ++ [k] } -- 108-109
      else { s with exited := s.exited ++ [k] } -- 108 raises
    | _ => s
  | .read (some m) => match s.response with -- 115
    | .resp _ => { s with got := s.got + m }
    | _ => s -- AttributeError
  | .read none => s

/-- A history of calls. -/
def run (s : Http) (as : List HttpAct) : Http := as.foldl step s

/-- http.py 115-119: what a `read()` returns when the response gives `chunk` at time `ts`: never `None`. -/
def readValue {T B : Type} (ts : T) (chunk : B) : Option (T × B) := some (ts, chunk)

end Http
end S2P
