import Verif.Model.Channel
import Verif.Spec.Settings
/-
Model of readers (buffer_reader.py) with their attributes as the constructor makes them: the public ones and the two dicts of read arguments.
-/
namespace S2P

/-- buffer_reader.py 120-141: the attributes `read_size`, `peek`, `ignore_no_item_found`, `strict_n` (together `attrs`); the dict `_read_kwargs`; the dict
`_read_kwargs_for_next`; the cursor. -/
structure AttrReader (K V : Type) where
  attrs : Cfg
  kwargs : Cfg
  kwargsForNext : Cfg
  lastItem : Option V
  lastKey : Option K

namespace AttrReader
variable {K V : Type} [LT K] [DecidableLT K] [BEq V]

omit [LT K] [DecidableLT K] [BEq V] in
/-- buffer_reader.py 86-141 `__init__`: the attributes from the arguments (lines 126-129), the first dict from the attributes (132-137), the second from the first
(141). -/
def init (c : Cfg) : AttrReader K V :=
  let attrs : Cfg := { n := c.n, peek := c.peek, ignore := c.ignore, strict := c.strict }
  let kwargs : Cfg := { n := attrs.n, peek := attrs.peek, ignore := attrs.ignore, strict := attrs.strict }
  { attrs := attrs, kwargs := kwargs, kwargsForNext := { kwargs with ignore := true }, lastItem := none, lastKey := none }

omit [LT K] [DecidableLT K] [BEq V] in
/-- buffer_reader.py 126-129: the attributes are plain ones, so that assigning to them does nothing else. -/
def assign (r : AttrReader K V) : Setting → AttrReader K V
  | .readSize n => { r with attrs := { r.attrs with n := n } }
  | .peek b => { r with attrs := { r.attrs with peek := b } }
  | .ignoreNoItemFound b => { r with attrs := { r.attrs with ignore := b } }
  | .strictN b => { r with attrs := { r.attrs with strict := b } }

/-- A call. `read` (364-367) and `range` (260) take their defaults from `_read_kwargs`; `__next__` (168) passes `_read_kwargs_for_next` to `read`. -/
def call (s : SD K V) (r : AttrReader K V) (op : RdOp K V) : Py (Ret V) × AttrReader K V :=
  let view : Reader K V := ⟨r.lastItem, r.lastKey, r.kwargs⟩
  let res := match op with
    | .readForNext => view.read s (some r.kwargsForNext.n) (some r.kwargsForNext.peek) (some r.kwargsForNext.ignore) (some r.kwargsForNext.strict)
    | op => Ch.rdStep s view op
  (res.1, { r with lastItem := res.2.lastItem, lastKey := res.2.lastKey })

end AttrReader

/-- One session buffer with any number of readers. -/
structure AttrCh (K V : Type) where
  buf : SD K V
  readers : Nat → AttrReader K V

namespace AttrCh
variable {K V : Type} [LT K] [DecidableLT K] [BEq V]

/-- stream_buffer.py 45, 68-78: a fresh buffer with fresh readers. -/
def init (key : V → K) (keyNone : Py (Option K)) (maxlen : Option Nat) (cfg : Nat → Cfg) : AttrCh K V :=
  ⟨SD.empty key keyNone maxlen, fun i => AttrReader.init (cfg i)⟩

/-- One call (stream_buffer.py 60-66; buffer_reader.py), assignment or look. -/
def step (c : AttrCh K V) : SetOp K V → AttrCh K V × SetOut V
  | .call (.append v) => ({ c with buf := (c.buf.append v).1 }, .ret ((c.buf.append v).2.map fun _ => .none))
  | .call (.drop n) => ({ c with buf := (c.buf.drop n).1 }, .ret ((c.buf.drop n).2.map fun _ => .none))
  | .call (.rd i op) =>
    ({ c with readers := fun j => if j = i then ((c.readers i).call c.buf op).2 else c.readers j }, .ret ((c.readers i).call c.buf op).1)
  | .assign i a => ({ c with readers := fun j => if j = i then (c.readers i).assign a else c.readers j }, .assigned)
  | .look i => (c, .seen (c.readers i).attrs)

/-- A history: the final state and all outcomes. -/
def run : AttrCh K V → List (SetOp K V) → AttrCh K V × List (SetOut V)
  | c, [] => (c, [])
  | c, o :: os => ((run (c.step o).1 os).1, (c.step o).2 :: (run (c.step o).1 os).2)

end AttrCh
end S2P
