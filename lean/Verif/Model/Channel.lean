import Verif.Model.BufferReader
/-
One session buffer with any number of readers (stream_buffer.py 26-78 `_SourceBuffer`), as a machine whose steps are the
critical sections of locked_sorted_deque.py 40-54 in an arbitrary order. That critical sections are atomic is C28/C29.
-/
namespace S2P

/-- A buffer and its readers. Reader `i` for every `i : Nat` exists from the start, with an untouched cursor; making a
reader later is the same because an unused reader has no effect. -/
structure Ch (K V : Type) where
  buf : SD K V
  readers : Nat → Reader K V

namespace Ch
variable {K V : Type} [LT K] [DecidableLT K] [BEq V]

/-- stream_buffer.py 45 and 68-74 (`mk_reader`): a fresh buffer with fresh readers. -/
def init (key : V → K) (keyNone : Py (Option K)) (maxlen : Option Nat) (cfg : Nat → Cfg) : Ch K V :=
  { buf := SD.empty key keyNone maxlen, readers := fun i => Reader.init (cfg i) }

/-- Dispatch of a reader call (buffer_reader.py). -/
def rdStep (s : SD K V) (r : Reader K V) : RdOp K V → Py (Ret V) × Reader K V
  | .read n p i st => r.read s n p i st
  | .nextMethod n p i st => r.nextMethod s n p i st
  | .readForNext => r.readForNext s
  | .range a b st p i o le ge => r.range s a b st p i o le ge
  | .tail p i o => r.tail s p i o
  | .head p => r.head s p
  | .setLast v => (.ok .none, r.setLast s v)
  | .delLast => (.ok .none, r.delLast)

/-- One call. stream_buffer.py 60-66 (`append`, `drop` under the writer lock), buffer_reader.py (under the reader lock). -/
def step (c : Ch K V) : ChOp K V → Ch K V × Py (Ret V)
  | .append v => ({ c with buf := (c.buf.append v).1 }, (c.buf.append v).2.map fun _ => .none)
  | .drop n => ({ c with buf := (c.buf.drop n).1 }, (c.buf.drop n).2.map fun _ => .none)
  | .rd i op =>
    let (out, r) := rdStep c.buf (c.readers i) op
    ({ c with readers := fun j => if j = i then r else c.readers j }, out)

/-- A whole history: the final state and the outcome of every call. -/
def run : Ch K V → List (ChOp K V) → Ch K V × List (Py (Ret V))
  | c, [] => (c, [])
  | c, op :: ops =>
    let (c', out) := c.step op
    let (c'', outs) := run c' ops
    (c'', out :: outs)

end Ch
end S2P
