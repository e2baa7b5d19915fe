import Verif.Model.Channel
import Verif.Spec.NotedReader
/-
Model of a session buffer (stream_buffer.py 26-78) with readers (buffer_reader.py) whose items are objects that change while they are in it: the readers
hand out the objects of the buffer, not copies (buffer_reader.py 399-420), so whoever gets an item may change it for all.
-/
namespace S2P

/-- The buffer, its readers, and `==` of items (which in `deque.index`, sorted_deque.py 83, includes being the same object). -/
structure AgedCh (K V : Type) where
  ch : Ch K V
  eq : V → V → Bool

namespace AgedCh
variable {K V : Type} [LT K] [DecidableLT K]

/-- An object that changes touches nothing of the buffer and readers: the keys in `_keys` (sorted_deque.py 97-107) and `_last_key`
(buffer_reader.py 215) stay; only what `key(item)` and `==` answer from now on is different. -/
def step (c : AgedCh K V) : Happening K V → AgedCh K V × Option (Py (Ret V))
  | .change k e => ({ ch := { c.ch with buf := { c.ch.buf with key := k } }, eq := e }, none)
  | .call op => ({ c with ch := (@Ch.step K V _ _ ⟨c.eq⟩ c.ch op).1 }, some (@Ch.step K V _ _ ⟨c.eq⟩ c.ch op).2)

/-- A history: the final state and the outcomes of the calls. -/
def run : AgedCh K V → List (Happening K V) → AgedCh K V × List (Py (Ret V))
  | c, [] => (c, [])
  | c, h :: hs => ((run (c.step h).1 hs).1, (match (c.step h).2 with | some o => [o] | none => []) ++ (run (c.step h).1 hs).2)

/-- A fresh session buffer (stream_buffer.py 45, 68-74). -/
def init (key : V → K) (eq : V → V → Bool) (keyNone : Py (Option K)) (maxlen : Option Nat) (cfg : Nat → Cfg) : AgedCh K V :=
  ⟨Ch.init key keyNone maxlen cfg, eq⟩

end AgedCh
end S2P
