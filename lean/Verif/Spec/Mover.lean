import Verif.Api
import Verif.Spec.Deliver
/-
What consumers of readers that are moved between sessions observe. Imports no model file.
-/
namespace S2P
namespace Spec

/-- An observation of the consumer of a reader. -/
inductive MvEv (V : Type) where
  /-- handed out by `next` or to the loop body; the buffer it was read from -/
  | item (b : Nat) (r : Ret V)
  /-- `next(reader)` returned `None` -/
  | none
  /-- `next(reader)` raised `StopIteration` -/
  | stopIteration
  /-- the loop ended by itself -/
  | loopDone
  /-- `next` or the loop raised -/
  | raised (e : PyErr)
  /-- `attach_reader(reader)` returned: the reader was given to session `b` -/
  | attached (b : Nat)
  /-- `mk_reader()` or `attach_reader(reader)` raised `StreamNotStartedError` -/
  | notStarted
  deriving DecidableEq, Repr

variable {V : Type}

/-- What consumer `i` was handed, with the session it was read from. -/
def gotBy (i : Nat) (l : List (Nat × MvEv V)) : List (Nat × V) :=
  l.flatMap fun | (j, .item b r) => if j = i then (outItems (.ok r)).map (b, ·) else [] | _ => []

/-- The consumer of reader `i` was told that the stream is over. -/
def isEnd (i : Nat) : Nat × MvEv V → Bool
  | (j, .loopDone) | (j, .stopIteration) => j == i
  | _ => false

end Spec
end S2P
