import Verif.Spec.Trace
/-
What `mk_stream_buffer` must store, and what can be observed of its `with` block. Imports no model file.
-/
namespace S2P

/-- An item as handed to the buffer by a reader made with `mk_stream_buffer`: with `enumerate_data`, a pair of an index and what `read_stream`
returned (`none`: `None`); without, what it returned. -/
inductive SItem (D : Type) where
  | pair (i : Nat) (d : Option D)
  | raw (d : D)
  deriving Repr

/-- Observations of the `with` block. -/
inductive WithEv where
  /-- `start()` raised -/
  | startRaised (e : PyErr)
  /-- the body ended, normally or by an exception -/
  | bodyEnded (exc : Option PyErr)
  /-- the `with` statement ended, normally or by an exception -/
  | left (exc : Option PyErr)
  deriving DecidableEq, Repr

namespace Spec
variable {D : Type}

/-- The first read is number 0, the next number 1, ... -/
def enumerated (reads : List (Option D)) : List (SItem D) := reads.mapIdx fun i d => .pair i d

end Spec
end S2P
