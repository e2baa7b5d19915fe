import Verif.Spec.Trace
/-
Who stored what where: for executions in which threads of several sessions are at work at the same time. Imports no model file.
-/
namespace S2P
namespace Spec
variable {V I : Type}

/-- What thread `t` stored, in order, each item with the session in whose buffer it put it. -/
def placed (t : Nat) (log : List (Ev V I)) : List (Nat × V) :=
  log.filterMap fun | .stored t' b v => if t' = t then some (b, v) else none | _ => none

/-- What was stored in the buffer of session `b`, in order, each item with the thread that stored it. -/
def brought (b : Nat) (log : List (Ev V I)) : List (Nat × V) :=
  log.filterMap fun | .stored t b' v => if b' = b then some (t, v) else none | _ => none

/-- An item stored by thread `t` in the buffer of session `b`. -/
def isStoreTo (t b : Nat) : Ev V I → Bool
  | .stored t' b' _ => t' = t && b' = b
  | _ => false

/-- `l`, items with the thread each came from, is put together from parts of what `source.read()` returned to the threads: what came from one thread is, in order
and each once, a part of what it read. -/
def Merged (l : List (Nat × V)) (log : List (Ev V I)) : Prop :=
  ∀ t, ((l.filter fun p => p.1 = t).map (·.2)).Sublist (dataRead t log)

end Spec
end S2P
