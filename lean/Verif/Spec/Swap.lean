import Verif.Spec.Trace
/-
Vocabulary for C177: what happened with the sources. Imports no model file.
-/
namespace S2P.Spec
variable {V I : Type}

/-- A call on the source, or a look at its attributes. -/
def onSource : Ev V I → Bool
  | .opened _ => true
  | .openRaised _ => true
  | .infoRaised _ => true
  | .bufferMade _ _ => true
  | .read _ _ => true
  | .readRaised _ _ => true
  | .closed _ _ => true
  | _ => false

/-- `read` or `close`, called by thread `t`. -/
def callBy (t : Nat) : Ev V I → Bool
  | .read t' _ => t' == t
  | .readRaised t' _ => t' == t
  | .closed t' _ => t' == t
  | _ => false

/-- `open` returned. -/
def isOpened : Ev V I → Bool
  | .opened _ => true
  | _ => false

/-- The calls on source `o`. -/
def callsOn (o : Nat) (calls : List (Nat × Ev V I)) : List (Ev V I) := calls.filterMap fun p => if p.1 = o then some p.2 else none

/-- The calls by thread `t` on sources other than `o`. -/
def elsewhere (t o : Nat) (calls : List (Nat × Ev V I)) : List (Nat × Ev V I) := calls.filter fun p => decide (p.1 ≠ o) && callBy t p.2

end S2P.Spec
