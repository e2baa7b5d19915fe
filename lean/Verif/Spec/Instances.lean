/-
How the instances opened by a user's `open_stream` must be used. Imports nothing.
-/
namespace S2P

/-- A call, with the open instance concerned (`none`: `None`). -/
inductive Use (X : Type) where
  /-- the source was opened, and the instance was got -/
  | opened (x : Option X)
  | openRaised
  /-- `read_stream(x)` was called -/
  | read (x : Option X)
  /-- the source was closed: `close_stream(x)` -/
  | closed (x : Option X)
  deriving DecidableEq, Repr

namespace Spec

/-- One instance at a time: nothing is opened while an instance is open, only the open instance is read, and it is that instance which is closed, once;
afterwards it is not used any more. The first argument is the instance open so far, if there is one. -/
def OneAtATime {X : Type} : Option (Option X) → List (Use X) → Prop
  | _, [] => True
  | cur, .opened x :: l => cur = none ∧ OneAtATime (some x) l
  | cur, .openRaised :: l => cur = none ∧ OneAtATime none l
  | cur, .read x :: l => cur = some x ∧ OneAtATime cur l
  | cur, .closed x :: l => cur = some x ∧ OneAtATime none l

/-- The instances got. -/
def openedOf {X : Type} (l : List (Use X)) : List (Option X) := l.filterMap fun | .opened x => some x | _ => none

/-- The instances closed, in order. -/
def closedOf {X : Type} (l : List (Use X)) : List (Option X) := l.filterMap fun | .closed x => some x | _ => none

end Spec
end S2P
