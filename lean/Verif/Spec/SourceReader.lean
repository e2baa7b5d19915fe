import Verif.Api
/-
What can be observed of a SourceReader: calls on it and their outcomes, results of `read()` and what iteration yields. Imports no model file.
-/
namespace S2P

/-- A call of `open()` or `close()` that ended, by whomever it was made (the user, a `with` block, a StreamBuffer). -/
inductive OCEv where
  | opened (ok : Bool)
  | closed (ok : Bool)
  deriving DecidableEq, Repr

namespace Spec

/-- The source is open: `open()` has returned and no `close()` has returned since. -/
def srcOpen (log : List OCEv) : Bool :=
  log.foldl (fun o e => match e with | .opened true => true | .closed true => false | _ => o) false

/-- What iterating must yield, given the results of the calls of `read()` it made: the valid data in order. An exception of `read()` ends it. -/
def iterYields {D : Type} (valid : D → Bool) (reads : List (Py D)) : List D :=
  ((reads.takeWhile Except.isOk).filterMap Except.toOption).filter valid

end Spec
end S2P
