import Verif.Spec.SourceObj
/- Everything a source answered, over all sessions. Imports no model file. -/
namespace S2P.Spec
variable {V I : Type}

/-- The answers of `source.read()`, whichever thread asked, in order. -/
def allAnswers (log : List (Ev V I)) : List (Py (Option V)) :=
  log.filterMap fun
    | .read _ r => some (.ok r)
    | .readRaised _ e => some (.error e)
    | _ => none

end S2P.Spec
