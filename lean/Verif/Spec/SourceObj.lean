import Verif.Spec.Trace
/-
What a source object does when its `read` is called again and again, and what one thread saw of it. Imports no model file.
-/
namespace S2P.Spec
variable {σ V I : Type}

/-- The first `n` answers of `read`, starting in state `st`. -/
def answers (read : σ → Py (Option V) × σ) : σ → Nat → List (Py (Option V))
  | _, 0 => []
  | st, n + 1 => (read st).1 :: answers read (read st).2 n

/-- The state after `n` calls of `read`. -/
def after (read : σ → Py (Option V) × σ) : σ → Nat → σ
  | st, 0 => st
  | st, n + 1 => after read (read st).2 n

/-- The answers thread `t` got from `source.read()`, in order. -/
def answered (t : Nat) (log : List (Ev V I)) : List (Py (Option V)) :=
  log.filterMap fun
    | .read t' r => if t' = t then some (.ok r) else none
    | .readRaised t' e => if t' = t then some (.error e) else none
    | _ => none

/-- The data among some answers. -/
def dataOf (l : List (Py (Option V))) : List V := l.filterMap fun | .ok (some v) => some v | _ => none

end S2P.Spec
