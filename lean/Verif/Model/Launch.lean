import Verif.Model.Join
/-
Model of a `start()` whose last statement raises: `self._read_to_buffer_thread.start()` (stream_buffer.py 184) raises `RuntimeError` when the system
gives no thread ("can't start new thread"). On top of Model/Join.lean, which assumes that it returns. `threading.Thread.start`: when it raises, the
thread counts as not started.
-/
namespace S2P

/-- A stream buffer with callers of `join()`, and (ghost) the sessions whose thread could not be launched. -/
structure LSB (K V I : Type) where
  j : JSB K V I
  failed : List Nat

/-- Choices of the scheduler and of the system. -/
inductive LchAct (K V I : Type) where
  | j (x : JAct K V I)
  /-- 184 raises; `start_lock` is released (179) -/
  | launchRaise

namespace LSB
variable {K V I : Type} [LT K] [DecidableLT K] [BEq V]

def init : LSB K V I := { j := JSB.init, failed := [] }

/-- One step. -/
def step (cfg : SBCfg K V) (s : LSB K V I) : LchAct K V I → Option (LSB K V I)
  | .j x => (s.j.step cfg x).map fun y => { s with j := y }
  | .launchRaise => match s.j.sb.start, s.j.sb.thread with
    | some .launch, some t => some { j := { s.j with sb := { s.j.sb with start := none } }, failed := s.failed ++ [t] }
    | _, _ => none

/-- An execution. -/
def exec (cfg : SBCfg K V) : LSB K V I → List (LchAct K V I) → Option (LSB K V I)
  | s, [] => some s
  | s, x :: xs => match s.step cfg x with
    | some s' => s'.exec cfg xs
    | none => none

end LSB

/-- The same execution with every thread launched. -/
def launchedAll {K V I : Type} : List (LchAct K V I) → List (SBAct K V I)
  | [] => []
  | .j (.sb a) :: xs => a :: launchedAll xs
  | .j _ :: xs => launchedAll xs
  | .launchRaise :: xs => .startGo :: launchedAll xs

end S2P
