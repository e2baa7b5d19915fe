import Verif.Model.StreamBuffer
/-
Model of a `start()` that is interrupted: an exception from outside (`KeyboardInterrupt`) comes up in the calling thread, at any statement of `start()` (stream_buffer.py
179-184, 186-190 called from 181 and 277, 273-295), most likely during the `time.sleep(1)` of 189. The `with` statement of 179 releases `start_lock`; nothing else is
undone. On top of Model/StreamBuffer.lean. (An exception in `stop()` called by somebody else is a caller that never gets from 188 to 190, which that model allows.)
-/
namespace S2P

/-- A stream buffer and (ghost) the sessions whose `start()` was interrupted, with the statement that was not executed any more. -/
structure ISB (K V I : Type) where
  sb : SB K V I
  cuts : List (Nat × StartPC)

/-- Choices of the scheduler and of the outside world. -/
inductive IAct (K V I : Type) where
  | sb (a : SBAct K V I)
  /-- the `start()` in progress is interrupted before it has executed its next statement -/
  | interrupt

namespace ISB
variable {K V I : Type} [LT K] [DecidableLT K] [BEq V]

def init : ISB K V I := { sb := SB.init, cuts := [] }

/-- One step. Sessions are numbered by the calls of `start()` that got past 278, so a `start()` interrupted before 279 uses up a number (ghost). -/
def step (cfg : SBCfg K V) (s : ISB K V I) : IAct K V I → Option (ISB K V I)
  | .sb a => (s.sb.step cfg a).map fun y => { s with sb := y }
  | .interrupt => match s.sb.start with
    | none => none
    | some .mkThr => some { sb := { s.sb with start := none, n := s.sb.n + 1 }, cuts := s.cuts ++ [(s.sb.n, .mkThr)] }
    | some p => some { sb := { s.sb with start := none }, cuts := s.cuts ++ [(s.sb.n - 1, p)] }

/-- An execution. -/
def exec (cfg : SBCfg K V) : ISB K V I → List (IAct K V I) → Option (ISB K V I)
  | s, [] => some s
  | s, x :: xs => match s.step cfg x with
    | some s' => s'.exec cfg xs
    | none => none

end ISB
end S2P
