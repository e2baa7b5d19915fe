import Verif.Model.StreamBuffer
/-
stream_buffer.py 141: `auto_drop` is a plain public attribute, looked up anew at every pass of the thread's loop (256) and at every `drop()` (171). The stream
buffer with callers who also assign `True` or `False` to it at any time. Everything else is Model/StreamBuffer.lean; the constructor's value is the initial one.
-/
namespace S2P

/-- A stream buffer and the current value of `self.auto_drop` (stream_buffer.py 141). -/
structure ASB (K V I : Type) where
  sb : SB K V I
  auto : Bool

/-- Choices: somebody assigns `auto_drop`, or anything that could happen before (stream_buffer.py 117-295). -/
inductive AAct (K V I : Type) where
  | assign (auto : Bool)
  | act (a : SBAct K V I)

namespace ASB
variable {K V I : Type} [LT K] [DecidableLT K] [BEq V]

/-- stream_buffer.py 117-154. -/
def init (cfg : SBCfg K V) : ASB K V I := { sb := SB.init, auto := cfg.autoDrop }

/-- One step; lines 171 and 256 see the current value. -/
def step (cfg : SBCfg K V) (s : ASB K V I) : AAct K V I → Option (ASB K V I)
  | .assign x => some { s with auto := x }
  | .act a => (s.sb.step { cfg with autoDrop := s.auto } a).map fun s' => { s with sb := s' }

def exec (cfg : SBCfg K V) : ASB K V I → List (AAct K V I) → Option (ASB K V I)
  | s, [] => some s
  | s, a :: as => match s.step cfg a with
    | some s' => s'.exec cfg as
    | none => none

end ASB
end S2P
