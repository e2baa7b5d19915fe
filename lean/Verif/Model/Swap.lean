import Verif.Model.StreamBuffer
/-
stream_buffer.py 139: `source_reader` is a plain public attribute, looked up anew at every call on the source (257, 269, 286, 288, 290, 293). The stream buffer
with callers who also assign other sources to it at any time. Everything else is Model/StreamBuffer.lean.

Simplifications: all sources have the same key function and `buffer_reader_class`; the look at `source_reader` and the call of a method on what was found are two steps for
`read`, `open` and `close`, and one for the attributes read while the buffer is made (288-293).
-/
namespace S2P

/-- A stream buffer, `self.source_reader` (stream_buffer.py 139; sources are numbered), the sources on which the threads have a call of `read` or `close` in progress
(257, 269) and the one on which `start()` has a call of `open` (286). `calls` is ghost: the calls on sources that have come to an end. -/
structure WSB (K V I : Type) where
  sb : SB K V I
  src : Nat
  held : Nat → Option Nat
  heldOpen : Option Nat
  calls : List (Nat × Ev V I)

/-- Choices: somebody assigns `source_reader`; thread `t` looks it up and calls a method on it; `start()` does; or anything that could happen before. -/
inductive WAct (K V I : Type) where
  | assign (o : Nat)
  | look (t : Nat)
  | lookOpen
  | act (a : SBAct K V I)

namespace WSB
variable {K V I : Type} [LT K] [DecidableLT K] [BEq V]

/-- stream_buffer.py 117-154, with source `o`. -/
def init (o : Nat) : WSB K V I := { sb := SB.init, src := o, held := fun _ => none, heldOpen := none, calls := [] }

omit [LT K] [DecidableLT K] [BEq V] in
/-- The call on a source that ends with this step, if it is one: the source, if the call has begun, and what happened (257, 269, 286, 288-293). -/
def target (s : WSB K V I) : SBAct K V I → Option (Option Nat × Ev V I)
  | .openOk => some (s.heldOpen, .opened (s.sb.n - 1))
  | .openRaise => some (s.heldOpen, .openRaised (s.sb.n - 1))
  | .bufOk info => some (some s.src, .bufferMade (s.sb.n - 1) info)
  | .bufRaise => some (some s.src, .infoRaised (s.sb.n - 1))
  | .readOk t r => some (s.held t, .read t r)
  | .readRaise t e => some (s.held t, .readRaised t e)
  | .close t ok => some (s.held t, .closed t ok)
  | _ => none

omit [LT K] [DecidableLT K] [BEq V] in
/-- The call has ended. -/
def release (s : WSB K V I) : SBAct K V I → WSB K V I
  | .openOk => { s with heldOpen := none }
  | .openRaise => { s with heldOpen := none }
  | .readOk t _ => { s with held := fun j => if j = t then none else s.held j }
  | .readRaise t _ => { s with held := fun j => if j = t then none else s.held j }
  | .close t _ => { s with held := fun j => if j = t then none else s.held j }
  | _ => s

/-- One step. -/
def step (cfg : SBCfg K V) (s : WSB K V I) : WAct K V I → Option (WSB K V I)
  | .assign o => some { s with src := o }
  | .look t => -- 257, 269
    match s.sb.thr t, s.held t with
    | .reading, none => some { s with held := fun j => if j = t then some s.src else s.held j }
    | .fin3, none => some { s with held := fun j => if j = t then some s.src else s.held j }
    | _, _ => none
  | .lookOpen => -- 286
    if s.sb.start = some .opening ∧ s.heldOpen = none then some { s with heldOpen := some s.src } else none
  | .act a =>
    match s.target a with
    | none => (s.sb.step cfg a).map fun x => { s with sb := x }
    | some (none, _) => none
    | some (some o, e) => (s.sb.step cfg a).map fun x => { s.release a with sb := x, calls := s.calls ++ [(o, e)] }

/-- An execution. -/
def exec (cfg : SBCfg K V) : WSB K V I → List (WAct K V I) → Option (WSB K V I)
  | s, [] => some s
  | s, a :: as => match s.step cfg a with
    | some s' => s'.exec cfg as
    | none => none

end WSB
end S2P
