import Verif.Model.StreamBuffer
import Verif.Spec.Simply
/-
Model of stream2py/simply.py 38-134 (`mk_stream_buffer`): the source reader it makes (85-121), and the context manager (123-134), on top of the
stream buffer of Model/StreamBuffer.lean. `read_stream`, `open_stream`, `close_stream`, `info`, `key` are the user's: what they return or raise is the
environment's choice.
Simplifications: `read()` of the source reader (97-103) is one step, so two threads reading at the same time (only in executions that are not
settled, see `Simp.Settled`) do not interleave inside it; a `read_stream` that raises leaves `read_idx` as it is. One thread runs the `with` statement;
it does not leave the body while a `start()` of its own is in progress.
-/
namespace S2P

/-- Where the `with` statement is. -/
inductive WithPC where
  /-- before 131 / inside `start()` at 131 -/
  | before
  | starting
  /-- suspended at 132 -/
  | body
  /-- inside `stop()` at 134, on the way out with this exception -/
  | stopping (exc : Option PyErr)
  | done (exc : Option PyErr)
  deriving DecidableEq, Repr

/-- `readIdx`: `read_idx` (89, 92, 101). `raw t` (ghost): what `read_stream` returned in thread `t`, in order. -/
structure Simp (K D I : Type) where
  readIdx : Nat
  sb : SB K (SItem D) I
  pc : WithPC
  raw : Nat → List (Option D)
  wlog : List WithEv

/-- simply.py 97-103: what `read()` returns when `read_stream` returns `d`. -/
def simpRead {D : Type} (en : Bool) (i : Nat) (d : Option D) : Option (SItem D) :=
  if en then some (.pair i d) else d.map .raw

/-- Choices of user, scheduler and environment. -/
inductive SimpAct (K D I : Type) where
  /-- the `with` statement starts the stream / goes on when `start()` has ended; `e`: the exception it raised, if it did -/
  | enter
  | entered (e : PyErr)
  /-- the body ends -/
  | leave (exc : Option PyErr)
  /-- `stop()` ends -/
  | leftStop
  /-- `read_stream` returns in thread `t` -/
  | read (t : Nat) (d : Option D)
  /-- anything else that the stream buffer, its threads, the user's functions, consumers or the body do -/
  | sb (a : SBAct K (SItem D) I)

/-- `start()`. -/
def SBAct.isStart {K V I : Type} : SBAct K V I → Bool
  | .start => true
  | _ => false

/-- The end of a `stop()`. -/
def SBAct.isStopEnd {K V I : Type} : SBAct K V I → Bool
  | .stopEnd => true
  | _ => false

/-- The `stop()` of the `with` statement is in progress. -/
def WithPC.isStopping : WithPC → Bool
  | .stopping _ => true
  | _ => false

/-- Reading goes through `SimpAct.read`. -/
def SBAct.notRead {K V I : Type} : SBAct K V I → Bool
  | .readOk _ _ => false
  | _ => true

namespace Simp
variable {K D I : Type} [LT K] [DecidableLT K] [BEq D]

instance : BEq (SItem D) where
  beq
    | .pair i d, .pair j e => i == j && d == e
    | .raw d, .raw e => d == e
    | _, _ => false

/-- simply.py 123-128. -/
def init : Simp K D I := { readIdx := 0, sb := SB.init, pc := .before, raw := fun _ => [], wlog := [] }

/-- One step; `en`: `enumerate_data`. -/
def step (en : Bool) (cfg : SBCfg K (SItem D)) (s : Simp K D I) : SimpAct K D I → Option (Simp K D I)
  | .enter => if s.pc = .before then (s.sb.step cfg .start).map fun x => { s with sb := x, pc := .starting } else none -- 131
  | .entered e => -- 132, or 133-134 if `start()` raised
    if s.pc = .starting ∧ s.sb.start = none then
      if s.sb.sourceBuffer.isSome then some { s with pc := .body }
      else (s.sb.step cfg .stop).map fun x => { s with sb := x, pc := .stopping (some e), wlog := s.wlog ++ [.startRaised e] }
    else none
  | .leave exc => -- 133-134
    if s.pc = .body ∧ s.sb.start = none then
      (s.sb.step cfg .stop).map fun x => { s with sb := x, pc := .stopping exc, wlog := s.wlog ++ [.bodyEnded exc] }
    else none
  | .leftStop => match s.pc with
    | .stopping exc =>
      (s.sb.step cfg .stopEnd).map fun x => { s with sb := x, pc := .done exc, wlog := s.wlog ++ [.left exc] }
    | _ => none
  | .read t d => -- 97-103
    (s.sb.step cfg (.readOk t (simpRead en s.readIdx d))).map fun x =>
      { s with sb := x, readIdx := s.readIdx + 1, raw := fun j => if j = t then s.raw j ++ [d] else s.raw j }
  | .sb a =>
    if a.notRead = true ∧ (a.isStart = true → s.pc = .body) ∧ (a.isStopEnd = true → s.pc.isStopping = true → 1 < s.sb.stopping) then (s.sb.step cfg a).map fun x =>
      { s with sb := x, readIdx := match a with | .startGo => if x.start = some .opening then 0 else s.readIdx | _ => s.readIdx } -- 92
    else none

/-- An execution. -/
def exec (en : Bool) (cfg : SBCfg K (SItem D)) : Simp K D I → List (SimpAct K D I) → Option (Simp K D I)
  | s, [] => some s
  | s, a :: as => match s.step en cfg a with
    | some s' => s'.exec en cfg as
    | none => none

end Simp
end S2P
