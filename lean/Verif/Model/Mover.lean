import Verif.Model.StreamBuffer
import Verif.Spec.Mover
/-
Model of readers that are moved to another session while consumers use them: `StreamBuffer.attach_reader` (stream_buffer.py 207-218, 76-78) statement by
statement beside the waiting calls of `BufferReader` (buffer_reader.py 143-175), on top of Model/StreamBuffer.lean. A reader object holds `_buffer` and
`_stop_event`; `attach_reader` assigns the one, then the other. A call of `next` or a turn of a loop looks up `_buffer` (392), reads the buffer found under its
lock, and if there was nothing looks up `_stop_event` (171, 153; `is_stopped` 191-194). Each of these is one step. (In Model/StreamBuffer.lean a reader is attached in one step
and goes on as another reader, so that no call on it is in progress then.)

A call of a reader is made by one consumer at a time. Simplifications: only `next` and `for` loops (`read(blocking=True)` waits in the same way); the key function
used for the cursor (`self._buffer.key`, 215) is the same for all sessions.
-/
namespace S2P
open Spec (MvEv)

/-- Where the consumer of a reader is. `it`: in a `for` loop (143-156), otherwise in `next(reader)` (158-175). -/
inductive MvPC where
  | idle
  /-- 392: about to look up `self._buffer` -/
  | look (it : Bool)
  /-- 392-420: about to enter the reader lock of the buffer found -/
  | read (it : Bool) (b : Nat)
  /-- 171: the read gave `None`, about to look at `is_stopped` -/
  | check (it : Bool)
  /-- 153: likewise -/
  | check2
  /-- 156 -/
  | sleep
  /-- 152: at the loop body -/
  | body
  deriving DecidableEq, Repr

/-- buffer_reader.py 120-141: a reader object: `_buffer`, `_stop_event`, cursor and settings, and where its consumer is. -/
structure Mover (K V : Type) where
  buf : Nat
  evt : Nat
  rd : Reader K V
  pc : MvPC

/-- A stream buffer and reader objects; the reader and the buffer of the `attach_reader` call in progress that has done its first assignment (77); (ghost) what the
consumers observed, oldest first. -/
structure MSB (K V I : Type) where
  sb : SB K V I
  rds : Nat → Option (Mover K V)
  attaching : Option (Nat × Nat)
  evs : List (Nat × MvEv V)

/-- Choices of scheduler and environment. -/
inductive MvAct (K V I : Type) where
  | sb (a : SBAct K V I)
  /-- `mk_reader()`, the result being reader `i` -/
  | make (i : Nat)
  /-- `attach_reader(reader i)`, up to the first assignment / the second assignment -/
  | attach (i : Nat)
  | attachGo
  /-- `next(reader i)` / `for … in reader i` -/
  | next (i : Nat)
  | loop (i : Nat)
  /-- the consumer of reader `i` does its next statement -/
  | go (i : Nat)
  /-- it gives up its loop: `break` or an exception at the loop body or out of the sleep -/
  | leave (i : Nat)

/-- This step takes `start_lock` (stream_buffer.py 179, 199, 212, 236). -/
def SB.takesLock {K V I : Type} (s : SB K V I) : SBAct K V I → Bool
  | .start | .mkReader | .attach _ _ _ | .isRunning => true
  | .nextGo c => match s.nexts c with | .make => true | _ => false
  | _ => false

namespace MSB
variable {K V I : Type} [LT K] [DecidableLT K] [BEq V]

def init : MSB K V I := { sb := SB.init, rds := fun _ => none, attaching := none, evs := [] }

def set (s : MSB K V I) (i : Nat) (m : Mover K V) : MSB K V I := { s with rds := fun j => if j = i then some m else s.rds j }

def say (s : MSB K V I) (i : Nat) (e : MvEv V) : MSB K V I := { s with evs := s.evs ++ [(i, e)] }

/-- The next statement of the consumer of reader `i`, which is `m`. -/
def go (s : MSB K V I) (i : Nat) (m : Mover K V) : Option (MSB K V I) :=
  match m.pc with
  | .idle => none
  | .look it => some (s.set i { m with pc := .read it m.buf }) -- 392
  | .read it b => match s.sb.buf b with -- 392-420, 168, 146
    | none => none
    | some x => match m.rd.readForNext x.cons.ch.buf with
      | (.error e, rd) => some ((s.set i { m with rd := rd, pc := .idle }).say i (.raised e))
      | (.ok .none, rd) => some (s.set i { m with rd := rd, pc := .check it })
      | (.ok r, rd) => some ((s.set i { m with rd := rd, pc := if it then .body else .idle }).say i (.item b r))
  | .check it => -- 171-175, 147-149
    if s.sb.flag m.evt then some ((s.set i { m with pc := .idle }).say i (if it then .loopDone else .stopIteration))
    else if it then some (s.set i { m with pc := .check2 }) else some ((s.set i { m with pc := .idle }).say i .none)
  | .check2 => -- 153-154
    if s.sb.flag m.evt then some ((s.set i { m with pc := .idle }).say i .loopDone) else some (s.set i { m with pc := .sleep })
  | .sleep | .body => some (s.set i { m with pc := .look true }) -- 156, 152, 144

/-- One step. -/
def step (cfg : SBCfg K V) (s : MSB K V I) : MvAct K V I → Option (MSB K V I)
  | .sb a => if s.attaching ≠ none ∧ s.sb.takesLock a = true then none else (s.sb.step cfg a).map fun y => { s with sb := y }
  | .make i => -- stream_buffer.py 199-205, 68-74; buffer_reader.py 120-141
    if s.sb.start = none ∧ s.attaching = none ∧ (s.rds i).isNone then
      match s.sb.sourceBuffer with
      | none => some (s.say i .notStarted)
      | some b => (s.sb.buf b).map fun x => s.set i { buf := b, evt := x.evt, rd := Reader.init (cfg.rdCfg i), pc := .idle }
    else none
  | .attach i => -- 212-218, 77
    if s.sb.start = none ∧ s.attaching = none then
      match s.rds i with
      | none => none
      | some m => match s.sb.sourceBuffer with
        | none => some (s.say i .notStarted)
        | some b => some { s.set i { m with buf := b } with attaching := some (i, b) }
    else none
  | .attachGo => match s.attaching with -- 78
    | none => none
    | some (i, b) => match s.rds i, s.sb.buf b with
      | some m, some x => some (({ s with attaching := none }.set i { m with evt := x.evt }).say i (.attached b))
      | _, _ => none
  | .next i => match s.rds i with
    | some m => if m.pc = .idle then some (s.set i { m with pc := .look false }) else none
    | none => none
  | .loop i => match s.rds i with
    | some m => if m.pc = .idle then some (s.set i { m with pc := .look true }) else none
    | none => none
  | .go i => match s.rds i with
    | some m => s.go i m
    | none => none
  | .leave i => match s.rds i with
    | some m => if m.pc = .body ∨ m.pc = .sleep then some (s.set i { m with pc := .idle }) else none
    | none => none

/-- An execution. -/
def exec (cfg : SBCfg K V) : MSB K V I → List (MvAct K V I) → Option (MSB K V I)
  | s, [] => some s
  | s, a :: as => match s.step cfg a with
    | some s' => s'.exec cfg as
    | none => none

end MSB
end S2P
