import Verif.Model.StreamBuffer
/-
Model of `StreamBuffer.join` (stream_buffer.py 239-241) and of callers that wait with it, on top of Model/StreamBuffer.lean. `join` is a property: it
looks up `self._read_to_buffer_thread` and returns that thread's `join` method, which the caller then calls.
-/
namespace S2P

/-- What a call `stream_buffer.join()` came to: it returned after waiting for thread `t`, or it raised. -/
inductive JEv where
  | joined (t : Nat)
  | raised (e : PyErr)
  deriving DecidableEq, Repr

/-- A stream buffer, for each caller the thread it waits for, and (ghost) the outcomes of `join()` calls. -/
structure JSB (K V I : Type) where
  sb : SB K V I
  waits : Nat → Option Nat
  joins : List JEv

/-- Choices of the scheduler. -/
inductive JAct (K V I : Type) where
  | sb (a : SBAct K V I)
  /-- caller `c` evaluates `stream_buffer.join` -/
  | look (c : Nat)
  /-- caller `c` calls the method it got, or wakes up in it -/
  | wait (c : Nat)

namespace JSB
variable {K V I : Type} [LT K] [DecidableLT K] [BEq V]

def init : JSB K V I := { sb := SB.init, waits := fun _ => none, joins := [] }

def setWait (s : JSB K V I) (c : Nat) (t : Option Nat) : JSB K V I := { s with waits := fun j => if j = c then t else s.waits j }

/-- One step. `threading.Thread.join`: a `RuntimeError` if the thread was not started; otherwise it blocks until the thread has ended. -/
def step (cfg : SBCfg K V) (s : JSB K V I) : JAct K V I → Option (JSB K V I)
  | .sb a => (s.sb.step cfg a).map fun y => { s with sb := y }
  | .look c => if s.waits c = none then
      match s.sb.thread with
      | none => some { s with joins := s.joins ++ [.raised .attributeError] } -- 241: `None.join`
      | some t => some (s.setWait c (some t))
    else none
  | .wait c => match s.waits c with
    | none => none
    | some t => match s.sb.thr t with
      | .fresh => some { s.setWait c none with joins := s.joins ++ [.raised .runtimeError] }
      | .done => some { s.setWait c none with joins := s.joins ++ [.joined t] }
      | _ => none

/-- An execution. -/
def exec (cfg : SBCfg K V) : JSB K V I → List (JAct K V I) → Option (JSB K V I)
  | s, [] => some s
  | s, x :: xs => match s.step cfg x with
    | some s' => s'.exec cfg xs
    | none => none

end JSB

/-- The actions of the stream buffer among those of an execution. -/
def sbActs {K V I : Type} : List (JAct K V I) → List (SBAct K V I)
  | [] => []
  | .sb a :: xs => a :: sbActs xs
  | _ :: xs => sbActs xs

end S2P
