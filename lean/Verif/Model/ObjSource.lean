import Verif.Model.StreamSource
import Verif.Model.SourceObj
/-
A StreamSource (stream2py/stream_source.py 37-171) whose `open`, `read`, `close`, `info` and `key` are those of a given object: a subclass such as
`SimpleCounterString` of stream2py/examples/stream_source.py. The answers of these methods are not the environment's choice, they come from the object's
state (Model/SourceObj.lean); everything else is Model/StreamSource.lean.
-/
namespace S2P

/-- The object's own state, and what `StreamSource.__init__` (stream_source.py 60-67) added to it. -/
structure ObjSrc (σ K V I : Type) where
  st : σ
  src : Src K V I

/-- Choices: a call by the user (configure_buffer, open_reader, close, ...: 94-171), or something the stream buffer, its thread or a consumer does, the calls
on the object being answered by the object. -/
inductive OSAct (K V I : Type) where
  | user (a : SrcAct K V I)
  | obj (x : ObjAct K V I)

/-- Calls of the user, as opposed to what goes on in the background. -/
def SrcAct.isUser {K V I : Type} : SrcAct K V I → Bool
  | .bg _ => false
  | _ => true

namespace ObjSrc
variable {σ K V I : Type} [LT K] [DecidableLT K] [BEq V]

/-- examples/stream_source.py 8-14: a new object, in state `st`. -/
def init (st : σ) : ObjSrc σ K V I := { st := st, src := Src.init }

/-- One step (stream_source.py 94-171; stream_buffer.py 254-295 for the calls on the object). -/
def step (o : SrcObj σ K V I) (cfg : SrcCfg K V) (s : ObjSrc σ K V I) : OSAct K V I → Option (ObjSrc σ K V I)
  | .user a => if a.isUser then (s.src.step cfg a).map fun y => { s with src := y } else none
  | .obj x => match s.src.sb with
    | none => none
    | some (_, y) => match ObjSB.act o y s.st x with
      | none => none
      | some (a, st') => (s.src.step cfg (.bg a)).map fun z => { st := st', src := z }

/-- An execution. -/
def exec (o : SrcObj σ K V I) (cfg : SrcCfg K V) : ObjSrc σ K V I → List (OSAct K V I) → Option (ObjSrc σ K V I)
  | s, [] => some s
  | s, a :: as => match s.step o cfg a with
    | some s' => s'.exec o cfg as
    | none => none

end ObjSrc
end S2P
