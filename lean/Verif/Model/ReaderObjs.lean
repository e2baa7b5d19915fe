import Verif.Model.StreamBuffer
/-
The reader objects of a StreamBuffer: what a BufferReader holds besides its cursor (buffer_reader.py 120-124), and how `mk_reader`
(stream_buffer.py 68-74, 199-205) and `attach_reader` (stream_buffer.py 76-78, 212-218) set it.
-/
namespace S2P

/-- A BufferReader: the buffer it reads (`_buffer`), its stop event (`_stop_event`) and `_source_reader_info`. -/
structure RObj (I : Type) where
  buf : Nat
  evt : Nat
  info : I

/-- A StreamBuffer and the readers made by it, in order. -/
structure RObjs (K V I : Type) where
  sb : SB K V I
  rds : List (RObj I)

/-- Calls. -/
inductive RObjAct (K V I : Type) where
  /-- `mk_reader()` -/
  | mkReader
  /-- `attach_reader` of the `r`-th reader made; `i`, `j`: its numbers in the buffer it leaves and in the buffer it comes to (see `SBAct.attach`) -/
  | attach (r i j : Nat)
  /-- anything else -/
  | sb (a : SBAct K V I)

/-- Making and attaching readers goes through the other actions. -/
def SBAct.notReaders {K V I : Type} : SBAct K V I → Bool
  | .mkReader => false
  | .attach _ _ _ => false
  | _ => true

namespace RObjs
variable {K V I : Type} [LT K] [DecidableLT K] [BEq V]

def init : RObjs K V I := { sb := SB.init, rds := [] }

/-- One step. -/
def step (cfg : SBCfg K V) (s : RObjs K V I) : RObjAct K V I → Option (RObjs K V I)
  | .mkReader => -- stream_buffer.py 199-205, 68-74
    (s.sb.step cfg .mkReader).map fun x =>
      { sb := x, rds := match s.sb.sourceBuffer with
          | some b => match s.sb.buf b with
            | some y => s.rds ++ [{ buf := b, evt := y.evt, info := y.info }]
            | none => s.rds
          | none => s.rds }
  | .attach r i j => match s.rds[r]? with -- stream_buffer.py 212-218, 76-78
    | none => none
    | some o => (s.sb.step cfg (.attach o.buf i j)).map fun x =>
      { sb := x, rds := match s.sb.sourceBuffer with
          | some b => match s.sb.buf b with
            | some y => s.rds.set r { o with buf := b, evt := y.evt }
            | none => s.rds
          | none => s.rds }
  | .sb a => if a.notReaders then (s.sb.step cfg a).map fun x => { s with sb := x } else none

/-- An execution. -/
def exec (cfg : SBCfg K V) : RObjs K V I → List (RObjAct K V I) → Option (RObjs K V I)
  | s, [] => some s
  | s, a :: as => match s.step cfg a with
    | some s' => s'.exec cfg as
    | none => none

end RObjs
end S2P
