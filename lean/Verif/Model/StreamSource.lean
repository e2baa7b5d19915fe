import Verif.Model.StreamBuffer
import Verif.Spec.Source
/-
Model of stream2py/stream_source.py 37-171 (`StreamSource`): configuration, making the buffer on first use, counting open readers and stopping
the buffer when the last one is closed; and of `BufferReader.close` (buffer_reader.py 442-444) with its `onclose` attribute. One user thread calls
`configure_buffer`, `open_reader`, `mk_reader`, assigns `onclose` and closes readers in any order; the stream buffer (Model/StreamBuffer.lean)
with its thread, the source and the consumers of the readers run in between in any way. `open()`, `read()`, `key`, `info`, `close()` are those of
the user's subclass, i.e. the environment of Model/StreamBuffer.lean.
Simplification: the buffer is private to the source (nobody else calls `start`/`stop` on it), and only one thread opens and closes readers.
-/
namespace S2P

/-- Where the user thread is. -/
inductive SrcPC where
  | idle
  /-- stream_source.py 106: inside `self._stream_buffer.start()` -/
  | starting
  /-- 126: about to call `mk_reader` -/
  | making
  /-- 169: inside `self._stream_buffer.stop()` (before stream_buffer.py 190), called by `close()` of reader `r` -/
  | stopping (r : Nat)
  deriving DecidableEq, Repr

/-- stream_source.py 60-67. `conf`: `_buffer_kwargs` (none: `{}`). `sb`: `_stream_buffer` and the settings it was made with. `made`: number of
readers. `onclose r`: that attribute of reader `r`. `log` is ghost. -/
structure Src (K V I : Type) where
  conf : Option (Option Nat × Bool)
  sb : Option ((Option Nat × Bool) × SB K V I)
  openReaders : Int
  made : Nat
  onclose : Nat → OnClose
  pc : SrcPC
  log : List SrcEv

/-- What the subclass fixes. -/
structure SrcCfg (K V : Type) where
  key : V → K
  keyNone : Py (Option K)
  rdCfg : Nat → Cfg

/-- stream_source.py 105: `StreamBuffer(self, **self._buffer_kwargs)`. -/
def SrcCfg.sb {K V : Type} (cfg : SrcCfg K V) (c : Option Nat × Bool) : SBCfg K V :=
  { maxlen := c.1, autoDrop := c.2, key := cfg.key, keyNone := cfg.keyNone, rdCfg := cfg.rdCfg }

/-- Choices of user, scheduler and environment. -/
inductive SrcAct (K V I : Type) where
  /-- `configure_buffer(maxlen=, auto_drop=)` -/
  | configure (c : Option Nat × Bool)
  /-- `open_reader()` is called / goes on -/
  | openReader
  | openGo
  /-- `mk_reader()` of the stream buffer -/
  | mkReader
  /-- `reader.onclose = f` (true) or `None` (false) -/
  | assign (r : Nat) (f : Bool)
  /-- `close()` of reader `r` is called / the `stop()` in it returns -/
  | close (r : Nat)
  | closeGo
  /-- the stream buffer, its thread, the source or a consumer does something -/
  | bg (a : SBAct K V I)

/-- Not `start()` and `stop()`, which only the source calls. -/
def SBAct.isBg {K V I : Type} : SBAct K V I → Bool
  | .start | .stop | .stopEnd => false
  | _ => true

namespace Src
variable {K V I : Type} [LT K] [DecidableLT K] [BEq V]

/-- stream_source.py 60-67. -/
def init : Src K V I :=
  { conf := none, sb := none, openReaders := 0, made := 0, onclose := fun _ => .missing, pc := .idle, log := [] }

def say (s : Src K V I) (e : SrcEv) : Src K V I := { s with log := s.log ++ [e] }

def setOnclose (s : Src K V I) (r : Nat) (o : OnClose) : Src K V I := { s with onclose := fun j => if j = r then o else s.onclose j }

/-- `is_stopped` of a reader of session `b`, negated. -/
def live (x : SB K V I) (b : Nat) : Bool := match x.view b with | some c => !c.stopped | none => false

/-- stream_source.py 111-114, 167-171: `_handle_reader_closed`. -/
def readerClosed (cfg : SrcCfg K V) (s : Src K V I) (r : Nat) : Option (Src K V I) :=
  let s := { s with openReaders := s.openReaders - 1 } -- 112
  if s.openReaders ≤ 0 then -- 113
    match s.sb with
    | none => none
    | some (c, x) =>
      match x.step (cfg.sb c) .stop with -- 168-169, stream_buffer.py 188
      | none => none
      | some x' =>
        match x.stopEvent with
        | none => some (({ s with sb := some (c, x') }).say (.closed r (.error .attributeError)))
        | some _ => some ((({ s with sb := some (c, x'), pc := .stopping r }).say (.closed r (.ok ()))).say .stopped)
  else some (s.say (.closed r (.ok ())))

/-- One step. -/
def step (cfg : SrcCfg K V) (s : Src K V I) : SrcAct K V I → Option (Src K V I)
  | .configure c => -- 94-101
    if s.pc = .idle then
      match s.sb with
      | some _ => some (s.say (.configured c (.error .valueError)))
      | none => some (({ s with conf := some c }).say (.configured c (.ok ())))
    else none
  | .openReader => -- 125, 103-106; stream_buffer.py 117-123 (defaults `maxlen=100`, `auto_drop=True`), 179
    if s.pc = .idle then
      match s.sb with
      | some _ => some { s with pc := .making }
      | none =>
        match (SB.init : SB K V I).step (cfg.sb (s.conf.getD (some 100, true))) .start with
        | some x => some (({ s with sb := some (s.conf.getD (some 100, true), x), pc := .starting }).say (.bufferMade (s.conf.getD (some 100, true))))
        | none => none
    else none
  | .openGo => match s.pc, s.sb with
    | .starting, some (_, x) => -- 106: `start()` has returned or raised
      if x.start = none then
        match x.sourceBuffer with
        | some _ => some { s with pc := .making }
        | none => some (({ s with pc := .idle }).say (.openError (.other 0)))
      else none
    | .making, some (_, x) => -- 126-134; stream_buffer.py 199-205
      match x.sourceBuffer with
      | none => some (({ s with pc := .idle }).say (.openError .streamNotStarted))
      | some b =>
        some ((({ s with pc := .idle, openReaders := s.openReaders + 1, made := s.made + 1 }).setOnclose s.made .handler).say
          (.opened s.made b (live x b)))
    | _, _ => none
  | .mkReader => -- stream_buffer.py 199-205, 68-74; buffer_reader.py 86-141 does not assign `onclose`
    if s.pc = .idle then match s.sb with
      | none => none
      | some (_, x) => match x.sourceBuffer with
        | none => some (s.say (.makeError .streamNotStarted))
        | some _ => some ((({ s with made := s.made + 1 }).setOnclose s.made .missing).say (.made s.made))
    else none
  | .assign r f =>
    if s.pc = .idle ∧ r < s.made then some ((s.setOnclose r (if f then .user else .none)).say (.assigned r f)) else none
  | .close r => -- buffer_reader.py 443-444 (and 436-437, 449-450)
    if s.pc = .idle ∧ r < s.made then
      match s.onclose r with
      | .missing => some (s.say (.closed r (.error .attributeError)))
      | .none => some (s.say (.closed r (.ok ())))
      | .user => some ((s.say (.ran r)).say (.closed r (.ok ())))
      | .handler => s.readerClosed cfg r
    else none
  | .closeGo => match s.pc, s.sb with -- stream_buffer.py 189-190
    | .stopping _, some (c, x) =>
      match x.step (cfg.sb c) .stopEnd with
      | some x' => some { s with sb := some (c, x'), pc := .idle }
      | none => none
    | _, _ => none
  | .bg a =>
    if a.isBg then match s.sb with
      | none => none
      | some (c, x) => match x.step (cfg.sb c) a with
        | some x' => some { s with sb := some (c, x') }
        | none => none
    else none

/-- An execution. -/
def exec (cfg : SrcCfg K V) : Src K V I → List (SrcAct K V I) → Option (Src K V I)
  | s, [] => some s
  | s, a :: as => match s.step cfg a with
    | some s' => s'.exec cfg as
    | none => none

end Src
end S2P
