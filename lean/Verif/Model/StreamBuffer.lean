import Verif.Model.Consumer
import Verif.Spec.Trace
/-
Model of stream2py/stream_buffer.py 81-295 (`StreamBuffer`) with the `_SourceBuffer` objects (26-78) it makes, their readers
(Model/Consumer.lean), the background threads, and callers of `start`, `stop`, `mk_reader`, `attach_reader`, `drop`, `is_running`,
`source_reader_info`, `next`, under an arbitrary scheduler and an arbitrary source.

One step = one Python statement that touches shared state (attribute assignment, look at an event, call on the source, locked section on
a buffer). What the source does (return, `None`, raise) is chosen by the environment in the action. Sleeping is a step without effect.
Objects live on a heap: thread, stop event and `_SourceBuffer` made by the same `start()` get the same number; that a buffer's event is
the one with its number is not built in (field `evt` is filled from `self._stop_event`).

`with start_lock` sections other than `start()` consist of one look at attributes that only change under the same lock, so they are one
step, enabled when no `start()` is in progress. Looking up `self._stop_event` and using it is one step: the attribute is replaced only
after its event is set, so separating the two gives no further behaviour. `threading.Thread` / `Event` creation does not fail.
-/
namespace S2P

/-- Where a background thread is in `_run` (stream_buffer.py 252-271). -/
inductive TPC (V : Type) where
  /-- no such thread / made at 279, not started -/
  | unborn | fresh
  /-- 254 -/
  | check
  /-- 256: about to look up `self.source_buffer` (or with `auto_drop=True` to go on) -/
  | cap
  /-- 256: about to take the length of the buffer found -/
  | measuring (b : Nat)
  /-- 257: inside `source_reader.read()` -/
  | reading
  /-- 264 -/
  | sleeping
  /-- 262: about to look up `self.source_buffer` -/
  | appending (v : V)
  /-- 262 / 60-62: about to append to the buffer found -/
  | storing (b : Nat) (v : V)
  /-- 266 / 267 / 269 -/
  | fin1 | fin2 | fin3
  | done
  deriving DecidableEq, Repr

/-- Where the caller holding `start_lock` is in `start()` (stream_buffer.py 179-184, 186-190, 273-295). -/
inductive StartPC where
  /-- 180 / 188 / 190 -/
  | chk1 | set1 | clr1
  /-- 276 / 188 / 190 -/
  | chk2 | set2 | clr2
  /-- 278 / 279 / 280 -/
  | wipe | mkThr | mkEvt
  /-- inside `source_reader.open()` at 286 -/
  | opening
  /-- 287-295 -/
  | mkBuf
  /-- 184 -/
  | launch
  deriving DecidableEq, Repr

/-- Where a caller is in `next(stream_buffer)` (160-163). -/
inductive NextPC where
  | idle
  /-- 162: about to call `mk_reader` -/
  | make
  /-- 162: about to assign the reader (of buffer `b`) -/
  | store (b : Nat)
  /-- 163 -/
  | use
  deriving DecidableEq, Repr

/-- Where a caller is in `source_reader_info` (stream_buffer.py 226-228). -/
inductive InfoPC where
  | idle
  /-- 226: about to take the truth value, i.e. the length, of the buffer found -/
  | test (b : Nat)
  /-- 227: about to look up `self.source_buffer` again -/
  | again
  deriving DecidableEq, Repr

/-- stream_buffer.py 26-78: a `_SourceBuffer`: its stop event, the info, buffer and readers. The field `stopped` of `cons` is not used
(see `SB.view`). -/
structure Sess (K V I : Type) where
  evt : Nat
  info : I
  cons : Cons K V

/-- stream_buffer.py 117-154: constructor arguments and the source's key function.
`rdCfg i`: settings of the `i`-th reader (of every session). -/
structure SBCfg (K V : Type) where
  maxlen : Option Nat
  autoDrop : Bool
  key : V → K
  keyNone : Py (Option K)
  rdCfg : Nat → Cfg

/-- A `StreamBuffer` and the heap. `log` is ghost. -/
structure SB (K V I : Type) where
  /-- events that are set -/
  flag : Nat → Bool
  thr : Nat → TPC V
  buf : Nat → Option (Sess K V I)
  /-- how many threads were made -/
  n : Nat
  /-- `self._stop_event`, `self.source_buffer`, `self._read_to_buffer_thread`, `self._next_reader` (the buffer it reads) -/
  stopEvent : Option Nat
  sourceBuffer : Option Nat
  thread : Option Nat
  nextReader : Option Nat
  /-- `start_lock` is held by a `start()` at this point -/
  start : Option StartPC
  /-- callers of `stop()` between 188 and 190 -/
  stopping : Nat
  nexts : Nat → NextPC
  /-- callers of `drop(n)` that have looked up `self.source_buffer` (175) and not yet got the writer lock: the buffer found, and `n` -/
  drops : Nat → Option (Nat × Int)
  infos : Nat → InfoPC
  log : List (Ev V I)

/-- Scheduler and environment choices. -/
inductive SBAct (K V I : Type) where
  /-- a caller gets `start_lock` in `start()` -/
  | start
  /-- the `start()` in progress does its next statement -/
  | startGo
  /-- `source_reader.open()` returns / raises -/
  | openOk
  | openRaise
  /-- 287-295 with `source_reader.info` returning / raising -/
  | bufOk (info : I)
  | bufRaise
  /-- `stop()` 188 / 190 -/
  | stop
  | stopEnd
  /-- thread `t` does its next statement (not a return from the source) -/
  | thr (t : Nat)
  /-- `source_reader.read()` returns / raises in thread `t` -/
  | readOk (t : Nat) (r : Option V)
  | readRaise (t : Nat) (e : PyErr)
  /-- the key function or a comparison raises in the append of thread `t` -/
  | keyRaise (t : Nat) (e : PyErr)
  /-- `source_reader.close()` returns or raises in thread `t` -/
  | close (t : Nat) (ok : Bool)
  /-- caller `c` calls `drop(n)`, up to the lookup of `self.source_buffer` / drops from the buffer found -/
  | drop (c : Nat) (n : Int)
  | dropGo (c : Nat)
  | mkReader
  /-- `attach_reader` of reader `i` of buffer `b`, known as reader `j` from then on -/
  | attach (b i j : Nat)
  | isRunning
  /-- caller `c` asks for `source_reader_info` / does its next statement there -/
  | info (c : Nat)
  | infoGo (c : Nat)
  /-- caller `c` calls `next(stream_buffer)` / does its next statement there -/
  | next (c : Nat)
  | nextGo (c : Nat)
  /-- a consumer of buffer `b` does something with its reader -/
  | rd (b : Nat) (a : CAct K V)

/-- Consumers do not append, drop or set the stop event. -/
def CAct.isReaders {K V : Type} : CAct K V → Bool
  | .call (.rd _ _) => true
  | .call _ => false
  | .setStop => false
  | _ => true

namespace SB
variable {K V I : Type} [LT K] [DecidableLT K] [BEq V]

/-- stream_buffer.py 117-154. -/
def init : SB K V I :=
  { flag := fun _ => false, thr := fun _ => .unborn, buf := fun _ => none, n := 0, stopEvent := none, sourceBuffer := none, thread := none,
    nextReader := none, start := none, stopping := 0, nexts := fun _ => .idle,
    drops := fun _ => none, infos := fun _ => .idle, log := [] }

def say (s : SB K V I) (e : Ev V I) : SB K V I := { s with log := s.log ++ [e] }

def setThr (s : SB K V I) (t : Nat) (p : TPC V) : SB K V I := { s with thr := fun j => if j = t then p else s.thr j }

def setBuf (s : SB K V I) (b : Nat) (x : Sess K V I) : SB K V I := { s with buf := fun j => if j = b then some x else s.buf j }

def setNext (s : SB K V I) (c : Nat) (p : NextPC) : SB K V I := { s with nexts := fun j => if j = c then p else s.nexts j }

def setDrop (s : SB K V I) (c : Nat) (p : Option (Nat × Int)) : SB K V I := { s with drops := fun j => if j = c then p else s.drops j }

def setInfo (s : SB K V I) (c : Nat) (p : InfoPC) : SB K V I := { s with infos := fun j => if j = c then p else s.infos j }

/-- `event.set()`. -/
def setEvent (s : SB K V I) (e : Nat) : SB K V I := ({ s with flag := fun j => if j = e then true else s.flag j }).say (.eventSet e)

/-- `self._stop_event and not self._stop_event.is_set()` (180, 237, 276). -/
def running (s : SB K V I) : Bool :=
  match s.stopEvent with
  | some e => !s.flag e
  | none => false

/-- A statement of `start()` other than `open()` and the making of the buffer. -/
def startGo (s : SB K V I) : Option (SB K V I) :=
  match s.start with
  | some .chk1 => some { s with start := some (if s.running then .set1 else .chk2) } -- 180
  | some .set1 => match s.stopEvent with -- 181, 188
    | some e => some { s.setEvent e with start := some .clr1 }
    | none => none
  | some .clr1 => some { s with nextReader := none, start := some .chk2 } -- 190
  | some .chk2 => some { s with start := some (if s.running then .set2 else .wipe) } -- 276
  | some .set2 => match s.stopEvent with -- 277, 188
    | some e => some { s.setEvent e with start := some .clr2 }
    | none => none
  | some .clr2 => some { s with nextReader := none, start := some .wipe } -- 190
  | some .wipe => some { s with sourceBuffer := none, start := some .mkThr } -- 278
  | some .mkThr => -- 279
    some { s.setThr s.n .fresh with thread := some s.n, n := s.n + 1, start := some .mkEvt }
  | some .mkEvt => some { s with stopEvent := some (s.n - 1), start := some .opening } -- 280
  | some .launch => match s.thread with -- 184; the lock is released (179)
    | some t => some (({ s.setThr t .check with start := none }).say (.launched t))
    | none => none
  | _ => none

/-- stream_buffer.py 287-295: the new `_SourceBuffer` (44-47). -/
def newSess (cfg : SBCfg K V) (evt : Nat) (info : I) : Sess K V I :=
  { evt := evt, info := info, cons := Cons.init cfg.key cfg.keyNone cfg.maxlen cfg.rdCfg }

/-- A statement of `_run` other than calls on the source. -/
def thrGo (cfg : SBCfg K V) (s : SB K V I) (t : Nat) : Option (SB K V I) :=
  match s.thr t with
  | .check => match s.stopEvent with -- 254
    | some e => some (s.setThr t (if s.flag e then .fin1 else .cap))
    | none => none
  | .cap => -- 256
    if cfg.autoDrop then some (s.setThr t .reading)
    else match s.sourceBuffer with
      | none => some ((s.setThr t .fin1).say (.crashed t .typeError)) -- len(None)
      | some b => some (s.setThr t (.measuring b))
  | .measuring b => match s.buf b with -- 256, 49-50
    | none => none
    | some x => match cfg.maxlen with
      | none => some ((s.setThr t .fin1).say (.crashed t .typeError)) -- int < None
      | some m => some (s.setThr t (if x.cons.ch.buf.len < m then .reading else .sleeping))
  | .appending v => match s.sourceBuffer with -- 262
    | none => some ((s.setThr t .fin1).say (.crashed t .attributeError))
    | some b => some (s.setThr t (.storing b v))
  | .storing b v => match s.buf b with -- 60-62
    | none => none
    | some x => match (x.cons.call (.append v)) with
      | (c, .ok _) => some (((s.setBuf b { x with cons := c }).setThr t .check).say (.stored t b v))
      | (c, .error e) => some (((s.setBuf b { x with cons := c }).setThr t .fin1).say (.refused t b v e))
  | .sleeping => some (s.setThr t .check) -- 264
  | .fin1 => match s.stopEvent with -- 266
    | some e => some (s.setThr t (if s.flag e then .fin3 else .fin2))
    | none => none
  | .fin2 => match s.stopEvent with -- 267
    | some e => some ((s.setEvent e).setThr t .fin3)
    | none => none
  | _ => none

/-- What the consumers of buffer `b` see: its buffer and readers, and the state of its stop event. -/
def view (s : SB K V I) (b : Nat) : Option (Cons K V) :=
  (s.buf b).map fun x => { x.cons with stopped := s.flag x.evt }

/-- One step. -/
def step (cfg : SBCfg K V) (s : SB K V I) : SBAct K V I → Option (SB K V I)
  | .start => if s.start = none then some { s with start := some .chk1 } else none -- 179
  | .startGo => s.startGo
  | .openOk => -- 286
    if s.start = some .opening then some (({ s with start := some .mkBuf }).say (.opened (s.n - 1))) else none
  | .openRaise => -- 286, leaves `with` (179)
    if s.start = some .opening then some (({ s with start := none }).say (.openRaised (s.n - 1))) else none
  | .bufOk info => -- 287-295
    match s.start, s.stopEvent with
    | some .mkBuf, some e =>
      some (({ s.setBuf (s.n - 1) (newSess cfg e info) with sourceBuffer := some (s.n - 1), start := some .launch }).say (.bufferMade (s.n - 1) info))
    | _, _ => none
  | .bufRaise => -- 288, 290
    if s.start = some .mkBuf then some (({ s with start := none }).say (.infoRaised (s.n - 1))) else none
  | .stop => match s.stopEvent with -- 188
    | none => some (s.say (.stopCalled (.error .attributeError)))
    | some e => some (({ s.setEvent e with stopping := s.stopping + 1 }).say (.stopCalled (.ok ())))
  | .stopEnd => if s.stopping = 0 then none else some { s with stopping := s.stopping - 1, nextReader := none } -- 190
  | .thr t => s.thrGo cfg t
  | .readOk t r => -- 257, 261
    match s.thr t with
    | .reading => some ((s.setThr t (match r with | some v => .appending v | none => .sleeping)).say (.read t r))
    | _ => none
  | .readRaise t e => match s.thr t with -- 257, 265
    | .reading => some ((s.setThr t .fin1).say (.readRaised t e))
    | _ => none
  | .keyRaise t e => match s.thr t with -- 61-62, sorted_deque.py 92-109
    | .storing b v => some ((s.setThr t .fin1).say (.refused t b v e))
    | _ => none
  | .close t ok => match s.thr t with -- 268-271
    | .fin3 => some ((s.setThr t .done).say (.closed t ok))
    | _ => none
  | .drop c k => -- 171-175
    if s.drops c = none then
      if cfg.autoDrop then some (s.say (.dropCalled k (.error .runtimeError)))
      else match s.sourceBuffer with
        | none => some (s.say (.dropCalled k (.error .attributeError)))
        | some b => some (s.setDrop c (some (b, k)))
    else none
  | .dropGo c => match s.drops c with -- 175, 64-66
    | none => none
    | some (b, k) => match s.buf b with
      | none => none
      | some x => match x.cons.call (.drop k) with
        | (d, r) => some ((((s.setDrop c none).setBuf b { x with cons := d }).say
            (.dropped b (x.cons.ch.buf.items.take (x.cons.ch.buf.items.length - d.ch.buf.items.length)))).say
            (.dropCalled k (r.map fun _ => ())))
  | .mkReader => -- 199-205
    if s.start = none then
      some (s.say (.madeReader (match s.sourceBuffer with | some b => .ok b | none => .error .streamNotStarted)))
    else none
  | .attach b i j => -- 212-218, 76-78: the reader keeps its cursor
    if s.start = none then
      match s.sourceBuffer with
      | none => some (s.say (.attached (.error .streamNotStarted)))
      | some b' => match s.buf b, s.buf b' with
        | some x, some x' =>
          let op : RdOp K V := match (x.cons.ch.readers i).lastItem with | some v => .setLast v | none => .delLast
          some ((s.setBuf b' { x' with cons := (x'.cons.call (.rd j op)).1 }).say (.attached (.ok b')))
        | _, _ => none
    else none
  | .isRunning => if s.start = none then some (s.say (.isRunning s.running)) else none -- 236-237
  | .info c => -- 226, 228
    if s.infos c = .idle then match s.sourceBuffer with
      | none => some (s.say (.info (.ok none)))
      | some b => some (s.setInfo c (.test b))
    else none
  | .infoGo c => match s.infos c with
    | .idle => none
    | .test b => match s.buf b with -- 226: the test is on the length (49-50)
      | none => none
      | some x => if x.cons.ch.buf.len = 0 then some ((s.setInfo c .idle).say (.info (.ok none))) else some (s.setInfo c .again)
    | .again => match s.sourceBuffer with -- 227
      | none => some ((s.setInfo c .idle).say (.info (.error .attributeError)))
      | some b => match s.buf b with
        | none => none
        | some x => some ((s.setInfo c .idle).say (.info (.ok (some x.info))))
  | .next c => -- 161
    if s.nexts c = .idle then some (s.setNext c (if s.nextReader = none then .make else .use)) else none
  | .nextGo c => match s.nexts c with
    | .idle => none
    | .make => -- 162, 199-205
      if s.start = none then
        match s.sourceBuffer with
        | none => some ((s.setNext c .idle).say (.nextOn (.error .streamNotStarted)))
        | some b => some (s.setNext c (.store b))
      else none
    | .store b => some { s.setNext c .use with nextReader := some b } -- 162
    | .use => match s.nextReader with -- 163
      | none => some ((s.setNext c .idle).say (.nextOn (.error .typeError)))
      | some b => some ((s.setNext c .idle).say (.nextOn (.ok b)))
  | .rd b a => if a.isReaders then match s.buf b with
      | none => none
      | some x => match ({ x.cons with stopped := s.flag x.evt } : Cons K V).step cfg.rdCfg a with
        | some c => some (s.setBuf b { x with cons := c })
        | none => none
    else none

/-- An execution. -/
def exec (cfg : SBCfg K V) : SB K V I → List (SBAct K V I) → Option (SB K V I)
  | s, [] => some s
  | s, a :: as => match s.step cfg a with
    | some s' => s'.exec cfg as
    | none => none

end SB
end S2P
