import Verif.Model.StreamSource
import Verif.Spec.Linear
/-
`StreamSource` (stream2py/stream_source.py 35-171) used by any number of threads at the same time: `configure_buffer`, `open_reader` and `close()`
of readers executed statement by statement. `self._open_readers += 1` (109) and `-= 1` (112) are a load and a store; every look at
`self._stream_buffer` is a step of its own (104, 106, 126, 169). Each `StreamBuffer` made at 105 is a machine of Model/StreamBuffer.lean with its own
`start_lock`; the background threads, the source and the consumers of all of them run in between in any way.
Simplifications: only readers returned by `open_reader` are closed, and nobody assigns their `onclose` (for these see Model/StreamSource.lean);
nobody but the source touches a stream buffer before its `start()` is called. The two looks at `self._stream_buffer` in 168-169 are one:
it is never reset to `None`. The constructor of `StreamBuffer` and the assignment of the new object (105) are one step: it touches nothing shared
except `_buffer_kwargs`.
-/
namespace S2P

/-- A call on the source or one of its readers. -/
inductive MCall where
  | configure (c : Option Nat × Bool)
  | openReader
  | close (r : Nat)
  deriving DecidableEq, Repr

/-- Where a thread is. -/
inductive MPC where
  | idle
  /-- 94 / 96 -/
  | conf1 (c : Option Nat × Bool) | conf2 (c : Option Nat × Bool)
  /-- 104 / 105 / 106: about to look up the buffer / stream_buffer.py 179: waiting for its `start_lock` / holding it -/
  | ensure | mk | callStart | waitStart (b : Nat) | starting (b : Nat)
  /-- 126: about to look up the buffer / stream_buffer.py 199: in its `mk_reader` -/
  | look | making (b : Nat)
  /-- 109: load / store; 133-134 -/
  | inc1 (r : Nat) | inc2 (r : Nat) (n : Int) | attach (r : Nat)
  /-- 112: load / store; 113; 169 and stream_buffer.py 188; 190 -/
  | dec1 (r : Nat) | dec2 (r : Nat) (n : Int) | test (r : Nat) | exit (r : Nat) | stopping (b r : Nat)
  deriving DecidableEq, Repr

/-- The attributes of the source (60-67), the stream buffers made so far with their settings, the readers made so far (`home r`: stream buffer and
session of reader `r`), the threads, and for each stream buffer the thread that is in its `start()`. `call t`: number of the call thread `t` is in.
`log` and `hist` are ghost: observations as in Model/StreamSource.lean, and calls and returns. -/
structure MSrc (K V I : Type) where
  conf : Option (Option Nat × Bool)
  slot : Option Nat
  openReaders : Int
  bufs : Nat → Option ((Option Nat × Bool) × SB K V I)
  nbufs : Nat
  made : Nat
  home : Nat → Nat × Nat
  onclose : Nat → OnClose
  thr : Nat → MPC
  holder : Nat → Option Nat
  call : Nat → Nat
  calls : Nat
  log : List SrcEv
  hist : List (Spec.HEv MCall Unit)

/-- Choices of the scheduler, the users and the environment: thread `t` makes a call; thread `t` does its next statement; stream buffer `b`, its
thread, the source or a consumer does something. -/
inductive MAct (K V I : Type) where
  | call (t : Nat) (c : MCall)
  | go (t : Nat)
  | bg (b : Nat) (a : SBAct K V I)

namespace MSrc
variable {K V I : Type} [LT K] [DecidableLT K] [BEq V]

/-- stream_source.py 60-67. -/
def init : MSrc K V I :=
  { conf := none, slot := none, openReaders := 0, bufs := fun _ => none, nbufs := 0, made := 0, home := fun _ => (0, 0), onclose := fun _ => .missing,
    thr := fun _ => .idle, holder := fun _ => none, call := fun _ => 0, calls := 0, log := [], hist := [] }

def say (s : MSrc K V I) (e : SrcEv) : MSrc K V I := { s with log := s.log ++ [e] }

def setThr (s : MSrc K V I) (t : Nat) (p : MPC) : MSrc K V I := { s with thr := fun j => if j = t then p else s.thr j }

def setBuf (s : MSrc K V I) (b : Nat) (x : (Option Nat × Bool) × SB K V I) : MSrc K V I :=
  { s with bufs := fun j => if j = b then some x else s.bufs j }

def setHolder (s : MSrc K V I) (b : Nat) (t : Option Nat) : MSrc K V I := { s with holder := fun j => if j = b then t else s.holder j }

def setOnclose (s : MSrc K V I) (r : Nat) (o : OnClose) : MSrc K V I := { s with onclose := fun j => if j = r then o else s.onclose j }

/-- The call of thread `t` returns or raises. -/
def ret (s : MSrc K V I) (t : Nat) : MSrc K V I := { s.setThr t .idle with hist := s.hist ++ [.ret (s.call t) ()] }

/-- Thread `t` makes a call and is at `p`. -/
def inv (s : MSrc K V I) (t : Nat) (c : MCall) (p : MPC) : MSrc K V I :=
  { s.setThr t p with call := fun j => if j = t then s.calls else s.call j, calls := s.calls + 1, hist := s.hist ++ [.inv s.calls c] }

/-- The next statement of thread `t`. -/
def go (cfg : SrcCfg K V) (s : MSrc K V I) (t : Nat) : Option (MSrc K V I) :=
  match s.thr t with
  | .idle => none
  | .conf1 c => match s.slot with -- 94-95
    | some _ => some ((s.say (.configured c (.error .valueError))).ret t)
    | none => some (s.setThr t (.conf2 c))
  | .conf2 c => some ((({ s with conf := some c }).say (.configured c (.ok ()))).ret t) -- 96-101
  | .ensure => some (s.setThr t (match s.slot with | some _ => .look | none => .mk)) -- 104
  | .mk => -- 105; stream_buffer.py 117-154 (defaults `maxlen=100`, `auto_drop=True`)
    some ((({ s.setBuf s.nbufs (s.conf.getD (some 100, true), SB.init) with slot := some s.nbufs, nbufs := s.nbufs + 1 }).say
      (.bufferMade (s.conf.getD (some 100, true)))).setThr t .callStart)
  | .callStart => match s.slot with -- 106
    | some b => some (s.setThr t (.waitStart b))
    | none => none
  | .waitStart b => match s.bufs b with -- stream_buffer.py 179
    | none => none
    | some (c, x) => match x.step (cfg.sb c) .start with
      | some x' => some (((s.setBuf b (c, x')).setHolder b (some t)).setThr t (.starting b))
      | none => none
  | .starting _ => none
  | .look => match s.slot with -- 126
    | some b => some (s.setThr t (.making b))
    | none => none
  | .making b => match s.bufs b with -- stream_buffer.py 199-205
    | none => none
    | some (_, x) => if x.start = none then
        match x.sourceBuffer with
        | none => some ((s.say (.openError .streamNotStarted)).ret t)
        | some σ => some (({ s with made := s.made + 1, home := fun j => if j = s.made then (b, σ) else s.home j }).setThr t (.inc1 s.made))
      else none
  | .inc1 r => some (s.setThr t (.inc2 r s.openReaders)) -- 109
  | .inc2 r n => some (({ s with openReaders := n + 1 }).setThr t (.attach r)) -- 109
  | .attach r => match s.bufs (s.home r).1 with -- 132-134
    | none => none
    | some (_, x) => some (((s.setOnclose r .handler).say (.opened r (s.home r).2 (Src.live x (s.home r).2))).ret t)
  | .dec1 r => some (s.setThr t (.dec2 r s.openReaders)) -- 112
  | .dec2 r n => some (({ s with openReaders := n - 1 }).setThr t (.test r)) -- 112
  | .test r => -- 113
    if s.openReaders ≤ 0 then some (s.setThr t (.exit r)) else some ((s.say (.closed r (.ok ()))).ret t)
  | .exit r => match s.slot with -- 168-169
    | none => none
    | some b => match s.bufs b with
      | none => none
      | some (c, x) => match x.step (cfg.sb c) .stop with -- stream_buffer.py 188
        | none => none
        | some x' => match x.stopEvent with
          | none => some (((s.setBuf b (c, x')).say (.closed r (.error .attributeError))).ret t)
          | some _ => some ((((s.setBuf b (c, x')).say (.closed r (.ok ()))).say .stopped).setThr t (.stopping b r))
  | .stopping b _ => match s.bufs b with -- stream_buffer.py 189-190
    | none => none
    | some (c, x) => match x.step (cfg.sb c) .stopEnd with
      | none => none
      | some x' => some ((s.setBuf b (c, x')).ret t)

/-- The thread that was in `start()` goes on when that has returned (126) or raised. -/
def endStart (s : MSrc K V I) (b : Nat) (x : SB K V I) : MSrc K V I :=
  match s.holder b with
  | none => s
  | some t => match x.sourceBuffer with
    | some _ => (s.setHolder b none).setThr t .look
    | none => ((s.setHolder b none).say (.openError (.other 0))).ret t

/-- One step. -/
def step (cfg : SrcCfg K V) (s : MSrc K V I) : MAct K V I → Option (MSrc K V I)
  | .call t c => if s.thr t = .idle then match c with
      | .configure k => some (s.inv t c (.conf1 k))
      | .openReader => some (s.inv t c .ensure)
      | .close r => -- buffer_reader.py 442-444
        if r < s.made ∧ s.onclose r = .handler then some (s.inv t c (.dec1 r)) else none
    else none
  | .go t => s.go cfg t
  | .bg b a =>
    if a.isBg then match s.bufs b with
      | none => none
      | some (c, x) =>
        if x.start = none ∧ x.n = 0 then none
        else match x.step (cfg.sb c) a with
          | none => none
          | some x' => if x.start ≠ none ∧ x'.start = none then some ((s.setBuf b (c, x')).endStart b x') else some (s.setBuf b (c, x'))
    else none

/-- An execution. -/
def exec (cfg : SrcCfg K V) : MSrc K V I → List (MAct K V I) → Option (MSrc K V I)
  | s, [] => some s
  | s, a :: as => match s.step cfg a with
    | some s' => s'.exec cfg as
    | none => none

end MSrc
end S2P
