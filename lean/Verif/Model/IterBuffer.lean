import Verif.Model.NextReader
/-
Model of iterating over the stream buffer itself, `for x in stream_buffer` (stream_buffer.py 156-158), on top of Model/StreamBuffer.lean. `__iter__`
is a generator function: the call makes a generator object and runs nothing. The first `next` of it runs lines 157-158 up to the first item; the
reader is made then, and iterated (buffer_reader.py 143-156). Any number of generators, used by any callers.

Generator number `g` iterates reader `genRd g` of the session it finds; the readers made by callers of `mk_reader` have even numbers. A generator
that is resumed while it runs raises `ValueError` (Python's rule; nothing else happens). Discarding or closing a suspended generator, and an exception
out of its sleep, end it. `iter(reader)` at 158 makes another generator object without running anything: not a step of its own.
-/
namespace S2P

/-- The reader of a session that generator `g` iterates. -/
def genRd (g : Nat) : Nat := 2 * g + 1

/-- Where a generator is. -/
inductive Gen where
  /-- not made yet -/
  | unborn
  /-- 156: made, not run -/
  | made
  /-- 157: in its first `next`, about to call `mk_reader` -/
  | called
  /-- 158: the reader is made, of session `b` -/
  | got (b : Nat)
  /-- 158: running `BufferReader.__iter__` -/
  | within (b : Nat)
  /-- 158: suspended at the `yield` of it -/
  | at (b : Nat)
  /-- finished; `some b` if it had a reader -/
  | over (b : Option Nat)
  deriving DecidableEq, Repr

/-- The session a generator reads. -/
def Gen.session : Gen → Option Nat
  | .got b | .within b | .at b => some b
  | .over b => b
  | _ => none

/-- What a call of `next(generator)` came to. -/
inductive GEv (V : Type) where
  | item (r : Ret V)
  /-- `StopIteration`: for a `for` loop, its end -/
  | stop
  | raised (e : PyErr)
  /-- `ValueError: generator already executing` -/
  | executing
  deriving DecidableEq, Repr

/-- A stream buffer and the generators made from it; (ghost) the outcomes, oldest first. -/
structure GSB (K V I : Type) where
  sb : SB K V I
  gens : Nat → Gen
  res : List (Nat × GEv V)

/-- Choices of the scheduler. -/
inductive GAct (K V I : Type) where
  /-- anything not about these generators -/
  | sb (a : SBAct K V I)
  /-- `iter(stream_buffer)`, the result being generator `g` -/
  | iter (g : Nat)
  /-- `next(generator g)`, up to the first statement -/
  | next (g : Nat)
  /-- the next statement in the call of `next(generator g)` in progress -/
  | go (g : Nat)
  /-- generator `g` is closed or discarded (`break`, `return` or an exception in the loop body), or its sleep is interrupted by an exception -/
  | close (g : Nat)

/-- Not about a reader made at line 157. -/
def SBAct.isOther {K V I : Type} : SBAct K V I → Bool
  | .rd _ a => match a.reader? with | some i => i % 2 == 0 | none => true
  | .attach _ i j => i % 2 == 0 && j % 2 == 0
  | _ => true

namespace GSB
variable {K V I : Type} [LT K] [DecidableLT K] [BEq V]

def init : GSB K V I := { sb := SB.init, gens := fun _ => .unborn, res := [] }

def setGen (s : GSB K V I) (g : Nat) (p : Gen) : GSB K V I := { s with gens := fun j => if j = g then p else s.gens j }

def say (s : GSB K V I) (g : Nat) (e : GEv V) : GSB K V I := { s with res := s.res ++ [(g, e)] }

/-- Where reader `i` of session `b` is in its loop. -/
def pcOf (x : SB K V I) (b i : Nat) : Option CPC := (x.buf b).map fun y => y.cons.pc i

/-- A statement of generator `g`. -/
def go (cfg : SBCfg K V) (s : GSB K V I) (g : Nat) : Option (GSB K V I) :=
  match s.gens g with
  | .called => (s.sb.step cfg .mkReader).map fun y => match s.sb.sourceBuffer with -- 157, 199-205
    | some b => ({ s with sb := y }).setGen g (.got b)
    | none => (({ s with sb := y }).setGen g (.over none)).say g (.raised .streamNotStarted)
  | .got b => (s.sb.step cfg (.rd b (.callIter (genRd g)))).map fun y => ({ s with sb := y }).setGen g (.within b) -- 158
  | .within b => (s.sb.step cfg (.rd b (.go (genRd g)))).map fun y => -- 158; buffer_reader.py 144-156
    match pcOf y b (genRd g), NSB.lastEvt y b with
    | some .iterYield, some (.yielded r) => (({ s with sb := y }).setGen g (.at b)).say g (.item r)
    | some .idle, some (.raised e) => (({ s with sb := y }).setGen g (.over (some b))).say g (.raised e)
    | some .idle, _ => (({ s with sb := y }).setGen g (.over (some b))).say g .stop
    | _, _ => { s with sb := y }
  | _ => none

/-- `next(generator g)`. -/
def next (cfg : SBCfg K V) (s : GSB K V I) (g : Nat) : Option (GSB K V I) :=
  match s.gens g with
  | .unborn => none
  | .made => some (s.setGen g .called)
  | .at b => (s.sb.step cfg (.rd b (.go (genRd g)))).map fun y => ({ s with sb := y }).setGen g (.within b) -- buffer_reader.py 152
  | .over _ => some (s.say g .stop)
  | _ => some (s.say g .executing)

/-- `generator.close()`, or an exception out of `time.sleep` (buffer_reader.py 156). -/
def close (cfg : SBCfg K V) (s : GSB K V I) (g : Nat) : Option (GSB K V I) :=
  match s.gens g with
  | .made => some (s.setGen g (.over none))
  | .at b | .within b => (s.sb.step cfg (.rd b (.leave (genRd g)))).map fun y => ({ s with sb := y }).setGen g (.over (some b))
  | _ => none

/-- One step. -/
def step (cfg : SBCfg K V) (s : GSB K V I) : GAct K V I → Option (GSB K V I)
  | .sb a => if a.isOther then (s.sb.step cfg a).map fun y => { s with sb := y } else none
  | .iter g => if s.gens g = .unborn then some (s.setGen g .made) else none -- 156
  | .next g => s.next cfg g
  | .go g => s.go cfg g
  | .close g => s.close cfg g

/-- An execution. -/
def exec (cfg : SBCfg K V) : GSB K V I → List (GAct K V I) → Option (GSB K V I)
  | s, [] => some s
  | s, a :: as => match s.step cfg a with
    | some s' => s'.exec cfg as
    | none => none

end GSB
end S2P
