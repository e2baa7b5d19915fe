import Verif.Model.Channel
/-
The waiting loops of stream2py/buffer_reader.py (`__next__`, `__iter__`, `read(blocking=True)`) as threads running beside one session
buffer (Model/Channel.lean) and its stop event, under an arbitrary scheduler.

One step = one locked section on the buffer or one look at the stop event. The environment may append, drop, set the stop event (any
number of times, in any order, also append after the event is set) and make any other call on any reader: this over-approximates
`StreamBuffer` (Model/StreamBuffer.lean). Sleeping is a step with no effect.
-/
namespace S2P

/-- Where consumer `i` is. -/
inductive CPC where
  | idle
  /-- buffer_reader.py 168: `__next__` called -/
  | nextRead
  /-- 171: the read gave `None`, about to look at `is_stopped` -/
  | nextCheck
  /-- 146: in `__iter__`, about to do the read of `next(self)` -/
  | iterRead
  /-- 171 within line 146 -/
  | iterCheck
  /-- 153: `next` returned `None`, about to look at `is_stopped` -/
  | iterCheck2
  /-- 156 -/
  | iterSleep
  /-- 152: suspended at `yield` -/
  | iterYield
  /-- 378-384 with `n` and `strict_n` after defaulting (364-367) -/
  | blkRead (n : Int) (peek : Option Bool) (strict : Bool)
  /-- 387 -/
  | blkCheck (n : Int) (peek : Option Bool) (strict : Bool)
  /-- 390 -/
  | blkSleep (n : Int) (peek : Option Bool) (strict : Bool)
  deriving DecidableEq, Repr

/-- At the body of a `for` loop (152) or asleep (156, 390): the code after which is not reached if the body breaks off the loop or the sleep is
interrupted. A suspended generator has no effects when it is discarded. -/
def CPC.canLeave : CPC → Bool
  | .iterYield | .iterSleep | .blkSleep _ _ _ => true
  | _ => false

/-- What a consumer observes. -/
inductive CEvt (V : Type) where
  /-- `next(reader)` returned -/
  | next (r : Ret V)
  /-- `next(reader)` raised `StopIteration` -/
  | stopIteration
  /-- the loop body got an item -/
  | yielded (r : Ret V)
  /-- the loop ended by itself -/
  | loopDone
  /-- `read(blocking=True)` returned -/
  | readRet (r : Ret V)
  /-- the call raised something else -/
  | raised (e : PyErr)
  deriving DecidableEq, Repr

/-- One session seen by its consumers. `ops`, `outs`, `evts`: ghost, the calls made on buffer and readers, their outcomes, and what the consumers
observed, oldest first. -/
structure Cons (K V : Type) where
  ch : Ch K V
  stopped : Bool
  pc : Nat → CPC
  ops : List (ChOp K V)
  outs : List (Py (Ret V))
  evts : List (Nat × CEvt V)

/-- Scheduler choices. -/
inductive CAct (K V : Type) where
  /-- the environment appends, drops, or makes a direct call on a reader -/
  | call (op : ChOp K V)
  /-- `stop_event.set()` -/
  | setStop
  /-- `next(reader i)` -/
  | callNext (i : Nat)
  /-- `for … in reader i` -/
  | callIter (i : Nat)
  /-- `reader i .read(n, peek=, strict_n=, blocking=True)` -/
  | callRead (i : Nat) (n : Option Int) (peek strict : Option Bool)
  /-- consumer `i` does its next step -/
  | go (i : Nat)
  /-- consumer `i` gives up its loop or call: `break`, `return` or an exception in the loop body (152), or an interrupt of its sleep (156, 390) -/
  | leave (i : Nat)

namespace Cons
variable {K V : Type} [LT K] [DecidableLT K] [BEq V]

/-- Nothing happened yet. -/
def init (key : V → K) (keyNone : Py (Option K)) (maxlen : Option Nat) (cfg : Nat → Cfg) : Cons K V :=
  { ch := Ch.init key keyNone maxlen cfg, stopped := false, pc := fun _ => .idle, ops := [], outs := [], evts := [] }

/-- A call on buffer or reader. -/
def call (s : Cons K V) (op : ChOp K V) : Cons K V × Py (Ret V) :=
  ({ s with ch := (s.ch.step op).1, ops := s.ops ++ [op], outs := s.outs ++ [(s.ch.step op).2] }, (s.ch.step op).2)

/-- Consumer `i` continues at `p`. -/
def goto (s : Cons K V) (i : Nat) (p : CPC) : Cons K V := { s with pc := fun j => if j = i then p else s.pc j }

/-- Consumer `i` observes `e`. -/
def emit (s : Cons K V) (i : Nat) (e : CEvt V) : Cons K V := { s with evts := s.evts ++ [(i, e)] }

/-- The next step of consumer `i`. -/
def go (s : Cons K V) (i : Nat) : Option (Cons K V) :=
  match s.pc i with
  | .idle => none
  | .nextRead => -- 168, 171
    match s.call (.rd i .readForNext) with
    | (s, .error e) => some ((s.emit i (.raised e)).goto i .idle)
    | (s, .ok .none) => some (s.goto i .nextCheck)
    | (s, .ok r) => some ((s.emit i (.next r)).goto i .idle)
  | .nextCheck => -- 171-174
    if s.stopped then some ((s.emit i .stopIteration).goto i .idle) else some ((s.emit i (.next .none)).goto i .idle)
  | .iterRead => -- 146, 151-152; an exception other than `StopIteration` leaves the generator
    match s.call (.rd i .readForNext) with
    | (s, .error e) => some ((s.emit i (.raised e)).goto i .idle)
    | (s, .ok .none) => some (s.goto i .iterCheck)
    | (s, .ok r) => some ((s.emit i (.yielded r)).goto i .iterYield)
  | .iterCheck => -- 171-172, 147-149
    if s.stopped then some ((s.emit i .loopDone).goto i .idle) else some (s.goto i .iterCheck2)
  | .iterCheck2 => -- 153-154
    if s.stopped then some ((s.emit i .loopDone).goto i .idle) else some (s.goto i .iterSleep)
  | .iterSleep => some (s.goto i .iterRead) -- 156, 144
  | .iterYield => some (s.goto i .iterRead) -- 152, 144
  | .blkRead n p st => -- 378-386
    match s.call (.rd i (.read (some n) p (some true) (some st))) with
    | (s, .error e) => some ((s.emit i (.raised e)).goto i .idle)
    | (s, .ok .none) => some (s.goto i (.blkCheck n p st))
    | (s, .ok r) => some ((s.emit i (.readRet r)).goto i .idle)
  | .blkCheck n p st => -- 387-388
    if s.stopped then some ((s.emit i (.readRet .none)).goto i .idle) else some (s.goto i (.blkSleep n p st))
  | .blkSleep n p st => some (s.goto i (.blkRead n p st)) -- 390

/-- One step. A consumer makes one call at a time. -/
def step (cfg : Nat → Cfg) (s : Cons K V) : CAct K V → Option (Cons K V)
  | .call op => some (s.call op).1
  | .setStop => some { s with stopped := true }
  | .callNext i => if s.pc i = .idle then some (s.goto i .nextRead) else none
  | .callIter i => if s.pc i = .idle then some (s.goto i .iterRead) else none
  | .callRead i n p st => -- 364-367
    if s.pc i = .idle then some (s.goto i (.blkRead (n.getD (cfg i).n) p (st.getD (cfg i).strict))) else none
  | .go i => s.go i
  | .leave i => if (s.pc i).canLeave then some (s.goto i .idle) else none

/-- An execution. -/
def exec (cfg : Nat → Cfg) : Cons K V → List (CAct K V) → Option (Cons K V)
  | s, [] => some s
  | s, a :: as => match s.step cfg a with
    | some s' => s'.exec cfg as
    | none => none

end Cons
end S2P
