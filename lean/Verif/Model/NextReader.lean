import Verif.Model.StreamBuffer
/-
Model of what `next(stream_buffer)` and `stream_buffer()` return (stream_buffer.py 160-163, 302-305), on top of Model/StreamBuffer.lean, which only
says which session such a call reads. The reader objects made at line 162 are followed here, and the `next(reader)` of line 163 (buffer_reader.py
158-174) is done on the session found, by any number of callers.

The readers made at 162 are numbered in the order they are made; number `r` is reader `2 * r + 1` of the session it reads, the readers made by
callers of `mk_reader` have even numbers. Simplification: when two callers are in `next` of the same reader, the second waits for the first
(overlapping calls on one reader: C68, Model/Linear.lean).
-/
namespace S2P

/-- The reader of a session that the `r`-th reader made at line 162 is. -/
def nextRd (r : Nat) : Nat := 2 * r + 1

/-- Where a caller is in `next(self._next_reader)` (stream_buffer.py 163). -/
inductive NCall where
  | out
  /-- 163: found reader number `r`, of session `b` -/
  | call (b r : Nat)
  /-- inside `BufferReader.__next__` of it -/
  | wait (b r : Nat)
  deriving DecidableEq, Repr

/-- What a call of `next(stream_buffer)` by caller `c` came to: it raised (160-163), or reader number `r` of session `b` answered. -/
inductive NEv (V : Type) where
  | failed (c : Nat) (e : PyErr)
  | got (c b r : Nat) (e : CEvt V)
  deriving DecidableEq, Repr

/-- A stream buffer; how many readers line 162 made; for each caller the number of the reader it made; the number of the reader that
`self._next_reader` is (if not `None`); the calls in progress; and (ghost) the outcomes. -/
structure NSB (K V I : Type) where
  sb : SB K V I
  made : Nat
  mine : Nat → Nat
  cur : Nat
  calls : Nat → NCall
  res : List (NEv V)

/-- Choices of the scheduler. -/
inductive NAct (K V I : Type) where
  /-- anything that is not a call of `next(stream_buffer)` -/
  | sb (a : SBAct K V I)
  /-- caller `c` calls `next(stream_buffer)` or `stream_buffer()` -/
  | next (c : Nat)
  /-- caller `c` does its next statement there -/
  | go (c : Nat)

/-- The reader an action of a consumer is about. -/
def CAct.reader? {K V : Type} : CAct K V → Option Nat
  | .call (.rd i _) => some i
  | .call _ => none
  | .setStop => none
  | .callNext i => some i
  | .callIter i => some i
  | .callRead i _ _ _ => some i
  | .go i => some i
  | .leave i => some i

/-- Not a step of `next(stream_buffer)`, and not about a reader made by it. -/
def SBAct.isPlain {K V I : Type} : SBAct K V I → Bool
  | .next _ | .nextGo _ => false
  | .rd _ a => match a.reader? with | some i => i % 2 == 0 | none => true
  | .attach _ i j => i % 2 == 0 && j % 2 == 0
  | _ => true

/-- What reader number `r` of session `b` answered, oldest first. -/
def via {V : Type} (b r : Nat) (l : List (NEv V)) : List (CEvt V) :=
  l.filterMap fun
    | .got _ b' r' e => if b' = b ∧ r' = r then some e else none
    | .failed _ _ => none

namespace NSB
variable {K V I : Type} [LT K] [DecidableLT K] [BEq V]

def init : NSB K V I := { sb := SB.init, made := 0, mine := fun _ => 0, cur := 0, calls := fun _ => .out, res := [] }

def setCall (s : NSB K V I) (c : Nat) (p : NCall) : NSB K V I := { s with calls := fun j => if j = c then p else s.calls j }

/-- The last thing a consumer of session `b` observed. -/
def lastEvt (x : SB K V I) (b : Nat) : Option (CEvt V) := ((x.buf b).bind fun y => y.cons.evts.getLast?).map (·.2)

/-- Reader `i` of session `b` is not in the middle of a call. -/
def atRest (x : SB K V I) (b i : Nat) : Bool := match x.buf b with | some y => decide (y.cons.pc i = .idle) | none => false

/-- A statement of caller `c` in `next(stream_buffer)`. -/
def go (cfg : SBCfg K V) (s : NSB K V I) (c : Nat) : Option (NSB K V I) :=
  match s.calls c with
  | .call b r => (s.sb.step cfg (.rd b (.callNext (nextRd r)))).map fun y => ({ s with sb := y }).setCall c (.wait b r) -- 163
  | .wait b r => match s.sb.step cfg (.rd b (.go (nextRd r))) with -- 163; buffer_reader.py 168-174
    | none => none
    | some y => match atRest y b (nextRd r), lastEvt y b with
      | true, some e => some { ({ s with sb := y }).setCall c .out with res := s.res ++ [.got c b r e] }
      | _, _ => some { s with sb := y }
  | .out => match s.sb.step cfg (.nextGo c) with
    | none => none
    | some y => match s.sb.nexts c with
      | .make => match y.nexts c with
        | .store _ => some { s with sb := y, made := s.made + 1, mine := fun j => if j = c then s.made else s.mine j } -- 162
        | _ => some { s with sb := y, res := s.res ++ [.failed c .streamNotStarted] } -- 200-204
      | .store _ => some { s with sb := y, cur := s.mine c } -- 162
      | _ => match s.sb.nextReader with -- 163
        | some b => some (({ s with sb := y }).setCall c (.call b s.cur))
        | none => some { s with sb := y, res := s.res ++ [.failed c .typeError] }

/-- One step. -/
def step (cfg : SBCfg K V) (s : NSB K V I) : NAct K V I → Option (NSB K V I)
  | .sb a => if a.isPlain then (s.sb.step cfg a).map fun y => { s with sb := y } else none
  | .next c => if s.calls c = .out then (s.sb.step cfg (.next c)).map fun y => { s with sb := y } else none -- 161
  | .go c => s.go cfg c

/-- An execution. -/
def exec (cfg : SBCfg K V) : NSB K V I → List (NAct K V I) → Option (NSB K V I)
  | s, [] => some s
  | s, a :: as => match s.step cfg a with
    | some s' => s'.exec cfg as
    | none => none

end NSB
end S2P
