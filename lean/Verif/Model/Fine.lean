import Verif.Model.Linear
import Verif.Model.StreamBuffer
/-
The stream buffer of Model/StreamBuffer.lean on top of the locked buffers of Model/Linear.lean: every append, drop and reader call is executed statement by
statement, under the reader-writer lock of its session, beside everything else that goes on (`start()`, `stop()`, other threads, other sessions).
In Model/StreamBuffer.lean such a call is one step. C163 shows that the two cannot be told apart.

What happens next is decided by the result that the locked buffer gave (`o`). The field `cons.ch` of a session in `sb`, where Model/StreamBuffer.lean keeps the
contents of the buffer, is ghost here: no decision depends on it. The contents are in `lm b`.
-/
namespace S2P

/-- Who uses the buffer of a session: the reading thread, a caller of `drop`, consumer `i`, somebody making a direct call on reader `i`. -/
inductive Who where
  | thr (t : Nat)
  | dropper (c : Nat)
  | cons (i : Nat)
  | direct (i : Nat)
  deriving DecidableEq, Repr

/-- The number of the thread in the machine of Model/Linear.lean. -/
def Who.num : Who → Nat
  | .thr t => 4 * t
  | .dropper c => 4 * c + 1
  | .cons i => 4 * i + 2
  | .direct i => 4 * i + 3

namespace Cons
variable {K V : Type} [LT K] [DecidableLT K] [BEq V]

/-- A call that gave `o` (ghost: `ch`). -/
def callWith (s : Cons K V) (op : ChOp K V) (o : Py (Ret V)) : Cons K V :=
  { s with ch := (s.ch.step op).1, ops := s.ops ++ [op], outs := s.outs ++ [o] }

omit [LT K] [DecidableLT K] [BEq V] in
/-- buffer_reader.py 168, 146, 378-384: the call consumer `i` is about to make on its reader. -/
def asks (s : Cons K V) (i : Nat) : Option (RdOp K V) :=
  match s.pc i with
  | .nextRead | .iterRead => some .readForNext
  | .blkRead n p st => some (.read (some n) p (some true) (some st))
  | _ => none

/-- buffer_reader.py 168-171, 146-152, 378-387: how consumer `i` goes on when that call gave `o`. -/
def goWith (s : Cons K V) (i : Nat) (op : ChOp K V) (o : Py (Ret V)) : Cons K V :=
  let t := s.callWith op o
  match s.pc i, o with
  | .nextRead, .error e => (t.emit i (.raised e)).goto i .idle
  | .nextRead, .ok .none => t.goto i .nextCheck
  | .nextRead, .ok r => (t.emit i (.next r)).goto i .idle
  | .iterRead, .error e => (t.emit i (.raised e)).goto i .idle
  | .iterRead, .ok .none => t.goto i .iterCheck
  | .iterRead, .ok r => (t.emit i (.yielded r)).goto i .iterYield
  | .blkRead _ _ _, .error e => (t.emit i (.raised e)).goto i .idle
  | .blkRead n p st, .ok .none => t.goto i (.blkCheck n p st)
  | .blkRead _ _ _, .ok r => (t.emit i (.readRet r)).goto i .idle
  | _, _ => t

end Cons

/-- A stream buffer, the locked buffer of each session, and the session in which a reading thread or caller of `drop` made its last call. -/
structure FSB (K V I : Type) where
  sb : SB K V I
  lm : Nat → LM K V
  last : Who → Nat

/-- Scheduler and environment choices. -/
inductive FAct (K V I : Type) where
  /-- as in Model/StreamBuffer.lean; where that is a call on a buffer, the call begins -/
  | sb (a : SBAct K V I)
  /-- `w` executes the next statement of its call on the buffer of session `b` -/
  | low (b : Nat) (w : Who)
  /-- a direct call on reader `r` of session `b` begins -/
  | direct (b r : Nat) (op : RdOp K V)

namespace FSB
variable {K V I : Type} [LT K] [DecidableLT K] [BEq V]

omit [LT K] [DecidableLT K] [BEq V] in
/-- `n` bounds the thread numbers. -/
def init (n : Nat) (cfg : SBCfg K V) : FSB K V I :=
  { sb := SB.init, lm := fun _ => LM.init n cfg.key cfg.keyNone cfg.maxlen cfg.rdCfg, last := fun _ => 0 }

omit [LT K] [DecidableLT K] [BEq V] in
/-- `w` is not in the middle of a call. -/
def free (s : FSB K V I) (w : Who) : Bool := ((s.lm (s.last w)).pend w.num).isNone

omit [LT K] [DecidableLT K] [BEq V] in
/-- `w` is not in the middle of a call on session `b`. -/
def freeIn (s : FSB K V I) (b : Nat) (w : Who) : Bool := ((s.lm b).pend w.num).isNone

/-- How things go on for `w` when its call `op` on session `b` gave `o`: stream_buffer.py 262-264 (60-62), 265-266; 175 (64-66); buffer_reader.py as above. -/
def effect (s : SB K V I) (b : Nat) (w : Who) (op : ChOp K V) (o : Py (Ret V)) : Option (SB K V I) :=
  match s.buf b with
  | none => none
  | some x => match w with
    | .thr t => match s.thr t with
      | .storing _ v => match o with
        | .ok _ => some (((s.setBuf b { x with cons := x.cons.callWith op o }).setThr t .check).say (.stored t b v))
        | .error e => some (((s.setBuf b { x with cons := x.cons.callWith op o }).setThr t .fin1).say (.refused t b v e))
      | _ => none
    | .dropper c => match s.drops c with
      | none => none
      | some (_, k) => some ((((s.setDrop c none).setBuf b { x with cons := x.cons.callWith op o }).say
          (.dropped b (x.cons.ch.buf.items.take (x.cons.ch.buf.items.length - (x.cons.callWith op o).ch.buf.items.length)))).say
          (.dropCalled k (o.map fun _ => ())))
    | .cons i => some (s.setBuf b { x with cons := ({ x.cons with stopped := s.flag x.evt } : Cons K V).goWith i op o })
    | .direct _ => some (s.setBuf b { x with cons := ({ x.cons with stopped := s.flag x.evt } : Cons K V).callWith op o })

omit [LT K] [DecidableLT K] [BEq V] in
def setLm (s : FSB K V I) (b : Nat) (w : Who) (l : LM K V) : FSB K V I :=
  { s with lm := fun j => if j = b then l else s.lm j, last := fun u => if u = w then b else s.last u }

/-- A statement of `w` on the buffer of session `b`; when the call takes effect there (it is recorded in `lin`), `w` goes on with its result. -/
def use (s : FSB K V I) (b : Nat) (w : Who) (a : LAct K V) : Option (FSB K V I) :=
  match (s.lm b).step a with
  | none => none
  | some l => match l.lin.drop (s.lm b).lin.length with
    | [] => some (s.setLm b w l)
    | (_, op, o) :: _ => (effect s.sb b w op o).map fun y => { s.setLm b w l with sb := y }

/-- A step of `sb` that does not look into a buffer. -/
def plain (cfg : SBCfg K V) (s : FSB K V I) (a : SBAct K V I) : Option (FSB K V I) := (s.sb.step cfg a).map fun y => { s with sb := y }

/-- One step. The lengths at stream_buffer.py 226 and 256 are taken without the lock, at whatever moment. -/
def step (cfg : SBCfg K V) (s : FSB K V I) : FAct K V I → Option (FSB K V I)
  | .low b w => s.use b w (.go w.num)
  | .direct b r op => match s.sb.buf b with
    | none => none
    | some _ => s.use b (.direct r) (.call (Who.direct r).num (.rd r op))
  | .sb (.thr t) => if s.free (.thr t) then match s.sb.thr t with
      | .storing b v => s.use b (.thr t) (.call (Who.thr t).num (.append v)) -- 262, 60-62
      | .measuring b => match s.sb.buf b with -- 256, 49-50
        | none => none
        | some _ => match cfg.maxlen with
          | none => some { s with sb := (s.sb.setThr t .fin1).say (.crashed t .typeError) }
          | some m => some { s with sb := s.sb.setThr t (if (s.lm b).m.data.len < m then .reading else .sleeping) }
      | _ => s.plain cfg (.thr t)
    else none
  | .sb (.readOk t r) => if s.free (.thr t) then s.plain cfg (.readOk t r) else none
  | .sb (.readRaise t e) => if s.free (.thr t) then s.plain cfg (.readRaise t e) else none
  | .sb (.keyRaise t e) => if s.free (.thr t) then s.plain cfg (.keyRaise t e) else none -- simplified: the lock is not taken for it
  | .sb (.close t ok) => if s.free (.thr t) then s.plain cfg (.close t ok) else none
  | .sb (.drop c k) => if s.free (.dropper c) then s.plain cfg (.drop c k) else none
  | .sb (.dropGo c) => if s.free (.dropper c) then match s.sb.drops c with -- 175, 64-66
      | none => none
      | some (b, k) => s.use b (.dropper c) (.call (Who.dropper c).num (.drop k))
    else none
  | .sb (.infoGo c) => match s.sb.infos c with
    | .test b => match s.sb.buf b with -- 226, 49-50
      | none => none
      | some _ => if (s.lm b).m.data.len = 0 then some { s with sb := (s.sb.setInfo c .idle).say (.info (.ok none)) }
          else some { s with sb := s.sb.setInfo c .again }
    | _ => s.plain cfg (.infoGo c)
  | .sb (.attach b i j) => if s.sb.start = none then match s.sb.sourceBuffer with -- 212-218, 76-78
      | none => s.plain cfg (.attach b i j)
      | some b' => match s.sb.buf b, s.sb.buf b' with
        | some _, some x' =>
          let op : RdOp K V := match ((s.lm b).readers i).lastItem with | some v => .setLast v | none => .delLast
          ((s.lm b').step (.call (Who.direct j).num (.rd j op))).map fun l =>
            { s.setLm b' (.direct j) l with
              sb := (s.sb.setBuf b' { x' with cons := x'.cons.callWith (.rd j op) (.ok .none) }).say (.attached (.ok b')) }
        | _, _ => none
    else none
  | .sb (.rd b (.call _)) => none -- `direct`
  | .sb (.rd b .setStop) => none
  | .sb (.rd b (.go i)) => if s.freeIn b (.cons i) then match s.sb.buf b with
      | none => none
      | some x => match x.cons.asks i with
        | some op => s.use b (.cons i) (.call (Who.cons i).num (.rd i op))
        | none => s.plain cfg (.rd b (.go i))
    else none
  | .sb (.rd b (.callNext i)) => if s.freeIn b (.cons i) then s.plain cfg (.rd b (.callNext i)) else none
  | .sb (.rd b (.callIter i)) => if s.freeIn b (.cons i) then s.plain cfg (.rd b (.callIter i)) else none
  | .sb (.rd b (.callRead i n p st)) => if s.freeIn b (.cons i) then s.plain cfg (.rd b (.callRead i n p st)) else none
  | .sb (.rd b (.leave i)) => if s.freeIn b (.cons i) then s.plain cfg (.rd b (.leave i)) else none
  | .sb a => s.plain cfg a

/-- An execution. -/
def exec (cfg : SBCfg K V) : FSB K V I → List (FAct K V I) → Option (FSB K V I)
  | s, [] => some s
  | s, a :: as => match s.step cfg a with
    | some s' => s'.exec cfg as
    | none => none

omit [LT K] [DecidableLT K] [BEq V] in
/-- The buffer whose length the step takes, without the lock (stream_buffer.py 226, 256). -/
def looksAt (s : FSB K V I) : FAct K V I → Option Nat
  | .sb (.thr t) => match s.sb.thr t with | .measuring b => some b | _ => none
  | .sb (.infoGo c) => match s.sb.infos c with | .test b => some b | _ => none
  | _ => none

omit [LT K] [DecidableLT K] [BEq V] in
/-- Nobody is in the writer's section of buffer `b`. -/
def Quiet (s : FSB K V I) (b : Nat) : Prop := ∀ t ∈ (s.lm b).m.th, t.pc ≠ .wCS

/-- Lengths are not taken in the middle of an append or a drop. -/
def QuietLooks (cfg : SBCfg K V) : FSB K V I → List (FAct K V I) → Prop
  | _, [] => True
  | s, x :: xs => (∀ b, s.looksAt x = some b → s.Quiet b) ∧ ∀ s', s.step cfg x = some s' → s'.QuietLooks cfg xs

end FSB

/-- Steps of the reading thread, of a caller of `drop` past the lookup, of a consumer, and direct calls: where the statement-by-statement model may take several. -/
def SBAct.inner {K V I : Type} : SBAct K V I → Bool
  | .thr _ | .dropGo _ | .rd _ (.go _) | .rd _ (.call _) => true
  | _ => false

/-- The other steps. -/
def FAct.outer {K V I : Type} : FAct K V I → Option (SBAct K V I)
  | .sb a => if a.inner then none else some a
  | _ => none
end S2P
