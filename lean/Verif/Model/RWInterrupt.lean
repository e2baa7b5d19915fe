import Verif.Model.RWLock
/-
The reader-writer lock of stream2py/utility/reader_writer_lock.py 32-80 under interrupts.

`KeyboardInterrupt` (Ctrl-C) is raised in the main thread between two statements or out of a blocking `Lock.acquire()`. The context managers of
locked_sorted_deque.py 40-54 call `reader_acquire()` / `writer_acquire()` *inside* `try:`, so an exception that leaves the acquisition runs the
release of a lock that was not (or only partly) acquired; an exception inside the release leaves it half done. The machine of Model/RWLock.lean is
repeated here with interrupts as scheduler choices. Counters can become negative and locks can be released while free (`RuntimeError`), so both
are modelled. Threads, program counters and operations are those of Model/RWLock.lean.

Simplified: after an interrupt inside a nested reader section the thread is back in the surrounding section and may leave it at once (as the exception
does) or go on (as if it had been caught there).
-/
namespace S2P.RWI
open RW (PC Th Lk WOp)

/-- reader_writer_lock.py 32-37, 64-66, as `RW.Lk`, with integer counters. -/
structure LkI where
  rq : Bool
  nr : Bool
  nw : Bool
  rm : Bool
  wm : Bool
  rc : Int
  wc : Int
  deriving DecidableEq, Repr

/-- reader_writer_lock.py 32-37, 64-66: a fresh lock. -/
def LkI.fresh : LkI := ⟨false, false, false, false, false, 0, 0⟩

/-- What a statement does: it blocks, goes on, or raises (`RuntimeError: release unlocked lock`). -/
inductive Res
  | blocked
  | on (l : LkI) (pc : PC)
  | raised
  deriving DecidableEq, Repr

/-- reader_writer_lock.py 41-57, 68-80: the statement at a program counter, as `RW.Lk.stmt`. -/
def LkI.stmt (l : LkI) : PC → Res
  | .idle => .blocked
  -- reader_acquire
  | .r1 => if l.rq then .blocked else .on { l with rq := true } .r2                   -- 42
  | .r2 => if l.nr then .blocked else .on { l with nr := true } .r3                   -- 43
  | .r3 => if l.rm then .blocked else .on { l with rm := true } .r4                   -- 44 / 69
  | .r4 => .on { l with rc := l.rc + 1 } .r5                                          -- 70
  | .r5 => if l.rc = 1 then (if l.nw then .blocked else .on { l with nw := true } .r6) -- 71-72
           else .on l .r6
  | .r6 => if l.rm then .on { l with rm := false } .r7 else .raised                   -- 73
  | .r7 => if l.nr then .on { l with nr := false } .r8 else .raised                   -- 45
  | .r8 => if l.rq then .on { l with rq := false } .rCS else .raised                  -- 46
  -- reader_release
  | .rCS => .on l .x1
  | .x1 => if l.rm then .blocked else .on { l with rm := true } .x2                   -- 49 / 76
  | .x2 => .on { l with rc := l.rc - 1 } .x3                                          -- 77
  | .x3 => if l.rc = 0 then (if l.nw then .on { l with nw := false } .x4 else .raised) -- 78-79
           else .on l .x4
  | .x4 => if l.rm then .on { l with rm := false } .idle else .raised                 -- 80
  -- writer_acquire
  | .w1 => if l.wm then .blocked else .on { l with wm := true } .w2                   -- 52 / 69
  | .w2 => .on { l with wc := l.wc + 1 } .w3                                          -- 70
  | .w3 => if l.wc = 1 then (if l.nr then .blocked else .on { l with nr := true } .w4) -- 71-72
           else .on l .w4
  | .w4 => if l.wm then .on { l with wm := false } .w5 else .raised                   -- 73
  | .w5 => if l.nw then .blocked else .on { l with nw := true } .wCS                  -- 53
  -- writer_release
  | .wCS => .on l .y0
  | .y0 => if l.nw then .on { l with nw := false } .y1 else .raised                   -- 56
  | .y1 => if l.wm then .blocked else .on { l with wm := true } .y2                   -- 57 / 76
  | .y2 => .on { l with wc := l.wc - 1 } .y3                                          -- 77
  | .y3 => if l.wc = 0 then (if l.nr then .on { l with nr := false } .y4 else .raised) -- 78-79
           else .on l .y4
  | .y4 => if l.wm then .on { l with wm := false } .idle else .raised                 -- 80

/-- locked_sorted_deque.py 40-54: where an exception takes the thread. Out of an acquisition or a section it goes to the release in `finally`; an
exception inside the release ends it. -/
def unwind : PC → PC
  | .r1 | .r2 | .r3 | .r4 | .r5 | .r6 | .r7 | .r8 | .rCS => .x1
  | .w1 | .w2 | .w3 | .w4 | .w5 | .wCS => .y0
  | .x1 | .x2 | .x3 | .x4 | .y0 | .y1 | .y2 | .y3 | .y4 | .idle => .idle

/-- The lock, the protected data, the threads; `done` (ghost): completed writer operations. -/
structure IM (D Op : Type) where
  th : List (Th D Op)
  lk : LkI
  data : D
  done : List Op

variable {D Op : Type}

/-- A fresh lock, `n` threads not using it. -/
def init (n : Nat) (d : D) : IM D Op := { th := List.replicate n ⟨.idle, 0, none, [], []⟩, lk := .fresh, data := d, done := [] }

/-- Scheduler choices: as `RW.Act`, and `interrupt i`: an exception is raised in thread `i` before its next statement. -/
inductive IAct (Op : Type)
  | beginRead (i : Nat)
  | beginWrite (i : Nat) (op : Op)
  | go (i : Nat)
  | look (i : Nat)
  | nest (i : Nat)
  | interrupt (i : Nat)

/-- Replace thread `i`. -/
def IM.put (m : IM D Op) (i : Nat) (t : Th D Op) : IM D Op := { m with th := m.th.set i t }

/-- An exception in thread `i`: what is left of a writer operation is not done. -/
def IM.throw (body : Op → D → List (D → D)) (m : IM D Op) (i : Nat) (t : Th D Op) : IM D Op :=
  { m.put i { t.arrive body m.data (unwind t.pc) with prog := if t.pc = .wCS then [] else t.prog } with
    done := if t.pc = .wCS ∧ t.prog.isEmpty then m.done ++ t.op.toList else m.done }

/-- Execution of the next statement of thread `i`. -/
def IM.go (body : Op → D → List (D → D)) (m : IM D Op) (i : Nat) (t : Th D Op) : Option (IM D Op) :=
  match t.pc, t.prog with
  | .wCS, f :: fs => some { m.put i { t with prog := fs } with data := f m.data }
  | pc, _ =>
    match m.lk.stmt pc with
    | .blocked => none
    | .raised => some (m.throw body i t)
    | .on l pc' => some { m.put i (t.arrive body m.data pc') with
        lk := l
        done := if pc = .wCS then m.done ++ t.op.toList else m.done }

/-- One step. -/
def IM.step (body : Op → D → List (D → D)) (m : IM D Op) : IAct Op → Option (IM D Op)
  | .beginRead i => match m.th[i]? with
    | some t => if t.pc = .idle then some (m.put i { t with pc := .r1, seen := [] }) else none
    | none => none
  | .beginWrite i op => match m.th[i]? with
    | some t => if t.pc = .idle then some (m.put i { t with pc := .w1, op := some op }) else none
    | none => none
  | .go i => match m.th[i]? with
    | some t => m.go body i t
    | none => none
  | .look i => match m.th[i]? with
    | some t => if t.pc = .rCS then some (m.put i { t with seen := t.seen ++ [m.data] }) else none
    | none => none
  | .nest i => match m.th[i]? with
    | some t => if t.pc = .rCS then some (m.put i { t with pc := .r1, outer := t.outer + 1 }) else none
    | none => none
  | .interrupt i => match m.th[i]? with
    | some t => if t.pc = .idle then none else some (m.throw body i t)
    | none => none

/-- An execution. -/
def IM.exec (body : Op → D → List (D → D)) : IM D Op → List (IAct Op) → Option (IM D Op)
  | m, [] => some m
  | m, a :: as => match m.step body a with
    | some m' => m'.exec body as
    | none => none

end S2P.RWI
