import Verif.Model.SortedDeque
/-
Model of stream2py/utility/reader_writer_lock.py 32-80 (`RWLock`, `_LightSwitch`) and of the context managers of
stream2py/utility/locked_sorted_deque.py 40-54, as a machine of any number of threads with an arbitrary scheduler.

One step = one statement of the Python text: a lock operation, a counter update (protected by a mutex), one mutation of the
protected data. A thread that would block has no step. Releasing a lock that is not held (a `RuntimeError` in Python) is
modelled as having no step; that this never happens is part of C32.

The protected data has type `D`; a writer operation `op : Op` performs, when started on data `d`, the list `body op d` of
primitive mutations, one per step. Readers look at the data any number of times.

The context managers acquire inside the `try` block and release in `finally`, so a body that raises takes the same way out;
asynchronous exceptions between the two are not modelled.
-/
namespace S2P.RW

/-- Program counters, named after the statement the thread executes next.
Reader: `r1`–`r8` `reader_acquire` (reader_writer_lock.py 41-46, with lines 68-73 of the switch inlined at `r3`–`r6`), `rCS` inside,
`x1`–`x4` `reader_release` (lines 48-49, switch lines 75-80).
Writer: `w1`–`w5` `writer_acquire` (lines 51-53, switch inlined at `w1`–`w4`), `wCS` inside, `y0`–`y4` `writer_release` (lines 55-57). -/
inductive PC
  | idle
  | r1 | r2 | r3 | r4 | r5 | r6 | r7 | r8 | rCS
  | x1 | x2 | x3 | x4
  | w1 | w2 | w3 | w4 | w5 | wCS
  | y0 | y1 | y2 | y3 | y4
  deriving DecidableEq, Repr

/-- reader_writer_lock.py 32-37, 64-66: the lock object. `rq`, `nr`, `nw` = `readers_queue`, `no_readers`, `no_writers`;
`rm`, `rc` and `wm`, `wc` = mutex and counter of the read and the write switch. -/
structure Lk where
  rq : Bool
  nr : Bool
  nw : Bool
  rm : Bool
  wm : Bool
  rc : Nat
  wc : Nat
  deriving DecidableEq, Repr

/-- reader_writer_lock.py 32-37, 64-66: a fresh lock. -/
def Lk.fresh : Lk := ⟨false, false, false, false, false, 0, 0⟩

/-- reader_writer_lock.py 41-57, 68-80: the statement at a program counter, and the next one (`idle` after the last statement of
a release). `none`: blocked. Statements that a thread executes inside its critical section are in `M.go`. -/
def Lk.stmt (l : Lk) : PC → Option (Lk × PC)
  | .idle => none
  -- reader_acquire
  | .r1 => if l.rq then none else some ({ l with rq := true }, .r2)                   -- 42
  | .r2 => if l.nr then none else some ({ l with nr := true }, .r3)                   -- 43
  | .r3 => if l.rm then none else some ({ l with rm := true }, .r4)                   -- 44 / 69
  | .r4 => some ({ l with rc := l.rc + 1 }, .r5)                                      -- 70
  | .r5 => if l.rc = 1 then (if l.nw then none else some ({ l with nw := true }, .r6)) -- 71-72
           else some (l, .r6)
  | .r6 => if l.rm then some ({ l with rm := false }, .r7) else none                  -- 73
  | .r7 => if l.nr then some ({ l with nr := false }, .r8) else none                  -- 45
  | .r8 => if l.rq then some ({ l with rq := false }, .rCS) else none                 -- 46
  -- leave the section: reader_release
  | .rCS => some (l, .x1)
  | .x1 => if l.rm then none else some ({ l with rm := true }, .x2)                   -- 49 / 76
  | .x2 => some ({ l with rc := l.rc - 1 }, .x3)                                      -- 77
  | .x3 => if l.rc = 0 then (if l.nw then some ({ l with nw := false }, .x4) else none) -- 78-79
           else some (l, .x4)
  | .x4 => if l.rm then some ({ l with rm := false }, .idle) else none                -- 80
  -- writer_acquire
  | .w1 => if l.wm then none else some ({ l with wm := true }, .w2)                   -- 52 / 69
  | .w2 => some ({ l with wc := l.wc + 1 }, .w3)                                      -- 70
  | .w3 => if l.wc = 1 then (if l.nr then none else some ({ l with nr := true }, .w4)) -- 71-72
           else some (l, .w4)
  | .w4 => if l.wm then some ({ l with wm := false }, .w5) else none                  -- 73
  | .w5 => if l.nw then none else some ({ l with nw := true }, .wCS)                  -- 53
  -- leave the section: writer_release
  | .wCS => some (l, .y0)
  | .y0 => if l.nw then some ({ l with nw := false }, .y1) else none                  -- 56
  | .y1 => if l.wm then none else some ({ l with wm := true }, .y2)                   -- 57 / 76
  | .y2 => some ({ l with wc := l.wc - 1 }, .y3)                                      -- 77
  | .y3 => if l.wc = 0 then (if l.nr then some ({ l with nr := false }, .y4) else none) -- 78-79
           else some (l, .y4)
  | .y4 => if l.wm then some ({ l with wm := false }, .idle) else none                -- 80

/-- A thread. `outer` = number of reader critical sections it is in besides the innermost one (buffer_reader.py 264 calls `read`, which
locks again, inside `range`'s section). `op`, `prog`: the writer operation and its remaining mutations. `seen`: ghost, everything looked
at since it last asked for the reader lock from outside. -/
structure Th (D Op : Type) where
  pc : PC
  outer : Nat
  op : Option Op
  prog : List (D → D)
  seen : List D

/-- The lock object, the protected data and the threads. `done`: ghost, completed writer operations in order. -/
structure M (D Op : Type) where
  th : List (Th D Op)
  lk : Lk
  data : D
  done : List Op

variable {D Op : Type}

/-- A fresh lock, `n` threads not using it. -/
def init (n : Nat) (d : D) : M D Op := { th := List.replicate n ⟨.idle, 0, none, [], []⟩, lk := .fresh, data := d, done := [] }

/-- Scheduler choices. -/
inductive Act (Op : Type)
  /-- an idle thread enters `with reader_lock()` -/
  | beginRead (i : Nat)
  /-- an idle thread enters `with writer_lock()` to run `op` -/
  | beginWrite (i : Nat) (op : Op)
  /-- a thread executes its next statement -/
  | go (i : Nat)
  /-- a reader looks at the data -/
  | look (i : Nat)
  /-- a reader enters `with reader_lock()` again from inside its section -/
  | nest (i : Nat)

/-- Replace thread `i`. -/
def M.put (m : M D Op) (i : Nat) (t : Th D Op) : M D Op := { m with th := m.th.set i t }

/-- The thread after a lock statement that continues at `pc'`: a nested release returns into the surrounding section; on entering the
writer section the body is the one for the data found there; on leaving it the operation is finished. -/
def Th.arrive (body : Op → D → List (D → D)) (d : D) (t : Th D Op) (pc' : PC) : Th D Op :=
  match pc' with
  | .idle => if t.outer = 0 then { t with pc := .idle } else { t with pc := .rCS, outer := t.outer - 1 }
  | .wCS => { t with pc := .wCS, prog := (t.op.map (body · d)).getD [] }
  | .y0 => { t with pc := .y0, op := none }
  | _ => { t with pc := pc' }

/-- Execution of the next statement of thread `i`: a mutation if it is a writer with some left, else a lock statement. -/
def M.go (body : Op → D → List (D → D)) (m : M D Op) (i : Nat) (t : Th D Op) : Option (M D Op) :=
  match t.pc, t.prog with
  | .wCS, f :: fs => some { m.put i { t with prog := fs } with data := f m.data }
  | pc, _ =>
    match m.lk.stmt pc with
    | none => none
    | some (l, pc') => some { m.put i (t.arrive body m.data pc') with
        lk := l
        done := if pc = .wCS then m.done ++ t.op.toList else m.done }

/-- One step. -/
def M.step (body : Op → D → List (D → D)) (m : M D Op) : Act Op → Option (M D Op)
  | .beginRead i => match m.th[i]? with
    | some t => if t.pc = .idle then some (m.put i { t with pc := .r1, seen := [] }) else none
    | none => none
  | .beginWrite i op => match m.th[i]? with
    | some t => if t.pc = .idle then some (m.put i { t with pc := .w1, op := some op }) else none
    | none => none
  | .go i => match m.th[i]? with
    | some t => m.go body i t
    | none => none
  | .look i => match m.th[i]? with
    | some t => if t.pc = .rCS then some (m.put i { t with seen := t.seen ++ [m.data] }) else none
    | none => none
  | .nest i => match m.th[i]? with
    | some t => if t.pc = .rCS then some (m.put i { t with pc := .r1, outer := t.outer + 1 }) else none
    | none => none

/-- An execution. -/
def M.exec (body : Op → D → List (D → D)) : M D Op → List (Act Op) → Option (M D Op)
  | m, [] => some m
  | m, a :: as => match m.step body a with
    | some m' => m'.exec body as
    | none => none

/-- Reached from a fresh lock with `n` threads and data `d` by some execution. -/
def Reach (body : Op → D → List (D → D)) (n : Nat) (d : D) (m : M D Op) : Prop :=
  ∃ as, (init n d : M D Op).exec body as = some m

/-! ### The writer operations of the library -/

/-- stream_buffer.py 60-66. -/
inductive WOp (V : Type)
  | append (v : V)
  | drop (n : Int)

section
variable {K V : Type} [LT K] [DecidableLT K]

/-- The mutations of sorted_deque.py 150-152, as far as the loop gets. -/
def dropMuts : Nat → SD K V → List (SD K V → SD K V)
  | 0, _ => []
  | n + 1, s =>
    match dqDel s.keys 0 with
    | .error _ => []
    | .ok ks => (fun s => { s with keys := s.keys.eraseIdx 0 }) ::
      match dqDel s.items 0 with
      | .error _ => []
      | .ok is => (fun s => { s with items := s.items.eraseIdx 0 }) :: dropMuts n { s with keys := ks, items := is }

/-- Primitive mutations of the buffer operations: sorted_deque.py 108-109 (`_keys.append`, `_items.append`, none if `append` raises),
150-152 (`del _keys[0]`, `del _items[0]`, repeated). -/
def bufBody : WOp V → SD K V → List (SD K V → SD K V)
  | .append v, s =>
    match (s.append v).2 with
    | .ok _ => [fun s => { s with keys := dqAppend s.maxlen s.keys (s.key v) }, fun s => { s with items := dqAppend s.maxlen s.items v }]
    | .error _ => []
  | .drop n, s => dropMuts n.toNat s

/-- The same operations as atomic steps (Model/Channel.lean). -/
def bufAtomic : WOp V → SD K V → SD K V
  | .append v, s => (s.append v).1
  | .drop n, s => (s.drop n).1
end

end S2P.RW
