import Verif.Proofs.RWProgress
import Verif.Model.Channel
/-
C28–C32: the reader-writer lock, for any number of threads and every schedule.

Every theorem is about `RW.Reach body n d m`: state `m` is reached from a fresh lock with `n` threads and protected data `d` by some
sequence of scheduler choices (Model/RWLock.lean). `t.pc = .wCS`: inside the writer section. `InReader t`: inside a reader section, possibly
with further reader sections being entered inside it.
-/
namespace S2P
open RW
variable {D Op : Type}

/-- Inside a reader section: at its body, or in a nested `with reader_lock()` of it. -/
def InReader (t : Th D Op) : Prop := t.pc = .rCS ∨ 0 < t.outer

/-- No thread is asking for the reader lock from inside a reader section. -/
def NoNesting (m : M D Op) : Prop := ∀ t ∈ m.th, t.outer = 0

/-- **C28** a writer inside its section is alone: no other thread is inside a writer or a reader section. -/
theorem C28_writer_exclusive {body : Op → D → List (D → D)} {n : Nat} {d : D} {m : M D Op} (h : Reach body n d m)
    {i j : Nat} {t s : Th D Op} (hi : m.th[i]? = some t) (hw : t.pc = .wCS) (hij : i ≠ j) (hj : m.th[j]? = some s) :
    s.pc ≠ .wCS ∧ ¬ InReader s := by
  obtain ⟨h1, h2, h3⟩ := h.inv.exclusive hi hw hij hj
  exact ⟨h1, fun hr => by rcases hr with hr | hr; exacts [h2 hr, by omega]⟩

/-- A writer is not inside a reader section of its own either. -/
theorem C28_writer_not_reader {body : Op → D → List (D → D)} {n : Nat} {d : D} {m : M D Op} (h : Reach body n d m)
    {t : Th D Op} (ht : t ∈ m.th) (hw : t.pc = .wCS) : ¬ InReader t := by
  rintro (hr | hr)
  · rw [hw] at hr; exact absurd hr (by decide)
  · have := h.inv.outer t ht (by rw [hw]; rfl)
    omega

/-- The state after writer operations executed one after the other, each in one go. -/
def afterOps (run : D → Op → D) (d : D) (ops : List Op) : D := ops.foldl run d

/-- **C29** everything a thread looked at in one reader section (with its nested ones) is one and the same state: the result of a whole number
of completed writer operations; while it is inside, of all operations completed so far, and that is the current data. -/
theorem C29_snapshot {body : Op → D → List (D → D)} {n : Nat} {d : D} {m : M D Op} (h : Reach body n d m) {t : Th D Op} (ht : t ∈ m.th) :
    ∃ ops, ops <+: m.done ∧ (∀ x ∈ t.seen, x = afterOps (runBody body) d ops) ∧
      (InReader t → ops = m.done ∧ m.data = afterOps (runBody body) d ops) := by
  obtain ⟨ops, h1, h2, h3⟩ := h.dinv.looks t ht
  refine ⟨ops, h1, h2, fun hin => ?_⟩
  obtain ⟨i, hi⟩ := List.getElem?_of_mem ht
  refine ⟨h3 hin, ?_⟩
  rw [h3 hin]
  exact h.dinv.quiet (h.inv.noWriter hi hin)

/-- **C29** for the buffer: with `append` and `drop` executed mutation by mutation, what a reader sees are the states of the machine in
which they are single steps (Model/Channel.lean), so keys and items are never out of step. -/
theorem C29_buffer_snapshot {K V : Type} [LT K] [DecidableLT K] {n : Nat} {s : SD K V} {m : M (SD K V) (WOp V)} (h : Reach bufBody n s m)
    {t : Th (SD K V) (WOp V)} (ht : t ∈ m.th) :
    ∃ ops, ops <+: m.done ∧ (∀ x ∈ t.seen, x = afterOps (fun s op => bufAtomic op s) s ops) ∧
      (InReader t → ops = m.done ∧ m.data = afterOps (fun s op => bufAtomic op s) s ops) := by
  have := C29_snapshot h ht
  rwa [runBody_buf] at this

/-- The atomic operation is the step of the channel machine. -/
theorem C29_atomic_is_channel_step {K V : Type} [LT K] [DecidableLT K] (s : SD K V) :
    (∀ v, bufAtomic (.append v) s = (s.append v).1) ∧ (∀ n, bufAtomic (.drop n) s = (s.drop n).1) :=
  ⟨fun _ => rfl, fun _ => rfl⟩

theorem NoNesting.outers {m : M D Op} (h : NoNesting m) : m.outers = 0 := total_zero h

/-- **C30**, without nested readers: if some thread uses or waits for the lock, some thread can execute its next statement. -/
theorem C30_no_deadlock_partial {body : Op → D → List (D → D)} {n : Nat} {d : D} {m : M D Op} (h : Reach body n d m)
    (hn : NoNesting m) (hb : ∃ t ∈ m.th, t.pc ≠ .idle) : ∃ i m', m.step body (.go i) = some m' :=
  h.inv.noDeadlock body hn.outers hb

/-- **C30**, the time it takes: no thread can execute statements forever without asking for the lock again (nested or not). -/
theorem C30_terminates (body : Op → D → List (D → D)) : WellFounded (fun m' m : M D Op => ∃ i, m.step body (.go i) = some m') :=
  go_wf body

/-- **C30**, without nested readers: if nobody asks for the lock any more, every way of scheduling the threads lets all of them finish:
a run that cannot be continued has everybody outside. -/
theorem C30_everyone_finishes_partial {body : Op → D → List (D → D)} {n : Nat} {d : D} {m m' : M D Op} (h : Reach body n d m)
    (hn : NoNesting m) (is : List Nat) (he : m.exec body (is.map .go) = some m') (hstuck : ∀ i, m'.step body (.go i) = none) :
    ∀ t ∈ m'.th, t.pc = .idle := by
  have key : ∀ (is : List Nat) (m : M D Op), Inv m → m.outers = 0 → m.exec body (is.map .go) = some m' → Inv m' ∧ m'.outers = 0 := by
    intro is
    induction is with
    | nil => intro m hm ho he; simp only [List.map_nil, M.exec, Option.some.injEq] at he; subst he; exact ⟨hm, ho⟩
    | cons i is ih =>
      intro m hm ho he
      simp only [List.map_cons, M.exec] at he
      split at he
      · rename_i m1 hs
        have := go_outers hs
        exact ih m1 (hm.step _ hs) (by omega) he
      · simp at he
  obtain ⟨k1, k2⟩ := key is m h.inv hn.outers he
  intro t ht
  by_contra hc
  obtain ⟨i, m2, hs⟩ := k1.noDeadlock body k2 ⟨t, ht, hc⟩
  rw [hstuck i] at hs; exact absurd hs (by simp)

/-- The schedule of the deadlock: thread 0 enters its reader section, thread 1 asks for the writer lock and waits for thread 0 to leave,
thread 0 asks for the reader lock again (buffer_reader.py 264 inside 233-264). -/
def deadlockRun (op : Op) : List (Act Op) :=
  [.beginRead 0] ++ List.replicate 8 (.go 0) ++ [.beginWrite 1 op] ++ List.replicate 4 (.go 1) ++ [.nest 0, .go 0]

/-- **C30 is false** for the library's nested use (`range` calls `read` inside its reader section): a writer that comes in between blocks
both forever. Whatever data is protected and whatever the writer wants to do, there is a reachable state in which neither thread is
idle and no action of any kind is possible. -/
theorem C30_refuted (body : Op → D → List (D → D)) (d : D) (op : Op) :
    ∃ m : M D Op, Reach body 2 d m ∧ (∀ t ∈ m.th, t.pc ≠ .idle) ∧ m.th.length = 2 ∧ ∀ a, m.step body a = none := by
  refine ⟨{ th := [⟨.r2, 1, none, [], []⟩, ⟨.w5, 0, some op, [], []⟩], lk := ⟨true, true, true, false, false, 1, 1⟩, data := d, done := [] },
    ⟨deadlockRun op, by simp [deadlockRun, List.replicate, RW.init, M.exec, M.step, M.go, M.put, Th.arrive, Lk.stmt, Lk.fresh]⟩, by simp, rfl, ?_⟩
  intro a
  have hth : ∀ i : Nat, ([⟨.r2, 1, none, [], []⟩, ⟨.w5, 0, some op, [], []⟩] : List (Th D Op))[i]? =
      if i = 0 then some ⟨.r2, 1, none, [], []⟩ else if i = 1 then some ⟨.w5, 0, some op, [], []⟩ else none := by
    intro i
    rcases i with _ | _ | i <;> simp
  cases a with
  | go i =>
    simp only [M.step, hth]
    by_cases h0 : i = 0
    · subst h0; rfl
    · by_cases h1 : i = 1
      · subst h1; rfl
      · simp [h0, h1]
  | beginRead i | beginWrite i o | look i | nest i =>
    simp only [M.step, hth]
    by_cases h0 : i = 0
    · subst h0; rfl
    · by_cases h1 : i = 1
      · subst h1; rfl
      · simp [h0, h1]

/-- The same deadlock needs a writer: with readers only, nested or not, somebody outside the body of a section can always go on. -/
theorem C30_readers_only {body : Op → D → List (D → D)} {n : Nat} {d : D} {m : M D Op} (h : Reach body n d m)
    (hr : ∀ t ∈ m.th, t.pc = .idle ∨ t.pc.reading = true) (hb : ∃ t ∈ m.th, t.pc ≠ .idle) :
    ∃ i m', m.step body (.go i) = some m' := by
  by_cases hc : ∃ t ∈ m.th, t.pc ≠ .idle ∧ t.pc ≠ .rCS
  · obtain ⟨i, t, m', -, -, hs⟩ := h.inv.share body hr hc
    exact ⟨i, m', hs⟩
  · obtain ⟨t, ht, hp⟩ := hb
    have hp' : t.pc = .rCS := by
      by_contra h'
      exact hc ⟨t, ht, hp, h'⟩
    obtain ⟨i, hi⟩ := List.getElem?_of_mem ht
    refine ⟨i, go_of_stmt (body := body) hi ?_⟩
    rw [hp']; rfl

/-- Admitted as a reader and not yet left: `t` has passed the gate (reader_writer_lock.py 43). -/
def Admitted (t : Th D Op) : Prop := t.pc ∈ [PC.r3, .r4, .r5, .r6, .r7, .r8, .rCS, .x1, .x2, .x3, .x4] ∨ 0 < t.outer

/-- **C31** while writer `w` waits for the readers inside to leave, whatever the other threads do (in any number of steps), no reader is
admitted that was not already. -/
theorem C31_no_new_readers {body : Op → D → List (D → D)} {n : Nat} {d : D} {m m' : M D Op} (h : Reach body n d m)
    {w : Nat} {t : Th D Op} (hw : m.th[w]? = some t) (hp : t.pc = .w5) (as : List (Act Op)) (ha : ∀ i, Act.go i ∈ as → i ≠ w)
    (he : m.exec body as = some m') (j : Nat) (s s' : Th D Op) (hj : m.th[j]? = some s) (hj' : m'.th[j]? = some s') :
    Admitted s' → Admitted s :=
  (h.inv.gateRun as hw hp ha he).2 j s s' hj hj'

/-- Nor while a writer is inside: a step of any thread admits no reader. -/
theorem C31_no_new_readers_inside {body : Op → D → List (D → D)} {n : Nat} {d : D} {m m' : M D Op} (h : Reach body n d m)
    {t : Th D Op} (ht : t ∈ m.th) (hp : t.pc = .w5 ∨ t.pc = .wCS) (a : Act Op) (hs : m.step body a = some m')
    (j : Nat) (s s' : Th D Op) (hj : m.th[j]? = some s) (hj' : m'.th[j]? = some s') : Admitted s' → Admitted s := by
  obtain ⟨i, hi⟩ := List.getElem?_of_mem ht
  refine h.inv.gate ?_ hs hj hj'
  have := pos_cnt hi
  rcases hp with hp | hp <;> rw [hp] at this <;> omega

/-- **C31** readers do not exclude each other: if there are only readers and one of them is neither outside nor at the body of its section,
one of those can go on without anybody having to leave a section. -/
theorem C31_readers_share {body : Op → D → List (D → D)} {n : Nat} {d : D} {m : M D Op} (h : Reach body n d m)
    (hr : ∀ t ∈ m.th, t.pc = .idle ∨ t.pc.reading = true) (hb : ∃ t ∈ m.th, t.pc ≠ .idle ∧ t.pc ≠ .rCS) :
    ∃ i t m', m.th[i]? = some t ∧ t.pc ≠ .rCS ∧ m.step body (.go i) = some m' :=
  h.inv.share body hr hb

/-- **C32** when nobody uses the lock it is in its initial state. -/
theorem C32_restored {body : Op → D → List (D → D)} {n : Nat} {d : D} {m : M D Op} (h : Reach body n d m)
    (hq : ∀ t ∈ m.th, t.pc = .idle) : m.lk = Lk.fresh ∧ m.data = afterOps (runBody body) d m.done :=
  ⟨h.inv.quiet hq, h.dinv.quiet (fun t ht hc => by rw [hq t ht] at hc; exact absurd hc (by decide))⟩

/-- **C32** the internal locks are never released while free (which would raise): at the statements that release one
(reader_writer_lock.py 45, 46, 56, 73, 79, 80) the thread can always go on. -/
theorem C32_no_bad_release {body : Op → D → List (D → D)} {n : Nat} {d : D} {m : M D Op} (h : Reach body n d m)
    {i : Nat} {t : Th D Op} (hi : m.th[i]? = some t) (hp : t.pc ∈ [PC.r6, .r7, .r8, .x3, .x4, .w4, .y0, .y3, .y4]) :
    ∃ m', m.step body (.go i) = some m' := by
  refine go_of_stmt hi (h.inv.acc.noWait (pos_cnt hi) ?_ ?_)
  · intro hc; rw [hc] at hp; simp at hp
  · simp only [List.mem_cons, List.not_mem_nil, or_false] at hp
    rcases hp with hp | hp | hp | hp | hp | hp | hp | hp | hp <;> rw [hp] <;> rfl

/-! ### The hypotheses are met -/

/-- Two numbers, incremented one after the other: the invariant "equal" is broken half way. -/
def exBody (op : Nat) (_ : Nat × Nat) : List (Nat × Nat → Nat × Nat) := [fun p => (p.1 + op, p.2), fun p => (p.1, p.2 + op)]

/-- A writer half way through, thread 1 waiting at the gate. -/
def exHalf : List (Act Nat) := [.beginWrite 0 5] ++ List.replicate 6 (.go 0) ++ [.beginRead 1, .go 1]

def exHalfState : M (Nat × Nat) Nat :=
  ⟨[⟨.wCS, 0, some 5, [fun p => (p.1, p.2 + 5)], []⟩, ⟨.r2, 0, none, [], []⟩], ⟨true, true, true, false, false, 0, 1⟩, (5, 0), []⟩

/-- C28, C31: a writer is inside with the data torn, a reader is waiting and not admitted. -/
theorem exHalf_reached : Reach exBody 2 (0, 0) exHalfState := ⟨exHalf, rfl⟩

example : ¬ InReader (⟨.r2, 0, none, [], []⟩ : Th (Nat × Nat) Nat) :=
  (C28_writer_exclusive exHalf_reached (i := 0) (j := 1) rfl rfl (by decide) rfl).2

/-- Two readers inside at the same time (C31), one having looked before and after the other came in (C29), after a completed write. -/
def exTwo : List (Act Nat) :=
  [.beginWrite 0 5] ++ List.replicate 13 (.go 0) ++ [.beginRead 1] ++ List.replicate 8 (.go 1) ++ [.look 1, .beginRead 2] ++
    List.replicate 8 (.go 2) ++ [.look 2, .look 1]

def exTwoState : M (Nat × Nat) Nat :=
  ⟨[⟨.idle, 0, none, [], []⟩, ⟨.rCS, 0, none, [], [(5, 5), (5, 5)]⟩, ⟨.rCS, 0, none, [], [(5, 5)]⟩],
    ⟨false, false, true, false, false, 2, 0⟩, (5, 5), [5]⟩

theorem exTwo_reached : Reach exBody 3 (0, 0) exTwoState := ⟨exTwo, rfl⟩

example : ∃ ops, ops <+: [5] ∧ (∀ x ∈ [(5, 5), (5, 5)], x = afterOps (runBody exBody) (0, 0) ops) := by
  obtain ⟨ops, h1, h2, -⟩ := C29_snapshot exTwo_reached (t := ⟨.rCS, 0, none, [], [(5, 5), (5, 5)]⟩) (by simp [exTwoState])
  exact ⟨ops, h1, h2⟩

/-- C30: three threads contending without nesting. -/
example : NoNesting exTwoState ∧ ∃ t ∈ exTwoState.th, t.pc ≠ .idle := by
  refine ⟨?_, ⟨.rCS, 0, none, [], [(5, 5)]⟩, by simp [exTwoState], by simp⟩
  intro t ht
  simp only [exTwoState, List.mem_cons, List.not_mem_nil, or_false] at ht
  rcases ht with rfl | rfl | rfl <;> rfl

/-- C31: a writer waiting at the gate for a reader to leave; the reader that comes later is not admitted. -/
theorem exWait_reached : Reach exBody 3 (0, 0)
    ⟨[⟨.rCS, 0, none, [], []⟩, ⟨.w5, 0, some 5, [], []⟩, ⟨.r2, 0, none, [], []⟩], ⟨true, true, true, false, false, 1, 1⟩, (0, 0), []⟩ :=
  ⟨[.beginRead 0] ++ List.replicate 8 (.go 0) ++ [.beginWrite 1 5] ++ List.replicate 4 (.go 1) ++ [.beginRead 2, .go 2], rfl⟩

/-- C32: everybody has left after reads, writes and a nested read. -/
theorem exDone_reached : ∃ m, Reach exBody 3 (0, 0) m ∧ (∀ t ∈ m.th, t.pc = .idle) ∧ m.data = (5, 5) ∧ m.lk = Lk.fresh := by
  refine ⟨⟨[⟨.idle, 0, none, [], []⟩, ⟨.idle, 0, none, [], [(5, 5), (5, 5)]⟩, ⟨.idle, 0, none, [], [(5, 5)]⟩], Lk.fresh, (5, 5), [5]⟩,
    ⟨exTwo ++ [.nest 1] ++ List.replicate 18 (.go 1) ++ List.replicate 5 (.go 2), rfl⟩, ?_, rfl, rfl⟩
  intro t ht
  simp only [List.mem_cons, List.not_mem_nil, or_false] at ht
  rcases ht with rfl | rfl | rfl <;> rfl

end S2P
