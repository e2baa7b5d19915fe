import Verif.Proofs.Consumer
import Verif.Props.Reader
/-
C25–C27: `next(reader)`, `for … in reader` and `read(blocking=True)` under every schedule (Model/Consumer.lean).
`s.evtsOf i` is what consumer `i` observed, in order; `unreadOf s.ch i` the retained items its reader has not passed yet.
-/
namespace S2P
open Spec
variable {K V : Type}

section props
variable [LinearOrder K] [BEq V] [ReflBEq V]
variable {key : V → K} {kn : Py (Option K)} {m : Option Nat} {cfg : Nat → Cfg} {s s' : Cons K V}

/-- The read of `next(reader)`, when shortage is tolerated. -/
theorem call_next (h : s.Reach key kn m cfg) (i : Nat) (hst : (cfg i).strict = false) :
    (s.call (.rd i .readForNext)).2 = .ok (chunkOf (cfg i).n (unreadOf s.ch i)) ∧
    ((cfg i).peek = false → unreadOf (s.call (.rd i .readForNext)).1.ch i = (unreadOf s.ch i).drop (chunkSize (cfg i).n)) := by
  have h1 := h.ch.rd i .readForNext
  have h2 : (s.ch.step (.rd i .readForNext)).1.Reach key kn m cfg := h.ch.step _
  have hs : s.ch.buf.items.Pairwise (fun v w => key v < key w) := h.ch.sim.strict
  simp only [Spec.rdStep, hst, read_chunk] at h1
  rw [unreadOf_eq h.ch]
  refine ⟨h1.1, fun hp => ?_⟩
  change unreadOf (s.ch.step (.rd i .readForNext)).1 i = _
  rw [unreadOf_eq h2, h1.2]
  simp only [hp, Spec.move, Bool.false_eq_true, if_false]
  exact unread_chunk hs _ _

theorem unreadOf_frame {i : Nat} (h : Cons.Frame i s s') : unreadOf s'.ch i = unreadOf s.ch i := by
  simp only [unreadOf, h.buf, h.rd]

/-- The environment leaves the buffer and reader `i` alone: the source thread has finished and reader `i` has one user. -/
def LeavesAlone (i : Nat) : CAct K V → Prop
  | .call (.rd j _) => j ≠ i
  | .call _ => False
  | _ => True

/-- Consumer `i` makes no other kind of call than `next`. -/
def OnlyNext (i : Nat) : CAct K V → Prop
  | .callIter j => j ≠ i
  | .callRead j _ _ _ => j ≠ i
  | _ => True

/-- Consumer `i` makes no further calls, but continues the one it is in (and does not leave the loop it is in). -/
def NoCalls (i : Nat) : CAct K V → Prop
  | .leave j => j ≠ i
  | .callNext j => j ≠ i
  | .callIter j => j ≠ i
  | .callRead j _ _ _ => j ≠ i
  | _ => True

/-- A step that is not consumer `i`'s leaves everything it sees alone, except for the stop event. -/
theorem other_frame {i : Nat} {a : CAct K V} (hs : s.step cfg a = some s') (hl : LeavesAlone i a) (hst : s.stopped = true)
    (hgo : a ≠ .go i) (hc : NoCalls i a) : Cons.Frame i s s' := by
  cases a with
  | call op =>
    simp only [Cons.step, Option.some.injEq] at hs; subst hs
    cases op with
    | append v => exact hl.elim
    | drop n => exact hl.elim
    | rd j o => exact Cons.call_rd_frame s hl o
  | setStop =>
    simp only [Cons.step, Option.some.injEq] at hs; subst hs
    exact ⟨rfl, rfl, rfl, rfl, hst.symm⟩
  | callNext j | callIter j | callRead j n p st | leave j =>
    simp only [Cons.step] at hs
    split at hs
    · injection hs with hs; subst hs; exact (Cons.Frame.refl i s).goto hc _
    · simp at hs
  | go j => exact Cons.go_frame (fun e => hgo (by rw [e])) hs

omit [ReflBEq V] in
/-- The stop event is never cleared. -/
theorem C25_stop_is_permanent {as : List (CAct K V)} (he : s.exec cfg as = some s') (h : s.stopped = true) : s'.stopped = true := by
  refine Cons.exec_ind (P := fun s => s.stopped = true) (fun s a s' hP hs => ?_) as h he
  cases a with
  | call op => simp only [Cons.step, Option.some.injEq] at hs; subst hs; exact hP
  | setStop => simp only [Cons.step, Option.some.injEq] at hs; subst hs; rfl
  | callNext j | callIter j | callRead j n p st | leave j =>
    simp only [Cons.step] at hs
    split at hs
    · injection hs with hs; subst hs; exact hP
    · simp at hs
  | go j => rw [(Cons.go_frame (i := j + 1) (by omega) hs).stopped]; exact hP

omit [ReflBEq V] in
/-- What a step of consumer `i` emits, and when: `StopIteration`, the end of a loop and `None` from a blocking read only when the
stream is stopped; `None` from `next` only when it is running. -/
theorem go_emits {i : Nat} (hs : s.go i = some s') :
    s'.evts = s.evts ∨ ∃ e, s'.evts = s.evts ++ [(i, e)] ∧ (e = .stopIteration ∨ e = .loopDone ∨ e = .readRet .none → s.stopped = true) ∧
      (e = .next .none → s.stopped = false) ∧ e ≠ .yielded .none := by
  unfold Cons.go at hs
  split at hs
  · simp at hs
  · split at hs
    · rename_i hc; rw [Cons.call] at hc; injection hc with h1 h2; subst h1; injection hs with hs; subst hs
      exact .inr ⟨_, rfl, by simp, by simp, by simp⟩
    · rename_i hc; rw [Cons.call] at hc; injection hc with h1 h2; subst h1; injection hs with hs; subst hs
      exact .inl rfl
    · rename_i hn hc; rw [Cons.call] at hc; injection hc with h1 h2; subst h1; injection hs with hs; subst hs
      refine .inr ⟨_, rfl, by simp, ?_, by simp⟩
      intro h'; injection h' with h'; subst h'; exact (hn rfl).elim
  · split at hs <;> (injection hs with hs; subst hs)
    · rename_i h'; exact .inr ⟨_, rfl, fun _ => h', by simp, by simp⟩
    · rename_i h'; exact .inr ⟨_, rfl, by simp, fun _ => by simpa using h', by simp⟩
  · split at hs
    · rename_i hc; rw [Cons.call] at hc; injection hc with h1 h2; subst h1; injection hs with hs; subst hs
      exact .inr ⟨_, rfl, by simp, by simp, by simp⟩
    · rename_i hc; rw [Cons.call] at hc; injection hc with h1 h2; subst h1; injection hs with hs; subst hs
      exact .inl rfl
    · rename_i hn hc; rw [Cons.call] at hc; injection hc with h1 h2; subst h1; injection hs with hs; subst hs
      refine .inr ⟨_, rfl, by simp, by simp, ?_⟩
      intro h'; injection h' with h'; subst h'; exact (hn rfl).elim
  · split at hs <;> (injection hs with hs; subst hs)
    · rename_i h'; exact .inr ⟨_, rfl, fun _ => h', by simp, by simp⟩
    · exact .inl rfl
  · split at hs <;> (injection hs with hs; subst hs)
    · rename_i h'; exact .inr ⟨_, rfl, fun _ => h', by simp, by simp⟩
    · exact .inl rfl
  · injection hs with hs; subst hs; exact .inl rfl
  · injection hs with hs; subst hs; exact .inl rfl
  · split at hs
    · rename_i hc; rw [Cons.call] at hc; injection hc with h1 h2; subst h1; injection hs with hs; subst hs
      exact .inr ⟨_, rfl, by simp, by simp, by simp⟩
    · rename_i hc; rw [Cons.call] at hc; injection hc with h1 h2; subst h1; injection hs with hs; subst hs
      exact .inl rfl
    · rename_i hn hc; rw [Cons.call] at hc; injection hc with h1 h2; subst h1; injection hs with hs; subst hs
      refine .inr ⟨_, rfl, ?_, by simp, by simp⟩
      rintro (h' | h' | h')
      · simp at h'
      · simp at h'
      · injection h' with h'; subst h'; exact (hn rfl).elim
  · split at hs <;> (injection hs with hs; subst hs)
    · rename_i h'; exact .inr ⟨_, rfl, fun _ => h', by simp, by simp⟩
    · exact .inl rfl
  · injection hs with hs; subst hs; exact .inl rfl

omit [ReflBEq V] in
theorem step_emits {a : CAct K V} (hs : s.step cfg a = some s') :
    s'.evts = s.evts ∨ ∃ i e, s'.evts = s.evts ++ [(i, e)] ∧ (e = .stopIteration ∨ e = .loopDone ∨ e = .readRet .none → s.stopped = true) ∧
      (e = .next .none → s.stopped = false) ∧ e ≠ .yielded .none := by
  cases a with
  | call op => simp only [Cons.step, Option.some.injEq] at hs; subst hs; exact .inl rfl
  | setStop => simp only [Cons.step, Option.some.injEq] at hs; subst hs; exact .inl rfl
  | callNext j | callIter j | callRead j n p st | leave j =>
    simp only [Cons.step] at hs
    split at hs
    · injection hs with hs; subst hs; exact .inl rfl
    · simp at hs
  | go j =>
    rcases go_emits hs with h | ⟨e, h⟩
    · exact .inl h
    · exact .inr ⟨j, e, h⟩

omit [ReflBEq V] in
/-- **C25** `next(reader)` raises `StopIteration` only when the stream is stopped, and returns `None` only when it is running
(so, the stop event being permanent, never in a call begun after the stream stopped). -/
theorem C25_stop_iteration_iff_stopped {a : CAct K V} (hs : s.step cfg a = some s') (i : Nat) :
    (s'.evts = s.evts ++ [(i, .stopIteration)] → s.stopped = true) ∧ (s'.evts = s.evts ++ [(i, .next .none)] → s.stopped = false) := by
  rcases step_emits hs with h | ⟨j, e, h, h1, h2, -⟩
  · constructor <;> (intro h'; rw [h] at h'; simp at h')
  · rw [h]
    constructor <;> (intro h'; simp only [List.append_cancel_left_eq, List.cons.injEq, Prod.mk.injEq, and_true] at h')
    · exact h1 (.inl h'.2)
    · exact h2 h'.2

/-- Answer number `k` of repeated `next(reader)` calls with chunk size `n` when `u` is left: the `k`-th chunk, then `StopIteration`. -/
def nextAnswer (n : Int) (u : List V) (k : Nat) : CEvt V :=
  match chunkOf n (u.drop (k * chunkSize n)) with
  | .none => .stopIteration
  | r => .next r

omit [BEq V] [LinearOrder K] [ReflBEq V] in
theorem nextAnswer_of_ne {n : Int} {u : List V} {k : Nat} (h : u.drop (k * chunkSize n) ≠ []) :
    nextAnswer n u k = .next (chunkOf n (u.drop (k * chunkSize n))) := by
  unfold nextAnswer
  have := chunkOf_ne (n := n) h
  split
  · rename_i h'; exact absurd h' this
  · rfl

/-- **C25** once the stream is stopped and the buffer is left alone, successive `next(reader)` calls hand out everything unread, chunk by
chunk in order, then raise `StopIteration` forever; whatever other readers do meanwhile. -/
theorem C25_drains (h : s.Reach key kn m cfg) (hstop : s.stopped = true) (i : Nat) (hp : (cfg i).peek = false)
    (hst : (cfg i).strict = false) (hpc : s.pc i = .idle) (as : List (CAct K V)) (hl : ∀ a ∈ as, LeavesAlone i a ∧ OnlyNext i a)
    (he : s.exec cfg as = some s') :
    ∃ n, s'.evtsOf i = s.evtsOf i ++ (List.range n).map (nextAnswer (cfg i).n (unreadOf s.ch i)) := by
  let c := (cfg i).n
  let P : Cons K V → Prop := fun t => t.Reach key kn m cfg ∧ t.stopped = true ∧ ∃ n,
    t.evtsOf i = s.evtsOf i ++ (List.range n).map (nextAnswer c (unreadOf s.ch i)) ∧
    unreadOf t.ch i = (unreadOf s.ch i).drop (n * chunkSize c) ∧
    (t.pc i = .idle ∨ t.pc i = .nextRead ∨ (t.pc i = .nextCheck ∧ unreadOf t.ch i = []))
  suffices hP : P s' by
    obtain ⟨_, _, n, h1, _⟩ := hP
    exact ⟨n, h1⟩
  refine Cons.exec_ind' (P := P) (A := fun a => LeavesAlone i a ∧ OnlyNext i a) ?_ as
    ⟨h, hstop, 0, by simp, by simp, .inl hpc⟩ hl he
  rintro t a t' ⟨hr, hts, n, h1, h2, h3⟩ ⟨ha1, ha2⟩ hs
  have hr' : t'.Reach key kn m cfg := hr.exec (as := [a]) (by simp only [Cons.exec, hs])
  by_cases hgo : a = .go i
  · subst hgo
    rcases h3 with h3 | h3 | ⟨h3, h4⟩
    · simp [Cons.step, Cons.go, h3] at hs
    · obtain ⟨e1, e2⟩ := call_next hr i hst
      have e2 := e2 hp
      simp only [Cons.step, Cons.go, h3] at hs
      cases hu : unreadOf t.ch i with
      | nil =>
        have hc : chunkOf (cfg i).n (unreadOf t.ch i) = .none := by rw [hu]; rfl
        rw [hc] at e1
        split at hs
        · rename_i hc'; rw [hc'] at e1; simp at e1
        · rename_i t1 hc'
          injection hs with hs; subst hs
          rw [hc'] at e2
          refine ⟨hr', ?_, n, ?_, ?_, .inr (.inr ⟨?_, ?_⟩)⟩
          · rw [Cons.call] at hc'; injection hc' with h1' _; subst h1'; exact hts
          · rw [← h1]; rw [Cons.call] at hc'; injection hc' with h1' _; subst h1'; rfl
          · change unreadOf t1.ch i = _
            rw [e2, hu, ← h2, hu, List.drop_nil]
          · simp [Cons.goto]
          · change unreadOf t1.ch i = _
            rw [e2, hu, List.drop_nil]
        · rename_i hn hc'; rw [hc'] at e1; injection e1 with e1; exact (hn e1).elim
      | cons v vs =>
        have hne : unreadOf t.ch i ≠ [] := by rw [hu]; simp
        have hc := chunkOf_ne (n := (cfg i).n) hne
        split at hs
        · rename_i hc'; rw [hc'] at e1; simp at e1
        · rename_i t1 hc'
          rw [hc'] at e1; injection e1 with e1
          exact absurd e1.symm hc
        · rename_i t1 r hn hc'
          injection hs with hs; subst hs
          rw [hc'] at e1 e2
          injection e1 with e1
          have hans : nextAnswer c (unreadOf s.ch i) n = .next r := by
            rw [nextAnswer_of_ne (by rw [← h2]; exact hne), e1, h2]
          refine ⟨hr', ?_, n + 1, ?_, ?_, .inl ?_⟩
          · rw [Cons.call] at hc'; injection hc' with h1' _; subst h1'; exact hts
          · have : ((t1.emit i (.next r)).goto i .idle).evtsOf i = (t1.emit i (.next r)).evtsOf i := rfl
            rw [this, Cons.evtsOf_emit, if_pos rfl, List.range_succ, List.map_append, ← List.append_assoc, ← h1]
            simp only [List.map_cons, List.map_nil, hans]
            rw [Cons.call] at hc'; injection hc' with h1' _; subst h1'; rfl
          · change unreadOf t1.ch i = _
            rw [e2, h2, List.drop_drop]
            congr 1
            rw [Nat.succ_mul]
          · simp [Cons.goto]
    · simp only [Cons.step, Cons.go, h3, hts, if_true, Option.some.injEq] at hs
      subst hs
      refine ⟨hr', hts, n + 1, ?_, ?_, .inl (by simp [Cons.goto])⟩
      · have : ((t.emit i .stopIteration).goto i .idle).evtsOf i = (t.emit i .stopIteration).evtsOf i := rfl
        rw [this, Cons.evtsOf_emit, if_pos rfl, List.range_succ, List.map_append, ← List.append_assoc, ← h1]
        rw [h2] at h4
        simp [nextAnswer, h4, chunkOf, c]
      · change unreadOf t.ch i = _
        rw [h4]
        rw [h2] at h4
        rw [Nat.succ_mul, ← List.drop_drop, h4, List.drop_nil]
  · by_cases hcn : a = .callNext i
    · subst hcn
      simp only [Cons.step] at hs
      split at hs
      · injection hs with hs; subst hs
        exact ⟨hr', hts, n, h1, h2, .inr (.inl (by simp [Cons.goto]))⟩
      · simp at hs
    · have hnc : NoCalls i a := by
        cases a with
        | callNext j => intro e; subst e; exact hcn rfl
        | callIter j => exact ha2
        | callRead j _ _ _ => exact ha2
        | leave j =>
          intro e; subst e
          simp only [Cons.step] at hs
          rcases h3 with h3 | h3 | h3 <;> simp [h3, CPC.canLeave] at hs
        | _ => trivial
      have hf := other_frame hs ha1 hts hgo hnc
      refine ⟨hr', by rw [hf.stopped]; exact hts, n, by rw [hf.evts, h1], by rw [unreadOf_frame hf, h2], ?_⟩
      rw [hf.pc, unreadOf_frame hf]; exact h3

omit [ReflBEq V] in
/-- **C25, C26, C27** a consumer inside a call is never blocked: it always has a next step. -/
theorem C25_never_blocked (i : Nat) (h : s.pc i ≠ .idle) : ∃ s', s.step cfg (.go i) = some s' := by
  simp only [Cons.step, Cons.go]
  split
  · rename_i h'; exact absurd h' h
  all_goals first | exact ⟨_, rfl⟩ | (split <;> exact ⟨_, rfl⟩)

/-! ### C26 -/

theorem iter_read_step (h : s.Reach key kn m cfg) (i : Nat) (hst : (cfg i).strict = false) (hp : (cfg i).peek = false)
    (hpc : s.pc i = .iterRead) (hs : s.go i = some s') :
    s'.stopped = s.stopped ∧ s'.ops = s.ops ++ [.rd i .readForNext] ∧
    unreadOf s'.ch i = (unreadOf s.ch i).drop (chunkSize (cfg i).n) ∧
    ((unreadOf s.ch i = [] ∧ s'.pc i = .iterCheck ∧ s'.evtsOf i = s.evtsOf i) ∨
     (unreadOf s.ch i ≠ [] ∧ s'.pc i = .iterYield ∧ s'.evtsOf i = s.evtsOf i ++ [.yielded (chunkOf (cfg i).n (unreadOf s.ch i))])) := by
  obtain ⟨e1, e2⟩ := call_next h i hst
  have e2 := e2 hp
  simp only [Cons.go, hpc] at hs
  split at hs
  · rename_i hc'; rw [hc'] at e1; simp at e1
  · rename_i t1 hc'
    injection hs with hs; subst hs
    rw [hc'] at e1 e2
    injection e1 with e1
    have hu : unreadOf s.ch i = [] := by
      by_contra hne
      exact chunkOf_ne hne e1.symm
    rw [Cons.call] at hc'; injection hc' with h1' _; subst h1'
    exact ⟨rfl, rfl, e2, .inl ⟨hu, by simp [Cons.goto], rfl⟩⟩
  · rename_i t1 r hn hc'
    injection hs with hs; subst hs
    rw [hc'] at e1 e2
    injection e1 with e1
    have hu : unreadOf s.ch i ≠ [] := by
      intro hu; rw [hu] at e1; exact hn e1
    rw [Cons.call] at hc'; injection hc' with h1' _; subst h1'
    refine ⟨rfl, rfl, e2, .inr ⟨hu, by simp [Cons.goto], ?_⟩⟩
    have : ∀ t : Cons K V, ((t.emit i (.yielded r)).goto i .iterYield).evtsOf i = (t.emit i (.yielded r)).evtsOf i := fun _ => rfl
    rw [this, Cons.evtsOf_emit, if_pos rfl, e1]; rfl

/-- In a loop, and not between its read and its look at the stop event. -/
def BetweenReads : CPC → Prop
  | .iterRead | .iterYield | .iterSleep => True
  | _ => False

/-- **C26** for a loop running when (or started after) the stream is stopped and the buffer left alone: it hands out everything unread,
chunk by chunk in order, and only then ends. (`n` = chunks handed out so far.) -/
theorem C26_loop_after_stop (h : s.Reach key kn m cfg) (hstop : s.stopped = true) (i : Nat) (hp : (cfg i).peek = false)
    (hst : (cfg i).strict = false) (hpc : BetweenReads (s.pc i)) (as : List (CAct K V)) (hl : ∀ a ∈ as, LeavesAlone i a ∧ NoCalls i a)
    (he : s.exec cfg as = some s') :
    ∃ n, (∀ k < n, (unreadOf s.ch i).drop (k * chunkSize (cfg i).n) ≠ []) ∧
      (s'.pc i ≠ .idle → s'.evtsOf i = s.evtsOf i ++
        (List.range n).map (fun k => .yielded (chunkOf (cfg i).n ((unreadOf s.ch i).drop (k * chunkSize (cfg i).n))))) ∧
      (s'.pc i = .idle → (unreadOf s.ch i).drop (n * chunkSize (cfg i).n) = [] ∧ s'.evtsOf i = s.evtsOf i ++
        (List.range n).map (fun k => .yielded (chunkOf (cfg i).n ((unreadOf s.ch i).drop (k * chunkSize (cfg i).n)))) ++ [.loopDone]) := by
  let c := (cfg i).n
  let P : Cons K V → Prop := fun t => t.Reach key kn m cfg ∧ t.stopped = true ∧ ∃ n,
    (∀ k < n, (unreadOf s.ch i).drop (k * chunkSize c) ≠ []) ∧ unreadOf t.ch i = (unreadOf s.ch i).drop (n * chunkSize c) ∧
    ((BetweenReads (t.pc i) ∧ t.evtsOf i = s.evtsOf i ++
        (List.range n).map (fun k => .yielded (chunkOf c ((unreadOf s.ch i).drop (k * chunkSize c))))) ∨
     (t.pc i = .iterCheck ∧ unreadOf t.ch i = [] ∧ t.evtsOf i = s.evtsOf i ++
        (List.range n).map (fun k => .yielded (chunkOf c ((unreadOf s.ch i).drop (k * chunkSize c))))) ∨
     (t.pc i = .idle ∧ unreadOf t.ch i = [] ∧ t.evtsOf i = s.evtsOf i ++
        (List.range n).map (fun k => .yielded (chunkOf c ((unreadOf s.ch i).drop (k * chunkSize c)))) ++ [.loopDone]))
  suffices hP : P s' by
    obtain ⟨_, _, n, h1, h2, h3⟩ := hP
    refine ⟨n, h1, fun hi => ?_, fun hi => ?_⟩
    · rcases h3 with ⟨_, h3⟩ | ⟨_, _, h3⟩ | ⟨h3, _⟩
      · exact h3
      · exact h3
      · exact absurd h3 hi
    · rcases h3 with ⟨h3, _⟩ | ⟨h3, _⟩ | ⟨_, h3, h4⟩
      · rw [hi] at h3; exact h3.elim
      · rw [hi] at h3; exact absurd h3 (by decide)
      · exact ⟨by rw [← h3, h2], h4⟩
  refine Cons.exec_ind' (P := P) (A := fun a => LeavesAlone i a ∧ NoCalls i a) ?_ as
    ⟨h, hstop, 0, by simp, by simp, .inl ⟨hpc, by simp⟩⟩ hl he
  rintro t a t' ⟨hr, hts, n, h1, h2, h3⟩ ⟨ha1, ha2⟩ hs
  have hr' : t'.Reach key kn m cfg := hr.exec (as := [a]) (by simp only [Cons.exec, hs])
  by_cases hgo : a = .go i
  · subst hgo
    simp only [Cons.step] at hs
    rcases h3 with ⟨h3, h4⟩ | ⟨h3, h4, h5⟩ | ⟨h3, _⟩
    · cases hpc : t.pc i with
      | iterRead =>
        obtain ⟨k1, _, k3, k4⟩ := iter_read_step hr i hst hp hpc hs
        rcases k4 with ⟨k4, k5, k6⟩ | ⟨k4, k5, k6⟩
        · refine ⟨hr', by rw [k1]; exact hts, n, h1, ?_, .inr (.inl ⟨k5, ?_, by rw [k6, h4]⟩)⟩
          · rw [k3, ← h2, k4, List.drop_nil]
          · rw [k3, k4, List.drop_nil]
        · refine ⟨hr', by rw [k1]; exact hts, n + 1, ?_, ?_, .inl ⟨by rw [k5]; trivial, ?_⟩⟩
          · intro k hk
            by_cases hkn : k = n
            · subst hkn; rw [← h2]; exact k4
            · exact h1 k (by omega)
          · rw [k3, h2, List.drop_drop, Nat.succ_mul]
          · rw [k6, h4, List.range_succ, List.map_append, ← List.append_assoc, h2]; rfl
      | iterYield | iterSleep =>
        simp only [Cons.go, hpc, Option.some.injEq] at hs
        subst hs
        exact ⟨hr', hts, n, h1, h2, .inl ⟨by simp [Cons.goto, BetweenReads], h4⟩⟩
      | _ => rw [hpc] at h3; exact h3.elim
    · simp only [Cons.go, h3, hts, if_true, Option.some.injEq] at hs
      subst hs
      refine ⟨hr', hts, n, h1, h2, .inr (.inr ⟨by simp [Cons.goto], h4, ?_⟩)⟩
      have : ((t.emit i .loopDone).goto i .idle).evtsOf i = (t.emit i .loopDone).evtsOf i := rfl
      rw [this, Cons.evtsOf_emit, if_pos rfl, h5]
    · simp [Cons.go, h3] at hs
  · have hf := other_frame hs ha1 hts hgo ha2
    refine ⟨hr', by rw [hf.stopped]; exact hts, n, h1, by rw [unreadOf_frame hf, h2], ?_⟩
    rw [hf.pc, hf.evts, unreadOf_frame hf]; exact h3

/-- The chunks of a finished loop contain exactly the unread items. -/
theorem chunks_flatten (n : Int) (u : List V) (N : Nat) (h : u.drop (N * chunkSize n) = []) :
    ((List.range N).map (fun k => (chunkOf n (u.drop (k * chunkSize n))).items)).flatten = u := by
  have key : ∀ N, ((List.range N).map (fun k => (chunkOf n (u.drop (k * chunkSize n))).items)).flatten = u.take (N * chunkSize n) := by
    intro N
    induction N with
    | zero => simp
    | succ N ih =>
      rw [List.range_succ, List.map_append, List.flatten_append, ih]
      simp only [List.map_cons, List.map_nil, List.flatten_cons, List.flatten_nil, List.append_nil, chunkOf_items]
      rw [Nat.succ_mul, List.take_add]
  rw [key, List.take_of_length_le]
  simpa using h

/-- Items in an observation. -/
def CEvt.items : CEvt V → List V
  | .next r | .yielded r | .readRet r => r.items
  | _ => []

/-- Everything consumer `i` was handed, in order. -/
def received (s : Cons K V) (i : Nat) : List V := (s.evtsOf i).flatMap CEvt.items

/-- Reader `i` is used by consumer `i` only, and not to peek. -/
def OneUser (i : Nat) : CAct K V → Prop
  | .call (.rd j _) => j ≠ i
  | .callRead j _ p _ => j = i → p.getD false = false
  | _ => True

omit [ReflBEq V] in
theorem received_emit (t : Cons K V) (i j : Nat) (e : CEvt V) (p : CPC) :
    received ((t.emit j e).goto j p) i = received t i ++ if j = i then e.items else [] := by
  have : ((t.emit j e).goto j p).evtsOf i = (t.emit j e).evtsOf i := rfl
  simp only [received, this, Cons.evtsOf_emit]
  split <;> simp

/-- Consumer `j`'s peek argument is harmless. -/
def quietPC : CPC → Prop
  | .blkRead _ p _ | .blkCheck _ p _ | .blkSleep _ p _ => p.getD false = false
  | _ => True

omit [ReflBEq V] in
/-- What consumer `i` was handed is what its reader delivered. -/
theorem received_delivered_step (i : Nat) {a : CAct K V} (hpk : (cfg i).peek = false) (ha : OneUser i a) (hs : s.step cfg a = some s')
    (hlen : s.outs.length = s.ops.length) (hq : quietPC (s.pc i)) (hd : received s i = delivered cfg i s.ops s.outs) :
    s'.outs.length = s'.ops.length ∧ quietPC (s'.pc i) ∧ received s' i = delivered cfg i s'.ops s'.outs ∧
      ∀ o, .rd i o ∈ s'.ops → .rd i o ∈ s.ops ∨ (consumes (cfg i) o ∨ peeks (cfg i) o) := by
  cases a with
  | call op =>
    simp only [Cons.step, Option.some.injEq] at hs; subst hs
    refine ⟨by simp [Cons.call, hlen], hq, ?_, fun o ho => ?_⟩
    · change received s i = delivered cfg i (s.ops ++ [op]) (s.outs ++ [(s.ch.step op).2])
      rw [delivered_snoc _ _ _ _ _ _ hlen, ← hd]
      cases op with
      | append v => simp [handed]
      | drop n => simp [handed]
      | rd j o =>
        have : j ≠ i := ha
        simp [handed, this]
    · simp only [Cons.call, List.mem_append, List.mem_singleton] at ho
      rcases ho with ho | ho
      · exact .inl ho
      · subst ho; exact absurd rfl ha
  | setStop => simp only [Cons.step, Option.some.injEq] at hs; subst hs; exact ⟨hlen, hq, hd, fun o ho => .inl ho⟩
  | callNext j | callIter j | leave j =>
    simp only [Cons.step] at hs
    split at hs
    · injection hs with hs; subst hs
      refine ⟨hlen, ?_, hd, fun o ho => .inl ho⟩
      simp only [Cons.goto]; split
      · trivial
      · exact hq
    · simp at hs
  | callRead j n p st =>
    simp only [Cons.step] at hs
    split at hs
    · injection hs with hs; subst hs
      refine ⟨hlen, ?_, hd, fun o ho => .inl ho⟩
      simp only [Cons.goto]; split
      · rename_i e; exact ha e.symm
      · exact hq
    · simp at hs
  | go j =>
    -- a read that is not a peek, with the outcome handed to consumer `j`
    have hread : ∀ (t1 : Cons K V) (o : RdOp K V) (x : Py (Ret V)) (t2 : Cons K V), (s.call (.rd j o)) = (t1, x) →
        (j = i → consumes (cfg i) o = true) → received t2 i = received t1 i ++ (if j = i then outItems x else []) →
        t2.ops = t1.ops → t2.outs = t1.outs → quietPC (t2.pc i) →
        t2.outs.length = t2.ops.length ∧ quietPC (t2.pc i) ∧ received t2 i = delivered cfg i t2.ops t2.outs ∧
          ∀ o, .rd i o ∈ t2.ops → .rd i o ∈ s.ops ∨ (consumes (cfg i) o ∨ peeks (cfg i) o) := by
      intro t1 o x t2 hc hcons hrec ho hou hq2
      rw [Cons.call] at hc
      injection hc with h1 h2; subst h1; subst h2
      refine ⟨?_, hq2, ?_, ?_⟩
      · rw [ho, hou]; simp [hlen]
      · rw [ho, hou, hrec]
        change received s i ++ _ = delivered cfg i (s.ops ++ [.rd j o]) (s.outs ++ [(s.ch.step (.rd j o)).2])
        rw [delivered_snoc _ _ _ _ _ _ hlen, ← hd]
        congr 1
        simp only [handed]
        by_cases hj : j = i
        · simp [hj, hcons hj]
        · simp [hj]
      · intro o' ho'
        rw [ho] at ho'
        simp only [List.mem_append, List.mem_singleton] at ho'
        rcases ho' with ho' | ho'
        · exact .inl ho'
        · injection ho' with h1 h2
          subst h2
          exact .inr (.inl (hcons h1.symm))
    have hpcs : ∀ (t : Cons K V) (p : CPC), (j = i → quietPC p) → (j ≠ i → quietPC (t.pc i)) → quietPC ((t.goto j p).pc i) := by
      intro t p h1 h2
      simp only [Cons.goto]
      split
      · rename_i e; exact h1 e.symm
      · rename_i e; exact h2 (fun e' => e e'.symm)
    have hpcc : ∀ (o : RdOp K V) (t1 : Cons K V) (x : Py (Ret V)), (s.call (.rd j o)) = (t1, x) → t1.pc = s.pc := by
      intro o t1 x hc; rw [Cons.call] at hc; injection hc with h1 h2; subst h1; rfl
    have hemit : ∀ (t : Cons K V) (e : CEvt V) (p : CPC), t.ops = s.ops → t.outs = s.outs → received t i = received s i → t.pc = s.pc →
        e.items = [] → quietPC p →
        ((t.emit j e).goto j p).outs.length = ((t.emit j e).goto j p).ops.length ∧ quietPC (((t.emit j e).goto j p).pc i) ∧
        received ((t.emit j e).goto j p) i = delivered cfg i ((t.emit j e).goto j p).ops ((t.emit j e).goto j p).outs ∧
          ∀ o, .rd i o ∈ ((t.emit j e).goto j p).ops → .rd i o ∈ s.ops ∨ (consumes (cfg i) o ∨ peeks (cfg i) o) := by
      intro t e p ho hou hr hpc hei hqp
      refine ⟨?_, ?_, ?_, ?_⟩
      · change t.outs.length = t.ops.length; rw [ho, hou, hlen]
      · exact hpcs _ _ (fun _ => hqp) (fun _ => by change quietPC (t.pc i); rw [hpc]; exact hq)
      · rw [received_emit, hr, hei, hd]
        change _ = delivered cfg i t.ops t.outs
        rw [ho, hou]; simp
      · intro o h'; change .rd i o ∈ t.ops at h'; rw [ho] at h'; exact .inl h'
    have hgoto : ∀ p : CPC, (j = i → quietPC p) →
        (s.goto j p).outs.length = (s.goto j p).ops.length ∧ quietPC ((s.goto j p).pc i) ∧
        received (s.goto j p) i = delivered cfg i (s.goto j p).ops (s.goto j p).outs ∧
          ∀ o, .rd i o ∈ (s.goto j p).ops → .rd i o ∈ s.ops ∨ (consumes (cfg i) o ∨ peeks (cfg i) o) := by
      intro p hp
      exact ⟨hlen, hpcs _ _ hp (fun _ => hq), hd, fun o h' => .inl h'⟩
    simp only [Cons.step] at hs
    unfold Cons.go at hs
    have hnextc : j = i → consumes (cfg i) (.readForNext : RdOp K V) = true := by intro _; simp [consumes, hpk]
    split at hs
    · simp at hs
    · split at hs <;> (rename_i hc; injection hs with hs; subst hs)
      · exact hread _ _ _ _ hc hnextc (by rw [received_emit]; simp [CEvt.items, outItems]) rfl rfl
          (hpcs _ _ (fun _ => trivial) (fun _ => by simp only [Cons.emit, hpcc _ _ _ hc]; exact hq))
      · exact hread _ _ _ _ hc hnextc (by simp [outItems, Ret.items]; rfl) rfl rfl
          (hpcs _ _ (fun _ => trivial) (fun _ => by rw [hpcc _ _ _ hc]; exact hq))
      · exact hread _ _ _ _ hc hnextc (by rw [received_emit]; simp [CEvt.items, outItems]) rfl rfl
          (hpcs _ _ (fun _ => trivial) (fun _ => by simp only [Cons.emit, hpcc _ _ _ hc]; exact hq))
    · split at hs <;> (injection hs with hs; subst hs)
      · exact hemit _ _ _ rfl rfl rfl rfl rfl trivial
      · exact hemit _ _ _ rfl rfl rfl rfl rfl trivial
    · split at hs <;> (rename_i hc; injection hs with hs; subst hs)
      · exact hread _ _ _ _ hc hnextc (by rw [received_emit]; simp [CEvt.items, outItems]) rfl rfl
          (hpcs _ _ (fun _ => trivial) (fun _ => by simp only [Cons.emit, hpcc _ _ _ hc]; exact hq))
      · exact hread _ _ _ _ hc hnextc (by simp [outItems, Ret.items]; rfl) rfl rfl
          (hpcs _ _ (fun _ => trivial) (fun _ => by rw [hpcc _ _ _ hc]; exact hq))
      · exact hread _ _ _ _ hc hnextc (by rw [received_emit]; simp [CEvt.items, outItems]) rfl rfl
          (hpcs _ _ (fun _ => trivial) (fun _ => by simp only [Cons.emit, hpcc _ _ _ hc]; exact hq))
    · split at hs <;> (injection hs with hs; subst hs)
      · exact hemit _ _ _ rfl rfl rfl rfl rfl trivial
      · exact hgoto _ (fun _ => trivial)
    · split at hs <;> (injection hs with hs; subst hs)
      · exact hemit _ _ _ rfl rfl rfl rfl rfl trivial
      · exact hgoto _ (fun _ => trivial)
    · injection hs with hs; subst hs; exact hgoto _ (fun _ => trivial)
    · injection hs with hs; subst hs; exact hgoto _ (fun _ => trivial)
    · rename_i n p st hpc
      have hqp : j = i → p.getD false = false := by intro e; subst e; rw [hpc] at hq; exact hq
      have hcons : j = i → consumes (cfg i) (.read (some n) p (some true) (some st) : RdOp K V) = true := by
        intro e; simp [consumes, hqp e]
      split at hs <;> (rename_i hc; injection hs with hs; subst hs)
      · exact hread _ _ _ _ hc hcons (by rw [received_emit]; simp [CEvt.items, outItems]) rfl rfl
          (hpcs _ _ (fun _ => trivial) (fun _ => by simp only [Cons.emit, hpcc _ _ _ hc]; exact hq))
      · exact hread _ _ _ _ hc hcons (by simp [outItems, Ret.items]; rfl) rfl rfl
          (hpcs _ _ hqp (fun _ => by rw [hpcc _ _ _ hc]; exact hq))
      · exact hread _ _ _ _ hc hcons (by rw [received_emit]; simp [CEvt.items, outItems]) rfl rfl
          (hpcs _ _ (fun _ => trivial) (fun _ => by simp only [Cons.emit, hpcc _ _ _ hc]; exact hq))
    · rename_i n p st hpc
      split at hs <;> (injection hs with hs; subst hs)
      · exact hemit _ _ _ rfl rfl rfl rfl rfl trivial
      · exact hgoto _ (fun e => by subst e; rw [hpc] at hq; exact hq)
    · rename_i n p st hpc
      injection hs with hs; subst hs
      exact hgoto _ (fun e => by subst e; rw [hpc] at hq; exact hq)

omit [ReflBEq V] in
theorem received_delivered (i : Nat) (hpk : (cfg i).peek = false) {as : List (CAct K V)} (ha : ∀ a ∈ as, OneUser i a)
    (he : (Cons.init key kn m cfg).exec cfg as = some s) :
    received s i = delivered cfg i s.ops s.outs ∧ OnlyReads cfg i s.ops := by
  have := Cons.exec_ind' (P := fun s : Cons K V => s.outs.length = s.ops.length ∧ quietPC (s.pc i) ∧
      received s i = delivered cfg i s.ops s.outs ∧ OnlyReads cfg i s.ops) (A := OneUser i)
    (fun s a s' hP hA hs => by
      obtain ⟨h1, h2, h3, h4⟩ := received_delivered_step i hpk hA hs hP.1 hP.2.1 hP.2.2.1
      refine ⟨h1, h2, h3, fun o ho => ?_⟩
      rcases h4 o ho with h | h
      · exact hP.2.2.2 o h
      · exact h) as ⟨rfl, (show quietPC .idle from trivial), rfl, fun o ho => by simp [Cons.init] at ho⟩ ha he
  exact this.2.2

omit [ReflBEq V] in
theorem exec_ops {as : List (CAct K V)} (he : s.exec cfg as = some s') : s.ops <+: s'.ops := by
  refine Cons.exec_ind (P := fun t => s.ops <+: t.ops) (fun t a t' hP hs => ?_) as (List.prefix_refl _) he
  rcases Cons.step_call hs with ⟨_, h, _⟩ | ⟨op, _, h, _⟩
  · rw [h]; exact hP
  · rw [h]; exact hP.trans (List.prefix_append _ _)

omit [ReflBEq V] in
theorem step_received {a : CAct K V} (hs : s.step cfg a = some s') (i : Nat) : received s i <+: received s' i := by
  rcases step_emits hs with h | ⟨j, e, h, -⟩
  · simp only [received, Cons.evtsOf, h]; exact List.prefix_refl _
  · simp only [received, Cons.evtsOf, h, List.filter_append, List.map_append, List.flatMap_append]
    exact List.prefix_append _ _

theorem appended_prefix {a b : List (ChOp K V)} (h : a <+: b) : appended a <+: appended b := by
  obtain ⟨c, rfl⟩ := h
  rw [appended_append]; exact List.prefix_append _ _

/-- **C26**, for a loop whose last read comes after the stop event: take any state (after `as0`) in which the stream is stopped and the loop is
not between its read and its look at the stop event. If the loop ends by itself later (whatever happens meanwhile, further appends included),
everything appended before that state has been received, in order. Provisos: the loop does not peek and is the only user of its reader;
`strict_n` is off; appended keys increase; no item is evicted unread (`hover`, as in `C13_no_gap`).
Missing: loops whose last read comes before the stop event (`C26_refuted`). -/
theorem C26_loop_complete_partial (i : Nat) (hpk : (cfg i).peek = false) (hst : (cfg i).strict = false)
    (as0 as1 : List (CAct K V)) (hu : ∀ a ∈ as0 ++ as1, OneUser i a) (hnc : ∀ a ∈ as1, NoCalls i a)
    (he0 : (Cons.init key kn m cfg).exec cfg as0 = some s) (he1 : s.exec cfg as1 = some s')
    (hstop : s.stopped = true) (hpc : BetweenReads (s.pc i)) (hend : s'.pc i = .idle)
    (hinc : (appended s'.ops).Pairwise (fun v w => key v < key w))
    (hover : ∀ k, (appended (s'.ops.take k)).length ≤ (Ch.run (Ch.init key kn m cfg) (s'.ops.take k)).1.buf.items.length +
      (delivered cfg i (s'.ops.take k) (Ch.run (Ch.init key kn m cfg) (s'.ops.take k)).2).length) :
    appended s.ops <+: received s' i ∧ s'.evtsOf i ≠ [] ∧ (s'.evtsOf i).getLast? = some .loopDone := by
  -- invariant of the second part of the run
  suffices H : ∀ (as1 as0 : List (CAct K V)) (t : Cons K V), (∀ a ∈ as0 ++ as1, OneUser i a) → (∀ a ∈ as1, NoCalls i a) →
      (Cons.init key kn m cfg).exec cfg as0 = some t → t.exec cfg as1 = some s' → t.stopped = true →
      (BetweenReads (t.pc i) ∨ (t.pc i = .iterCheck ∧ appended s.ops <+: received t i) ∨
        (t.pc i = .idle ∧ appended s.ops <+: received t i ∧ (t.evtsOf i).getLast? = some .loopDone)) → s.ops <+: t.ops →
      appended s.ops <+: received s' i ∧ (s'.evtsOf i).getLast? = some .loopDone by
    obtain ⟨h1, h2⟩ := H as1 as0 s hu hnc he0 he1 hstop (.inl hpc) (List.prefix_refl _)
    exact ⟨h1, fun h => by rw [h] at h2; simp at h2, h2⟩
  intro as1
  induction as1 with
  | nil =>
    intro as0 t _ _ _ he _ h _
    simp only [Cons.exec, Option.some.injEq] at he; subst he
    rw [hend] at h
    rcases h with h | ⟨h, _⟩ | ⟨_, h1, h2⟩
    · exact h.elim
    · exact absurd h (by decide)
    · exact ⟨h1, h2⟩
  | cons a as1 ih =>
    intro as0 t hU hN h0 h1 hts hI hpre
    have h1' := h1
    simp only [Cons.exec] at h1
    split at h1
    swap
    · simp at h1
    rename_i t' hs
    have h0' : (Cons.init key kn m cfg).exec cfg (as0 ++ [a]) = some t' := by
      rw [Cons.exec_append, h0]; simp only [Option.bind, Cons.exec, hs]
    have hts' : t'.stopped = true := C25_stop_is_permanent (cfg := cfg) (as := [a]) (by simp only [Cons.exec, hs]) hts
    have hpre' : s.ops <+: t'.ops := hpre.trans (exec_ops (cfg := cfg) (as := [a]) (by simp only [Cons.exec, hs]))
    refine ih (as0 ++ [a]) t' (by simpa using hU) (fun b hb => hN b (by simp [hb])) h0' h1 hts' ?_ hpre'
    have hreach : t.Reach key kn m cfg := ⟨as0, h0⟩
    have hrec := step_received hs i
    by_cases hgo : a = .go i
    · subst hgo
      simp only [Cons.step] at hs
      rcases hI with hI | ⟨hI, hI2⟩ | ⟨hI, _⟩
      · cases hpc' : t.pc i with
        | iterRead =>
          obtain ⟨k1, _, k3, k4⟩ := iter_read_step hreach i hst hpk hpc' hs
          rcases k4 with ⟨k4, k5, k6⟩ | ⟨_, k5, _⟩
          · refine .inr (.inl ⟨k5, ?_⟩)
            -- nothing unread: everything appended has been delivered
            obtain ⟨hr1, hr2⟩ := received_delivered i hpk (fun b hb => hU b (by simp [hb])) h0
            obtain ⟨rest, hrest⟩ := exec_ops h1'
            have htk : ∀ k, k ≤ t.ops.length → s'.ops.take k = t.ops.take k := by
              intro k hk; rw [← hrest, List.take_append_of_le_length hk]
            have hg := C13_no_gap key kn m cfg i t.ops hr2 (hinc.sublist (appended_prefix (exec_ops h1')).sublist) (fun k => by
              by_cases hk : k ≤ t.ops.length
              · have := hover k
                rwa [htk k hk] at this
              · have := hover t.ops.length
                rw [htk _ (le_refl _)] at this
                simpa [List.take_of_length_le (by omega : t.ops.length ≤ k)] using this)
            rw [hreach.run] at hg
            rw [unreadOf_eq hreach.ch] at k4
            simp only [k4, List.append_nil] at hg
            refine List.IsPrefix.trans ?_ hrec
            rw [hr1, hg]
            exact appended_prefix hpre
          · exact .inl (by rw [k5]; trivial)
        | iterYield | iterSleep =>
          simp only [Cons.go, hpc', Option.some.injEq] at hs
          subst hs
          exact .inl (by simp [Cons.goto, BetweenReads])
        | _ => rw [hpc'] at hI; exact hI.elim
      · simp only [Cons.go, hI, hts, if_true, Option.some.injEq] at hs
        subst hs
        refine .inr (.inr ⟨by simp [Cons.goto], hI2.trans hrec, ?_⟩)
        have : ((t.emit i .loopDone).goto i .idle).evtsOf i = (t.emit i .loopDone).evtsOf i := rfl
        rw [this, Cons.evtsOf_emit, if_pos rfl]; simp
      · simp [Cons.go, hI] at hs
    · -- somebody else's step
      have hsame : t'.pc i = t.pc i ∧ t'.evtsOf i = t.evtsOf i := by
        cases a with
        | call op => simp only [Cons.step, Option.some.injEq] at hs; subst hs; exact ⟨rfl, rfl⟩
        | setStop => simp only [Cons.step, Option.some.injEq] at hs; subst hs; exact ⟨rfl, rfl⟩
        | callNext j | callIter j | callRead j n p st | leave j =>
          have hj : j ≠ i := by have := hN _ List.mem_cons_self; simpa [NoCalls] using this
          simp only [Cons.step] at hs
          split at hs
          · injection hs with hs; subst hs; exact ⟨by simp [Cons.goto, hj.symm], rfl⟩
          · simp at hs
        | go j =>
          have := Cons.go_frame (i := i) (fun e => hgo (by rw [e])) hs
          exact ⟨this.pc, this.evts⟩
      rw [hsame.1, hsame.2]
      rcases hI with hI | ⟨hI, hI2⟩ | ⟨hI, hI2, hI3⟩
      · exact .inl hI
      · exact .inr (.inl ⟨hI, hI2.trans hrec⟩)
      · exact .inr (.inr ⟨hI, hI2.trans hrec, hI3⟩)

/-! ### C27 -/

omit [ReflBEq V] in
/-- **C27** a blocking read returns `None` only when the stream is stopped. -/
theorem C27_none_only_stopped {a : CAct K V} (hs : s.step cfg a = some s') (i : Nat) (he : s'.evts = s.evts ++ [(i, .readRet .none)]) :
    s.stopped = true := by
  rcases step_emits hs with h | ⟨j, e, h, h1, -, -⟩
  · rw [h] at he; simp at he
  · rw [h] at he
    simp only [List.append_cancel_left_eq, List.cons.injEq, Prod.mk.injEq, and_true] at he
    exact h1 (.inr (.inr he.2))

/-- What the read inside a blocking read does: with something unread it hands out the next `n` items (or, with `strict_n`, raises
`ValueError` if there are not more than `n`); with nothing unread it goes on waiting. -/
theorem C27_read (h : s.Reach key kn m cfg) (i : Nat) (n : Int) (p : Option Bool) (st : Bool) (hpc : s.pc i = .blkRead n p st) :
    ∃ s', s.step cfg (.go i) = some s' ∧
      (unreadOf s.ch i = [] → s'.pc i = .blkCheck n p st ∧ s'.evtsOf i = s.evtsOf i) ∧
      (unreadOf s.ch i ≠ [] → (st = false ∨ n ≤ 1 ∨ n < (unreadOf s.ch i).length) →
        s'.pc i = .idle ∧ s'.evtsOf i = s.evtsOf i ++ [.readRet (chunkOf n (unreadOf s.ch i))]) ∧
      (unreadOf s.ch i ≠ [] → st = true → 1 < n → (unreadOf s.ch i).length ≤ n →
        s'.pc i = .idle ∧ s'.evtsOf i = s.evtsOf i ++ [.raised .valueError]) := by
  have h1 := (h.ch.rd i (.read (some n) p (some true) (some st))).1
  simp only [Spec.rdStep, Option.getD_some] at h1
  have hres : (s.call (.rd i (.read (some n) p (some true) (some st)))).2 =
      Spec.read key s.ch.buf.items (s.ch.readers i).lastItem n true st := h1
  have hev : ∀ (t : Cons K V) (e : CEvt V) (q : CPC), ((t.emit i e).goto i q).evtsOf i = t.evtsOf i ++ [e] := by
    intro t e q
    have : ((t.emit i e).goto i q).evtsOf i = (t.emit i e).evtsOf i := rfl
    rw [this, Cons.evtsOf_emit, if_pos rfl]
  rw [unreadOf_eq h.ch]
  simp only [Cons.step, Cons.go, hpc]
  unfold Spec.read at hres
  cases hu : unread key s.ch.buf.items (s.ch.readers i).lastItem with
  | nil =>
    rw [hu] at hres
    simp only [noItem, if_true] at hres
    rw [← Prod.eta (s.call _), hres]
    exact ⟨_, rfl, fun _ => ⟨by simp [Cons.goto], rfl⟩, by simp, by simp⟩
  | cons v vs =>
    rw [hu] at hres
    simp only at hres
    by_cases hn : n ≤ 1
    · simp only [hn, if_true] at hres
      rw [← Prod.eta (s.call _), hres]
      refine ⟨_, rfl, by simp, fun _ _ => ⟨by simp [Cons.goto], ?_⟩, fun _ _ h' => by omega⟩
      rw [hev]; simp only [chunkOf, hn, if_true]; rfl
    · simp only [hn, if_false] at hres
      by_cases hc : st = true ∧ ((v :: vs).length : Int) ≤ n
      · rw [if_pos (by simpa using hc)] at hres
        rw [← Prod.eta (s.call _), hres]
        refine ⟨_, rfl, by simp, fun _ h' => ?_, fun _ _ _ _ => ⟨by simp [Cons.goto], ?_⟩⟩
        · rcases h' with h' | h' | h'
          · rw [hc.1] at h'; simp at h'
          · exact absurd h' hn
          · omega
        · rw [hev]; rfl
      · rw [if_neg (by simpa using hc)] at hres
        rw [← Prod.eta (s.call _), hres]
        refine ⟨_, rfl, by simp, fun _ _ => ⟨by simp [Cons.goto], ?_⟩, fun _ h1' _ h2' => ?_⟩
        · rw [hev]; simp only [chunkOf, hn, if_false]; rfl
        · exact absurd ⟨h1', h2'⟩ hc

omit [ReflBEq V] in
/-- **C27** the waiting part: after a read that found nothing, `None` if the stream is stopped, else sleep and read again. -/
theorem C27_wait (i : Nat) (n : Int) (p : Option Bool) (st : Bool) :
    (s.pc i = .blkCheck n p st → ∃ s', s.step cfg (.go i) = some s' ∧
      (s.stopped = true → s'.pc i = .idle ∧ s'.evtsOf i = s.evtsOf i ++ [.readRet .none]) ∧
      (s.stopped = false → s'.pc i = .blkSleep n p st ∧ s'.evtsOf i = s.evtsOf i)) ∧
    (s.pc i = .blkSleep n p st → ∃ s', s.step cfg (.go i) = some s' ∧ s'.pc i = .blkRead n p st ∧ s'.evtsOf i = s.evtsOf i) := by
  refine ⟨fun h => ?_, fun h => ?_⟩
  · simp only [Cons.step, Cons.go, h]
    cases hst : s.stopped with
    | true =>
      refine ⟨_, rfl, fun _ => ⟨by simp [Cons.goto], ?_⟩, by simp⟩
      have : ((s.emit i (.readRet .none)).goto i .idle).evtsOf i = (s.emit i (.readRet .none)).evtsOf i := rfl
      rw [this, Cons.evtsOf_emit, if_pos rfl]
    | false => exact ⟨_, rfl, by simp, fun _ => ⟨by simp [Cons.goto], rfl⟩⟩
  · simp only [Cons.step, Cons.go, h]
    exact ⟨_, rfl, by simp [Cons.goto], rfl⟩

/-- **C27** while the stream is running a blocking read never raises for lack of data and never returns `None`: in every execution, an answer
observed by a consumer while the stream is running is not `None`; and an exception only comes with `strict_n` and something unread. -/
theorem C27_raises_only_strict (h : s.Reach key kn m cfg) (i : Nat) (n : Int) (p : Option Bool) (st : Bool) (hpc : s.pc i = .blkRead n p st)
    (hs : s.step cfg (.go i) = some s') (e : PyErr) (he : s'.evtsOf i = s.evtsOf i ++ [.raised e]) :
    e = .valueError ∧ st = true ∧ 1 < n ∧ unreadOf s.ch i ≠ [] ∧ (unreadOf s.ch i).length ≤ n := by
  obtain ⟨t, ht, h1, h2, h3⟩ := C27_read h i n p st hpc
  rw [hs] at ht; injection ht with ht; subst ht
  by_cases hu : unreadOf s.ch i = []
  · rw [(h1 hu).2] at he; simp at he
  · by_cases hc : st = false ∨ n ≤ 1 ∨ n < (unreadOf s.ch i).length
    · rw [(h2 hu hc).2] at he; simp at he
    · have hst : st = true := by cases st <;> simp_all
      have hn : 1 < n := by omega
      have hl : (unreadOf s.ch i).length ≤ n := by omega
      rw [(h3 hu hst hn hl).2] at he
      simp only [List.append_cancel_left_eq, List.cons.injEq, and_true, CEvt.raised.injEq] at he
      exact ⟨he.symm, hst, hn, hu, hl⟩

/-- **C27** once there is something unread, three steps of the waiting consumer are enough to get it, wherever in its loop it is
(unless the stream is stopped just after a read that found nothing). -/
theorem C27_returns (h : s.Reach key kn m cfg) (i : Nat) (n : Int) (p : Option Bool) (st : Bool)
    (hpc : s.pc i = .blkRead n p st ∨ (s.pc i = .blkCheck n p st ∧ s.stopped = false) ∨ s.pc i = .blkSleep n p st)
    (hu : unreadOf s.ch i ≠ []) (hst : st = false ∨ n ≤ 1) :
    ∃ k s', k ≤ 3 ∧ s.exec cfg (List.replicate k (.go i)) = some s' ∧ s'.pc i = .idle ∧
      s'.evtsOf i = s.evtsOf i ++ [.readRet (chunkOf n (unreadOf s.ch i))] := by
  have hst' : st = false ∨ n ≤ 1 ∨ n < (unreadOf s.ch i).length := by
    rcases hst with h | h
    · exact .inl h
    · exact .inr (.inl h)
  have hrd : ∀ t : Cons K V, t.Reach key kn m cfg → t.pc i = .blkRead n p st → unreadOf t.ch i = unreadOf s.ch i → t.evtsOf i = s.evtsOf i →
      ∃ s', t.exec cfg [.go i] = some s' ∧ s'.pc i = .idle ∧ s'.evtsOf i = s.evtsOf i ++ [.readRet (chunkOf n (unreadOf s.ch i))] := by
    intro t ht htp htu hte
    obtain ⟨s', h1, _, h3, _⟩ := C27_read ht i n p st htp
    rw [htu] at h3
    obtain ⟨h4, h5⟩ := h3 hu hst'
    exact ⟨s', by simp only [Cons.exec, h1], h4, by rw [h5, hte]⟩
  have hsl : ∀ t : Cons K V, t.Reach key kn m cfg → t.pc i = .blkSleep n p st → unreadOf t.ch i = unreadOf s.ch i → t.evtsOf i = s.evtsOf i →
      ∃ s', t.exec cfg [.go i, .go i] = some s' ∧ s'.pc i = .idle ∧ s'.evtsOf i = s.evtsOf i ++ [.readRet (chunkOf n (unreadOf s.ch i))] := by
    intro t ht htp htu hte
    have h1 : t.step cfg (.go i) = some (t.goto i (.blkRead n p st)) := by simp only [Cons.step, Cons.go, htp]
    obtain ⟨s', h2⟩ := hrd (t.goto i (.blkRead n p st)) (ht.exec (as := [.go i]) (by simp only [Cons.exec, h1])) (by simp [Cons.goto]) htu hte
    exact ⟨s', by rw [Cons.exec, h1]; exact h2.1, h2.2⟩
  rcases hpc with hpc | ⟨hpc, hns⟩ | hpc
  · obtain ⟨s', h1⟩ := hrd s h hpc rfl rfl
    exact ⟨1, s', by omega, h1⟩
  · have h1 : s.step cfg (.go i) = some (s.goto i (.blkSleep n p st)) := by
      simp [Cons.step, Cons.go, hpc, hns]
    obtain ⟨s', h2⟩ := hsl (s.goto i (.blkSleep n p st)) (h.exec (as := [.go i]) (by simp only [Cons.exec, h1])) (by simp [Cons.goto]) rfl rfl
    refine ⟨3, s', by omega, ?_, h2.2⟩
    change s.exec cfg [.go i, .go i, .go i] = _
    rw [Cons.exec, h1]; exact h2.1
  · obtain ⟨s', h1⟩ := hsl s h hpc rfl rfl
    exact ⟨2, s', by omega, h1⟩

end props

/-! ### The race at the end of a stream, and the hypotheses are met -/

/-- The loop reads and finds nothing; the last item is appended and the stream stopped; the loop looks at the stop event. -/
def exRace : List (CAct Nat Nat) := [.callIter 0, .go 0, .call (.append 7), .setStop, .go 0]

/-- **C26 is false**: the loop ends by itself, an item appended before the stop event was set is retained and was never yielded. -/
theorem C26_refuted : ∃ s : Cons Nat Nat, (Cons.init id (.error .typeError) none (fun _ => Cfg.default)).exec (fun _ => Cfg.default) exRace = some s ∧
    s.evtsOf 0 = [.loopDone] ∧ s.pc 0 = .idle ∧ appended s.ops = [7] ∧ s.ch.buf.items = [7] ∧ received s 0 = [] ∧ unreadOf s.ch 0 = [7] := by
  refine ⟨_, rfl, ?_⟩
  decide

/-- The same race makes `next` raise `StopIteration` with an item unread. -/
theorem C25_stop_iteration_race : ∃ s : Cons Nat Nat, (Cons.init id (.error .typeError) none (fun _ => Cfg.default)).exec (fun _ => Cfg.default)
    [.callNext 0, .go 0, .call (.append 7), .setStop, .go 0] = some s ∧ s.evtsOf 0 = [.stopIteration] ∧ unreadOf s.ch 0 = [7] := by
  refine ⟨_, rfl, ?_⟩
  decide

/-- And a blocking read return `None` with an item unread. -/
theorem C27_none_race : ∃ s : Cons Nat Nat, (Cons.init id (.error .typeError) none (fun _ => Cfg.default)).exec (fun _ => Cfg.default)
    [.callRead 0 none none none, .go 0, .call (.append 7), .setStop, .go 0] = some s ∧ s.evtsOf 0 = [.readRet .none] ∧ unreadOf s.ch 0 = [7] := by
  refine ⟨_, rfl, ?_⟩
  decide

/-- C25, C26: chunks of 2, five items, another reader meanwhile. -/
def exCfg2 : Nat → Cfg := fun i => if i = 0 then { Cfg.default with n := 2 } else Cfg.default
def exFill : List (CAct Nat Nat) := [1, 2, 3, 4, 5].map (fun v => .call (.append v)) ++ [.setStop]

example : ∃ s : Cons Nat Nat, (Cons.init id (.error .typeError) (some 10) exCfg2).exec exCfg2
    (exFill ++ [.callNext 0, .go 0, .callNext 1, .callNext 0, .go 1, .go 0, .callNext 0, .go 0, .callNext 0, .go 0, .go 0, .callNext 0, .go 0, .go 0]) = some s ∧
    s.evtsOf 0 = [.next (.many [1, 2]), .next (.many [3, 4]), .next (.many [5]), .stopIteration, .stopIteration] := by
  refine ⟨_, rfl, ?_⟩
  decide

/-- **C26** for a whole loop over a stopped stream, from the `for` statement itself: whatever is unread when the loop is begun is handed
out, chunk by chunk in order, and only then does the loop end. -/
theorem C26_loop_on_stopped {K V : Type} [LinearOrder K] [BEq V] [ReflBEq V] {key : V → K} {kn : Py (Option K)} {m : Option Nat} {cfg : Nat → Cfg}
    {s s' : Cons K V} (h : s.Reach key kn m cfg) (hstop : s.stopped = true) (i : Nat) (hp : (cfg i).peek = false)
    (hst : (cfg i).strict = false) (as : List (CAct K V)) (hl : ∀ a ∈ as, LeavesAlone i a ∧ NoCalls i a)
    (he : s.exec cfg (.callIter i :: as) = some s') :
    ∃ n, (∀ k < n, (unreadOf s.ch i).drop (k * chunkSize (cfg i).n) ≠ []) ∧
      (s'.pc i ≠ .idle → s'.evtsOf i = s.evtsOf i ++
        (List.range n).map (fun k => .yielded (chunkOf (cfg i).n ((unreadOf s.ch i).drop (k * chunkSize (cfg i).n))))) ∧
      (s'.pc i = .idle → (unreadOf s.ch i).drop (n * chunkSize (cfg i).n) = [] ∧ s'.evtsOf i = s.evtsOf i ++
        (List.range n).map (fun k => .yielded (chunkOf (cfg i).n ((unreadOf s.ch i).drop (k * chunkSize (cfg i).n)))) ++ [.loopDone]) := by
  rw [Cons.exec] at he
  split at he
  case h_2 => cases he
  case h_1 t ht =>
    have hr : t.Reach key kn m cfg := h.exec (as := [.callIter i]) (by simp only [Cons.exec, ht])
    simp only [Cons.step] at ht
    split at ht
    · injection ht with ht
      subst ht
      exact C26_loop_after_stop hr hstop i hp hst (by simp [Cons.goto, BetweenReads]) as hl he
    · cases ht

/-- C26_loop_on_stopped: a loop begun after the stop event hands out five items in chunks of two and ends. -/
example : ∃ s s' : Cons Nat Nat, (Cons.init id (.error .typeError) (some 10) exCfg2).exec exCfg2 exFill = some s ∧ s.stopped = true ∧
    s.exec exCfg2 (.callIter 0 :: List.replicate 8 (.go 0)) = some s' ∧ s'.pc 0 = .idle ∧
    s'.evtsOf 0 = [.yielded (.many [1, 2]), .yielded (.many [3, 4]), .yielded (.many [5]), .loopDone] := by
  refine ⟨_, _, rfl, rfl, rfl, ?_⟩
  decide

/-- C26_loop_complete_partial, C26_loop_after_stop: a loop that waits, gets items, and ends after the stop event; one more item is
appended after it. -/
def exLoop0 : List (CAct Nat Nat) := [.callIter 0, .go 0, .go 0, .go 0, .go 0, .call (.append 1), .call (.append 2), .call (.append 3), .setStop]
def exLoop1 : List (CAct Nat Nat) := [.go 0, .go 0, .call (.append 4), .go 0, .go 0, .go 0, .go 0]

example : ∃ s s' : Cons Nat Nat, (Cons.init id (.error .typeError) none exCfg2).exec exCfg2 exLoop0 = some s ∧ s.exec exCfg2 exLoop1 = some s' ∧
    s.stopped = true ∧ BetweenReads (s.pc 0) ∧ s'.pc 0 = .idle ∧ appended s.ops = [1, 2, 3] ∧ received s' 0 = [1, 2, 3, 4] ∧
    (appended s'.ops).Pairwise (· < ·) := by
  refine ⟨_, _, rfl, rfl, ?_⟩
  refine ⟨by decide, trivial, by decide, by decide, by decide, by decide⟩

example : (∀ a ∈ exLoop0 ++ exLoop1, OneUser 0 a) ∧ ∀ a ∈ exLoop1, NoCalls 0 a := by
  simp [exLoop0, exLoop1, OneUser, NoCalls]

/-- The hypotheses of `C26_loop_complete_partial` all hold for that run. -/
example : ∃ s s' : Cons Nat Nat, (Cons.init id (.error .typeError) none exCfg2).exec exCfg2 exLoop0 = some s ∧ s.exec exCfg2 exLoop1 = some s' ∧
    appended s.ops <+: received s' 0 ∧ s'.evtsOf 0 ≠ [] ∧ (s'.evtsOf 0).getLast? = some .loopDone := by
  refine ⟨_, _, rfl, rfl, C26_loop_complete_partial (key := id) (kn := .error .typeError) (m := none) (cfg := exCfg2) 0 rfl rfl exLoop0 exLoop1
    (by simp [exLoop0, exLoop1, OneUser]) (by simp [exLoop1, NoCalls]) rfl rfl (by decide) trivial (by decide) (by decide) ?_⟩
  intro k
  by_cases hk : k ≤ 8
  · revert k; decide
  · rw [List.take_of_length_le]
    · decide
    · exact Nat.le_trans (by decide) (Nat.le_of_lt (Nat.lt_of_not_le hk))

/-- C27: waiting, then three items at once. -/
example : ∃ s : Cons Nat Nat, (Cons.init id (.error .typeError) none exCfg2).exec exCfg2
    [.callRead 0 (some 3) none none, .go 0, .go 0, .go 0, .go 0, .call (.append 1), .call (.append 2), .go 0, .go 0, .go 0] = some s ∧
    s.evtsOf 0 = [.readRet (.many [1, 2])] := by
  refine ⟨_, rfl, ?_⟩
  decide

end S2P
