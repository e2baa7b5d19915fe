import Verif.Proofs.LinearLive
import Verif.Props.RWLock
/-
C67: calls of concurrent threads behave as if executed one at a time. `Spec.Linearizes` (Spec/Linear.lean) is linearizability; the sequential
executions are those of Model/Channel.lean, about which C11–C27 are stated; the concurrent ones are those of Model/Linear.lean, where a
step is one statement of the lock, one mutation or one access to the buffer.
-/
namespace S2P
open LM RW

/-- C67: whatever the threads do with a buffer and its readers (calls on one reader do not overlap), in whatever order their statements are
executed, the calls have a sequential order that explains all results and keeps the order of calls that do not overlap; and when no call is in
progress, buffer and readers are as that sequential execution leaves them. -/
theorem C67_linearizable {K V : Type} [LinearOrder K] [BEq V] (n : Nat) (key : V → K) (keyNone : Py (Option K)) (maxlen : Option Nat)
    (cfg : Nat → Cfg) (as : List (LAct K V)) {s : LM K V} (h : (LM.init n key keyNone maxlen cfg).exec as = some s)
    (hx : ∀ r, Spec.NonOverlapping (onReader r) s.hist) :
    ∃ S, Spec.Linearizes (fun l => ((Ch.init key keyNone maxlen cfg).run (l.map (·.1))).2 = l.map (·.2)) s.hist S ∧
      ((∀ i, s.pend i = none) → ((Ch.init key keyNone maxlen cfg).run (S.map (·.2.1))).1 = ⟨s.m.data, s.readers⟩) := by
  obtain ⟨h1, h2⟩ := inv_init n key keyNone maxlen cfg
  obtain ⟨hA, hH⟩ := inv_exec as hx h1 h2 h
  have hat : (Ch.init key keyNone maxlen cfg).run (s.lin.map (·.2.1)) = _ := hA.atom
  refine ⟨s.lin, ⟨?_, hH.once, hH.lin, hH.ret, hH.order⟩, fun hq => ?_⟩
  · simp only [List.map_map]
    have := congrArg Prod.snd hat
    exact this
  · rw [hat, hA.data_eq]
    intro t ht hp
    obtain ⟨i, hi⟩ := List.getElem?_of_mem ht
    have := hA.thr i t hi
    rw [hq i] at this
    simp only [ThOk] at this
    rw [this] at hp; simp at hp

/-- C67: a call in progress is held up only by the lock: the thread can execute its next statement exactly when the lock lets it. -/
theorem C67_waits_only_for_lock {K V : Type} [LinearOrder K] [BEq V] (n : Nat) (key : V → K) (keyNone : Py (Option K)) (maxlen : Option Nat)
    (cfg : Nat → Cfg) (as : List (LAct K V)) {s : LM K V} (h : (LM.init n key keyNone maxlen cfg).exec as = some s)
    (hx : ∀ r, Spec.NonOverlapping (onReader r) s.hist) (i : Nat) (hp : (s.pend i).isSome = true) :
    (s.step (.go i)).isSome = (s.m.step bufBody (.go i)).isSome := by
  obtain ⟨h1, h2⟩ := inv_init n key keyNone maxlen cfg
  obtain ⟨hA, hH, hB⟩ := all_exec as hx h1 h2 (fun i p r op t hp => by simp [LM.init] at hp) h
  obtain ⟨p, hp⟩ := Option.isSome_iff_exists.1 hp
  cases ht : s.m.th[i]? with
  | none => simp [step, hp, ht, M.step]
  | some t => exact go_iff hA hB hp ht

/-- C67: calls do not run for ever: from any state, threads that make no new calls execute finitely many statements, however they are scheduled. -/
theorem C67_no_endless_run {K V : Type} [LinearOrder K] [BEq V] (f : Nat → LM K V) : ¬ ∀ k, ∃ i, (f k).step (.go i) = some (f (k + 1)) := by
  intro h
  have : ∀ s : LM K V, ∀ k, f k ≠ s := by
    intro s
    refine (LM.go_wf (K := K) (V := V)).induction (C := fun s => ∀ k, f k ≠ s) s ?_
    · intro s ih k e
      obtain ⟨i, hi⟩ := h k
      exact ih (f (k + 1)) ⟨i, by rw [← e]; exact hi⟩ (k + 1) rfl
  exact this _ 0 rfl

/-- C67: calls do not wait for each other for ever: when no thread can go on, every call has returned, provided none of the calls in progress is a
`range(…, only_new_items=True)`, which takes the reader lock a second time and can deadlock (C30). With `C67_no_endless_run`: threads that make no new
calls, scheduled in whatever way as long as one that can go on does, finish their calls. -/
theorem C67_calls_return {K V : Type} [LinearOrder K] [BEq V] (n : Nat) (key : V → K) (keyNone : Py (Option K)) (maxlen : Option Nat)
    (cfg : Nat → Cfg) (as : List (LAct K V)) {s : LM K V} (h : (LM.init n key keyNone maxlen cfg).exec as = some s)
    (hx : ∀ r, Spec.NonOverlapping (onReader r) s.hist) (hn : ∀ i p, s.pend i = some p → ¬ nests p.call) (hstuck : ∀ i, s.step (.go i) = none) :
    ∀ i, s.pend i = none := by
  obtain ⟨h1, h2⟩ := inv_init n key keyNone maxlen cfg
  obtain ⟨hA, hH, hB⟩ := all_exec as hx h1 h2 (fun i p r op t hp => by simp [LM.init] at hp) h
  have hL := live_exec as hx h1 h2 ⟨fun i p hp => by simp [LM.init] at hp, fun i p t hp => by simp [LM.init] at hp⟩ h
  intro i
  cases hp : s.pend i with
  | none => rfl
  | some p =>
    obtain ⟨j, s', hj⟩ := no_deadlock hA hB hL hn hp
    rw [hstuck j] at hj
    simp at hj

/-- Only the threads there are have calls in progress. -/
theorem LM.pend_bound {K V : Type} [LinearOrder K] [BEq V] (n : Nat) (key : V → K) (keyNone : Py (Option K)) (maxlen : Option Nat)
    (cfg : Nat → Cfg) (as : List (LAct K V)) {s : LM K V} (h : (LM.init n key keyNone maxlen cfg).exec as = some s)
    (hx : ∀ r, Spec.NonOverlapping (onReader r) s.hist) (i : Nat) (hi : s.m.th.length ≤ i) : s.pend i = none := by
  obtain ⟨h1, h2⟩ := inv_init n key keyNone maxlen cfg
  have hL := live_exec as hx h1 h2 ⟨fun i p hp => by simp [LM.init] at hp, fun i p t hp => by simp [LM.init] at hp⟩ h
  cases hp : s.pend i with
  | none => rfl
  | some p =>
    obtain ⟨t, ht⟩ := hL.thread i p hp
    have := (List.getElem?_eq_some_iff.1 ht).1
    omega

/-- Mutations of a `drop` never lengthen the items. -/
theorem dropMuts_shrink {K V : Type} [LT K] [DecidableLT K] (n : Nat) : ∀ (s : SD K V) (f : SD K V → SD K V), f ∈ dropMuts n s →
    ∀ x, (f x).items.length ≤ x.items.length := by
  induction n with
  | zero => intro s f hf; simp [dropMuts] at hf
  | succ n ih =>
    intro s f hf x
    simp only [dropMuts] at hf
    split at hf
    · simp at hf
    · rcases List.mem_cons.1 hf with rfl | hf
      · exact Nat.le_refl _
      · split at hf
        · simp at hf
        · rcases List.mem_cons.1 hf with rfl | hf
          · exact List.length_eraseIdx_le ..
          · exact ih _ f hf x

theorem foldl_shrink {D : Type} {g : D → Nat} (fs : List (D → D)) (h : ∀ f ∈ fs, ∀ x, g (f x) ≤ g x) (x : D) : g (fs.foldl (fun x f => f x) x) ≤ g x := by
  induction fs generalizing x with
  | nil => exact Nat.le_refl _
  | cons f fs ih => exact Nat.le_trans (ih (fun f hf => h f (List.mem_cons_of_mem _ hf)) _) (h f List.mem_cons_self x)

/-- C67: the length of the buffer taken without the lock, at any moment, e.g. in the middle of a `drop` (`len(self.source_buffer)`, stream_buffer.py 49-50, 256;
`if self.source_buffer`, 226), compares with any bound as it does before or after the operation in progress: a test like "is there room" gives an answer
it could have given between two operations. -/
theorem C67_unlocked_len {K V : Type} [LT K] [DecidableLT K] {n : Nat} {b : SD K V} {m : M (SD K V) (WOp V)} (h : Reach bufBody n b m) (bound : Nat) :
    ∃ ops, (ops = m.done ∨ ∃ t ∈ m.th, t.pc = .wCS ∧ ∃ op, t.op = some op ∧ ops = m.done ++ [op]) ∧
      (m.data.len < bound ↔ (afterOps (fun s op => bufAtomic op s) b ops).len < bound) := by
  by_cases hq : ∀ t ∈ m.th, t.pc ≠ .wCS
  · exact ⟨m.done, .inl rfl, by rw [h.dinv.quiet hq, runBody_buf]; rfl⟩
  · have hq' : ∃ t ∈ m.th, t.pc = .wCS := by
      by_contra hc
      exact hq fun t ht hp => hc ⟨t, ht, hp⟩
    obtain ⟨t, ht, hp⟩ := hq'
    obtain ⟨op, pre, h1, h2, h3⟩ := h.dinv.busy t ht hp
    have hlast : (afterOps (fun s op => bufAtomic op s) b (m.done ++ [op])) = t.prog.foldl (fun x f => f x) m.data := by
      rw [h3, ← List.foldl_append, ← h2, ← runBody_buf]
      simp only [afterOps, List.foldl_append, List.foldl_cons, List.foldl_nil]
      rfl
    have hfirst : m.data = pre.foldl (fun x f => f x) (afterOps (fun s op => bufAtomic op s) b m.done) := by
      rw [h3, ← runBody_buf]; rfl
    have done : ∀ ops, (ops = m.done ∨ ops = m.done ++ [op]) →
        (m.data.len < bound ↔ (afterOps (fun s op => bufAtomic op s) b ops).len < bound) → ∃ ops, (ops = m.done ∨ ∃ t ∈ m.th, t.pc = .wCS ∧
          ∃ op, t.op = some op ∧ ops = m.done ++ [op]) ∧ (m.data.len < bound ↔ (afterOps (fun s op => bufAtomic op s) b ops).len < bound) := by
      intro ops ho hl
      exact ⟨ops, ho.imp id (fun e => ⟨t, ht, hp, op, h1, e⟩), hl⟩
    cases op with
    | drop k =>
      have sh : ∀ f ∈ pre ++ t.prog, ∀ x, (f x).len ≤ x.len := by
        intro f hf x
        rw [← h2] at hf
        exact dropMuts_shrink _ _ f hf x
      have g1 : m.data.len ≤ (afterOps (fun s op => bufAtomic op s) b m.done).len := by
        rw [hfirst]; exact foldl_shrink (g := SD.len) pre (fun f hf => sh f (List.mem_append_left _ hf)) _
      have g2 : (afterOps (fun s op => bufAtomic op s) b (m.done ++ [.drop k])).len ≤ m.data.len := by
        rw [hlast]; exact foldl_shrink (g := SD.len) t.prog (fun f hf => sh f (List.mem_append_right _ hf)) _
      by_cases hb : m.data.len < bound
      · exact done _ (.inr rfl) (by omega)
      · exact done _ (.inl rfl) (by omega)
    | append v =>
      simp only [bufBody] at h2
      split at h2
      · rename_i e
        match pre, t.prog, h2, hfirst, hlast with
        | [], _, h2, hfirst, _ => exact done _ (.inl rfl) (by rw [hfirst]; rfl)
        | [f], g, h2, hfirst, _ =>
          simp only [List.cons_append, List.nil_append, List.cons.injEq] at h2
          refine done _ (.inl rfl) ?_
          rw [hfirst, ← h2.1]; rfl
        | f1 :: f2 :: rest, g, h2, hfirst, hlast =>
          simp only [List.cons_append, List.cons.injEq] at h2
          have hg : g = [] := by
            have := h2.2.2
            rcases rest with _ | ⟨x, l⟩
            · exact this.symm
            · simp at this
          refine done _ (.inr rfl) ?_
          rw [hlast, hg]; rfl
      · have : pre = [] := by cases pre with | nil => rfl | cons x l => simp at h2
        subst this
        exact done _ (.inl rfl) (by rw [hfirst]; rfl)

end S2P
