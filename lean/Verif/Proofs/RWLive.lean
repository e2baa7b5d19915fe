import Verif.Proofs.RWProgress
import Verif.Spec.Run
/- Liveness of the reader-writer lock along infinite, strongly fair executions (C150). -/
namespace S2P.RW
variable {D Op : Type}

/-- The statement executed after the one at a program counter. -/
def PC.nxt : PC → PC
  | .idle => .idle
  | .r1 => .r2 | .r2 => .r3 | .r3 => .r4 | .r4 => .r5 | .r5 => .r6 | .r6 => .r7 | .r7 => .r8 | .r8 => .rCS
  | .rCS => .x1 | .x1 => .x2 | .x2 => .x3 | .x3 => .x4 | .x4 => .idle
  | .w1 => .w2 | .w2 => .w3 | .w3 => .w4 | .w4 => .w5 | .w5 => .wCS
  | .wCS => .y0 | .y0 => .y1 | .y1 => .y2 | .y2 => .y3 | .y3 => .y4 | .y4 => .idle

theorem stmt_nxt {l l' : Lk} {pc pc' : PC} (h : l.stmt pc = some (l', pc')) : pc' = pc.nxt := by
  cases pc <;> simp only [Lk.stmt] at h <;> (repeat' split at h) <;>
    simp only [Option.some.injEq, Prod.mk.injEq, reduceCtorEq] at h <;> exact h.2.symm

/-- Thread `i` is at program counter `p`. -/
def At (m : M D Op) (i : Nat) (p : PC) : Prop := ∃ t, m.th[i]? = some t ∧ t.pc = p

theorem At.uniq {m : M D Op} {i : Nat} {p q : PC} (h : At m i p) (h' : At m i q) : p = q := by
  obtain ⟨t, h1, h2⟩ := h
  obtain ⟨t', h3, h4⟩ := h'
  rw [h1] at h3; injection h3 with h3; subst h3
  rw [← h2, h4]

theorem put_at {m : M D Op} {i j : Nat} {t s : Th D Op} (t' : Th D Op) (hj : m.th[j]? = some s) (hi : m.th[i]? = some t) :
    (m.put i t').th[j]? = some (if i = j then t' else s) := by
  have hl : i < m.th.length := (List.getElem?_eq_some_iff.1 hi).1
  simp only [M.put, List.getElem?_set]
  by_cases h : i = j
  · subst h; simp [hl]
  · simp [h, hj]

/-- What a step other than a nested request does to the program counter of one thread, when nobody is nested. -/
theorem at_step {body : Op → D → List (D → D)} {m m' : M D Op} {a : Act Op} (hs : m.step body a = some m') (hn : ∀ t ∈ m.th, t.outer = 0)
    (ha : ∀ i, a ≠ .nest i) {i : Nat} {t : Th D Op} (ht : m.th[i]? = some t) : ∃ t', m'.th[i]? = some t' ∧ t'.outer = 0 ∧
      ((t'.pc = t.pc ∧ t'.prog = t.prog ∧ t'.op = t.op ∧ a ≠ .go i) ∨
       (t.pc = .wCS ∧ t'.pc = .wCS ∧ t.prog.length = t'.prog.length + 1 ∧ t'.op = t.op ∧ a = .go i) ∨
       (t.pc = .idle ∧ (t'.pc = .r1 ∨ t'.pc = .w1) ∧ a ≠ .go i ∧ (t'.pc = .w1 → ∃ op, a = .beginWrite i op)) ∨
       (a = .go i ∧ t.pc ≠ .idle ∧ m.lk.stmt t.pc = some (m'.lk, t'.pc) ∧ (t.pc ≠ .wCS → t'.op = t.op))) := by
  have h0 := hn t (List.mem_of_getElem? ht)
  cases a with
  | nest j => exact absurd rfl (ha j)
  | look j =>
    simp only [M.step] at hs
    split at hs
    · rename_i s hj
      split at hs
      · rename_i hp
        injection hs with hs; subst hs
        refine ⟨_, put_at _ ht hj, ?_, .inl ?_⟩
        · split
          · rename_i e; subst e; rw [ht] at hj; injection hj with hj; subst hj; exact h0
          · exact h0
        · split
          · rename_i e; subst e; rw [ht] at hj; injection hj with hj; subst hj; exact ⟨rfl, rfl, rfl, by simp⟩
          · exact ⟨rfl, rfl, rfl, by simp⟩
      · simp at hs
    · simp at hs
  | beginRead j =>
    simp only [M.step] at hs
    split at hs
    · rename_i s hj
      split at hs
      · rename_i hp
        injection hs with hs; subst hs
        refine ⟨_, put_at _ ht hj, ?_, ?_⟩
        · split
          · rename_i e; subst e; rw [ht] at hj; injection hj with hj; subst hj; exact h0
          · exact h0
        · split
          · rename_i e; subst e; rw [ht] at hj; injection hj with hj; subst hj
            exact .inr (.inr (.inl ⟨hp, .inl rfl, by simp, by simp⟩))
          · exact .inl ⟨rfl, rfl, rfl, by simp⟩
      · simp at hs
    · simp at hs
  | beginWrite j op =>
    simp only [M.step] at hs
    split at hs
    · rename_i s hj
      split at hs
      · rename_i hp
        injection hs with hs; subst hs
        refine ⟨_, put_at _ ht hj, ?_, ?_⟩
        · split
          · rename_i e; subst e; rw [ht] at hj; injection hj with hj; subst hj; exact h0
          · exact h0
        · split
          · rename_i e; subst e; rw [ht] at hj; injection hj with hj; subst hj
            exact .inr (.inr (.inl ⟨hp, .inr rfl, by simp, fun _ => ⟨op, rfl⟩⟩))
          · exact .inl ⟨rfl, rfl, rfl, by simp⟩
      · simp at hs
    · simp at hs
  | go j =>
    simp only [M.step] at hs
    split at hs
    · rename_i s hj
      rcases go_cases hs with ⟨f, fs, hp, hf, rfl⟩ | ⟨l, pc', hst, _, rfl⟩
      · refine ⟨_, put_at _ ht hj, ?_, ?_⟩
        · split
          · rename_i e; subst e; rw [ht] at hj; injection hj with hj; subst hj; exact h0
          · exact h0
        · split
          · rename_i e; subst e; rw [ht] at hj; injection hj with hj; subst hj
            exact .inr (.inl ⟨hp, hp, by simp [hf], rfl, rfl⟩)
          · rename_i e; exact .inl ⟨rfl, rfl, rfl, by simpa using e⟩
      · by_cases e : j = i
        · subst e
          rw [ht] at hj; injection hj with hj; subst hj
          have hni : t.pc ≠ .idle := by intro hc; rw [hc] at hst; simp [Lk.stmt] at hst
          refine ⟨_, (put_at _ ht ht).trans (by rw [if_pos rfl]), ?_, .inr (.inr (.inr ⟨rfl, hni, ?_, ?_⟩))⟩
          · rw [arrive_outer_le, h0]; split <;> rfl
          · have : (t.arrive body m.data pc').pc = pc' := by
              cases pc' <;> simp [Th.arrive, h0]
            rw [this]; exact hst
          · intro hw
            have hy : pc' ≠ .y0 := by
              have := stmt_nxt hst
              rw [this]; intro hc; cases hq : t.pc <;> rw [hq] at hc <;> simp [PC.nxt] at hc
              exact hw hq
            exact arrive_op body m.data t pc' hy
        · refine ⟨t, (put_at _ ht hj).trans (by rw [if_neg e]), h0, .inl ⟨rfl, rfl, rfl, by simpa using e⟩⟩
    · simp at hs


theorem step_len {body : Op → D → List (D → D)} {m m' : M D Op} {a : Act Op} (hs : m.step body a = some m') : m'.th.length = m.th.length := by
  cases a with
  | go i =>
    simp only [M.step] at hs
    split at hs
    · rcases go_cases hs with ⟨f, fs, -, -, rfl⟩ | ⟨l, pc', -, -, rfl⟩ <;> simp [M.put]
    · simp at hs
  | _ =>
    simp only [M.step] at hs
    split at hs
    · split at hs
      · injection hs with hs; subst hs; simp [M.put]
      · simp at hs
    · simp at hs

/-! ### Infinite executions -/

/-- A step, or none. -/
def stepS (body : Op → D → List (D → D)) (m : M D Op) : Option (Act Op) → Option (M D Op)
  | none => some m
  | some a => m.step body a

theorem stepS_len {body : Op → D → List (D → D)} {m m' : M D Op} {a : Option (Act Op)} (hs : stepS body m a = some m') : m'.th.length = m.th.length := by
  cases a with
  | none => simp only [stepS, Option.some.injEq] at hs; subst hs; rfl
  | some a => exact step_len hs

theorem atS_step {body : Op → D → List (D → D)} {m m' : M D Op} {a : Option (Act Op)} (hs : stepS body m a = some m') (hn : ∀ t ∈ m.th, t.outer = 0)
    (ha : ∀ i, a ≠ some (.nest i)) {i : Nat} {t : Th D Op} (ht : m.th[i]? = some t) : ∃ t', m'.th[i]? = some t' ∧ t'.outer = 0 ∧
      ((t'.pc = t.pc ∧ t'.prog = t.prog ∧ t'.op = t.op ∧ a ≠ some (.go i)) ∨
       (t.pc = .wCS ∧ t'.pc = .wCS ∧ t.prog.length = t'.prog.length + 1 ∧ t'.op = t.op ∧ a = some (.go i)) ∨
       (t.pc = .idle ∧ (t'.pc = .r1 ∨ t'.pc = .w1) ∧ a ≠ some (.go i) ∧ (t'.pc = .w1 → ∃ op, a = some (.beginWrite i op))) ∨
       (a = some (.go i) ∧ t.pc ≠ .idle ∧ m.lk.stmt t.pc = some (m'.lk, t'.pc) ∧ (t.pc ≠ .wCS → t'.op = t.op))) := by
  cases a with
  | none =>
    simp only [stepS, Option.some.injEq] at hs; subst hs
    exact ⟨t, ht, hn t (List.mem_of_getElem? ht), .inl ⟨rfl, rfl, rfl, by simp⟩⟩
  | some a =>
    obtain ⟨t', h1, h2, h3⟩ := at_step (m' := m') hs hn (fun i e => ha i (by rw [e])) ht
    exact ⟨t', h1, h2, by simpa using h3⟩
section
variable {body : Op → D → List (D → D)} {n : Nat} {d : D}

/-- The scheduler is strongly fair to every thread, and nobody asks for the reader lock from inside a reader section. -/
structure Ok (r : Run (stepS body) (init n d)) : Prop where
  fair : ∀ i, r.StrongFair (some (.go i))
  flat : ∀ k i, r.act k ≠ some (.nest i)

variable {r : Run (stepS body) (init n d)}

theorem run_inv (r : Run (stepS body) (init n d)) (k : Nat) : Inv (r.st k) := by
  induction k with
  | zero => rw [r.zero]; exact Inv.init n d
  | succ k ih =>
    have := r.next k
    cases ha : r.act k with
    | none => rw [ha] at this; simp only [stepS, Option.some.injEq] at this; rw [← this]; exact ih
    | some a => rw [ha] at this; exact ih.step _ this

theorem Ok.outer (h : Ok r) (k : Nat) : ∀ t ∈ (r.st k).th, t.outer = 0 := by
  induction k with
  | zero =>
    rw [r.zero]
    intro t ht
    have := List.eq_of_mem_replicate ht
    subst this; rfl
  | succ k ih =>
    intro t' ht'
    obtain ⟨i, hi⟩ := List.getElem?_of_mem ht'
    have hlen : (r.st (k + 1)).th.length = (r.st k).th.length := stepS_len (r.next k)
    have hil : i < (r.st k).th.length := hlen ▸ (List.getElem?_eq_some_iff.1 hi).1
    obtain ⟨t'', h1, h2, -⟩ := atS_step (r.next k) ih (h.flat k) (List.getElem?_eq_getElem hil)
    rw [hi] at h1; injection h1 with h1; subst h1; exact h2

theorem Ok.outers (h : Ok r) (k : Nat) : (r.st k).outers = 0 := total_zero (h.outer k)

theorem Ok.acc (h : Ok r) (k : Nat) : Acc (r.st k).cnt 0 (r.st k).lk := h.outers k ▸ (run_inv r k).acc

/-- One step of the run, for one thread. -/
theorem Ok.step (h : Ok r) (k : Nat) {i : Nat} {t : Th D Op} (ht : (r.st k).th[i]? = some t) : ∃ t', (r.st (k + 1)).th[i]? = some t' ∧ t'.outer = 0 ∧
      ((t'.pc = t.pc ∧ t'.prog = t.prog ∧ t'.op = t.op ∧ r.act k ≠ some (.go i)) ∨
       (t.pc = .wCS ∧ t'.pc = .wCS ∧ t.prog.length = t'.prog.length + 1 ∧ t'.op = t.op ∧ r.act k = some (.go i)) ∨
       (t.pc = .idle ∧ (t'.pc = .r1 ∨ t'.pc = .w1) ∧ r.act k ≠ some (.go i) ∧ (t'.pc = .w1 → ∃ op, r.act k = some (.beginWrite i op))) ∨
       (r.act k = some (.go i) ∧ t.pc ≠ .idle ∧ (r.st k).lk.stmt t.pc = some ((r.st (k + 1)).lk, t'.pc) ∧ (t.pc ≠ .wCS → t'.op = t.op))) :=
  atS_step (r.next k) (h.outer k) (h.flat k) ht

theorem At.pos {m : M D Op} {i : Nat} {p : PC} (h : At m i p) : 0 < m.cnt p := by
  obtain ⟨t, h1, rfl⟩ := h; exact pos_cnt h1

/-- Some thread stays at `p` for ever from some point on. -/
def Stk (r : Run (stepS body) (init n d)) (p : PC) : Prop := ∃ i k, ∀ j, k ≤ j → At (r.st j) i p

/-- A thread that does not stay at `p` executes the statement at `p`. -/
theorem Ok.move (h : Ok r) {p : PC} (hp : ¬ Stk r p) (hi : p ≠ .idle) {k i : Nat} {t : Th D Op} (ht : (r.st k).th[i]? = some t) (htp : t.pc = p) :
    ∃ j t', k ≤ j ∧ (r.st (j + 1)).th[i]? = some t' ∧ t'.pc = p.nxt ∧ (r.st j).lk.stmt p = some ((r.st (j + 1)).lk, p.nxt) ∧
      (p ≠ .wCS → t'.op = t.op) := by
  by_contra hc
  apply hp
  refine ⟨i, k, ?_⟩
  have key : ∀ e, ∃ t', (r.st (k + e)).th[i]? = some t' ∧ t'.pc = p ∧ t'.op = t.op := by
    intro e
    induction e with
    | zero => exact ⟨t, ht, htp, rfl⟩
    | succ e ih =>
      obtain ⟨t1, h1, h2, h3⟩ := ih
      obtain ⟨t2, h4, -, h5⟩ := h.step (k + e) h1
      rcases h5 with ⟨e1, -, e2, -⟩ | ⟨e1, e2, -, e3, -⟩ | ⟨e1, -⟩ | ⟨-, -, e1, e2⟩
      · exact ⟨t2, h4, e1.trans h2, e2.trans h3⟩
      · exact ⟨t2, h4, by rw [e2, ← e1, h2], e3.trans h3⟩
      · exact absurd (h2.symm.trans e1) hi
      · exfalso
        rw [h2] at e1 e2
        have e3 := stmt_nxt e1
        rw [e3] at e1
        exact hc ⟨k + e, t2, by omega, h4, e3, e1, fun hw => (e2 hw).trans h3⟩
  intro j hj
  obtain ⟨e, rfl⟩ := Nat.exists_eq_add_of_le hj
  obtain ⟨t', h1, h2, -⟩ := key e
  exact ⟨t', h1, h2⟩

/-- A thread that stays at `p` for ever is blocked from some point on. -/
theorem Ok.blocked (h : Ok r) {p : PC} (hp : Stk r p) (hi : p ≠ .idle) : ∃ i k, ∀ j, k ≤ j → At (r.st j) i p ∧ (r.st j).lk.stmt p = none := by
  obtain ⟨i, k, hk⟩ := hp
  by_contra hc
  have hen : ∀ k0, ∃ j, k0 ≤ j ∧ (stepS body (r.st j) (some (.go i))).isSome = true := by
    intro k0
    by_contra hno
    apply hc
    refine ⟨i, max k k0, fun j hj => ⟨hk j (by omega), ?_⟩⟩
    by_contra hs
    obtain ⟨t, h1, h2⟩ := hk j (by omega)
    apply hno
    refine ⟨j, by omega, ?_⟩
    obtain ⟨m', hm'⟩ := go_of_stmt (body := body) h1 (by rw [h2]; cases hq : (r.st j).lk.stmt p with
      | none => exact absurd hq hs
      | some _ => rfl)
    simp only [stepS, hm']; rfl
  have htaken := h.fair i hen
  -- every turn executes a mutation; there are finitely many
  have one : ∀ q t1, k ≤ q → (r.st q).th[i]? = some t1 → ∃ t2, (r.st (q + 1)).th[i]? = some t2 ∧ t2.prog.length ≤ t1.prog.length ∧
      (r.act q = some (.go i) → t2.prog.length + 1 ≤ t1.prog.length) := by
    intro q t1 hq h1
    obtain ⟨t2, h4, -, h5⟩ := h.step q h1
    refine ⟨t2, h4, ?_⟩
    have b1 := At.uniq (hk q hq) ⟨t1, h1, rfl⟩
    have b2 := At.uniq (hk (q + 1) (by omega)) ⟨t2, h4, rfl⟩
    rcases h5 with ⟨-, e2, -, e3⟩ | ⟨-, -, e2, -, -⟩ | ⟨e1, -⟩ | ⟨-, -, e1, -⟩
    · exact ⟨Nat.le_of_eq (congrArg List.length e2), fun ha => absurd ha e3⟩
    · omega
    · exact absurd (b1.trans e1) hi
    · rw [← b1, ← b2] at e1
      have := stmt_nxt e1
      cases p <;> simp [PC.nxt] at this hi
  have stay : ∀ j t, k ≤ j → (r.st j).th[i]? = some t → ∀ e, ∃ t', (r.st (j + e)).th[i]? = some t' ∧ t'.prog.length ≤ t.prog.length := by
    intro j t hj ht e
    induction e with
    | zero => exact ⟨t, ht, Nat.le_refl _⟩
    | succ e ih =>
      obtain ⟨t1, h1, h2⟩ := ih
      obtain ⟨t2, h3, h4, -⟩ := one (j + e) t1 (by omega) h1
      exact ⟨t2, h3, by omega⟩
  have key : ∀ N j t, k ≤ j → (r.st j).th[i]? = some t → t.prog.length ≤ N → False := by
    intro N
    induction N with
    | zero =>
      intro j t hj ht hl
      obtain ⟨q, hq, ha⟩ := htaken j
      obtain ⟨t1, h1, h2⟩ := stay j t hj ht (q - j)
      rw [show j + (q - j) = q by omega] at h1
      obtain ⟨t2, h3, -, h4⟩ := one q t1 (by omega) h1
      have := h4 ha
      omega
    | succ N ihN =>
      intro j t hj ht hl
      obtain ⟨q, hq, ha⟩ := htaken j
      obtain ⟨t1, h1, h2⟩ := stay j t hj ht (q - j)
      rw [show j + (q - j) = q by omega] at h1
      obtain ⟨t2, h3, -, h4⟩ := one q t1 (by omega) h1
      have := h4 ha
      exact ihN (q + 1) t2 (by omega) h3 (by omega)
  obtain ⟨t, h1, -⟩ := hk k (Nat.le_refl k)
  exact key _ k t (Nat.le_refl k) h1 (Nat.le_refl _)

/-- Statements at which nobody waits. -/
theorem Ok.free (h : Ok r) {p : PC} (hi : p ≠ .idle) (hw : p.waits = false) : ¬ Stk r p := by
  intro hp
  obtain ⟨i, k, hk⟩ := h.blocked hp hi
  obtain ⟨h1, h2⟩ := hk k (Nat.le_refl k)
  have := (h.acc k).noWait h1.pos hi hw
  rw [h2] at this; simp at this

/-- From `p`, through statements at which nobody stays, to `q`. -/
inductive Path (r : Run (stepS body) (init n d)) : PC → PC → Prop
  | here (p) : Path r p p
  | next {p q} : p ≠ .idle → ¬ Stk r p → Path r p.nxt q → Path r p q

theorem Ok.flow (h : Ok r) {p q : PC} (hpq : Path r p q) {k i : Nat} (ht : At (r.st k) i p) : ∃ j, k ≤ j ∧ At (r.st j) i q := by
  induction hpq generalizing k with
  | here p => exact ⟨k, Nat.le_refl k, ht⟩
  | next hi hs _ ih =>
    obtain ⟨t, h1, h2⟩ := ht
    obtain ⟨j, t', hj, h3, h4, -⟩ := h.move hs hi h1 h2
    obtain ⟨j', hj', h5⟩ := ih ⟨t', h3, h4⟩
    exact ⟨j', by omega, h5⟩

/-- ... and the statement at `q` is executed. -/
theorem Ok.exec (h : Ok r) {p q : PC} (hpq : Path r p q) (hi : q ≠ .idle) (hq : ¬ Stk r q) {k i : Nat} (ht : At (r.st k) i p) :
    ∃ j, k ≤ j ∧ (r.st j).lk.stmt q = some ((r.st (j + 1)).lk, q.nxt) ∧ At (r.st (j + 1)) i q.nxt := by
  obtain ⟨j, hj, t, h1, h2⟩ := h.flow hpq ht
  obtain ⟨j', t', hj', h3, h4, h5, -⟩ := h.move hq hi h1 h2
  exact ⟨j', by omega, h5, t', h3, h4⟩

theorem At.of_cnt {m : M D Op} {p : PC} (h : 0 < m.cnt p) : ∃ i, At m i p := by
  obtain ⟨i, t, h1, h2⟩ := cnt_pos h
  exact ⟨i, t, h1, h2⟩

theorem Ok.thru (h : Ok r) {p q : PC} (hi : p ≠ .idle) (hw : p.waits = false) (hq : Path r p.nxt q) : Path r p q := .next hi (h.free hi hw) hq

/-- One of several holders executes its release. -/
theorem Ok.release (h : Ok r) (k : Nat) (ps : List PC) (q : PC) (hq : q ≠ .idle) (hs : ¬ Stk r q) (hps : ∀ p ∈ ps, Path r p q)
    (hpos : 0 < (ps.map (r.st k).cnt).sum) : ∃ j, k ≤ j ∧ (r.st j).lk.stmt q = some ((r.st (j + 1)).lk, q.nxt) := by
  induction ps with
  | nil => simp at hpos
  | cons p ps ih =>
    simp only [List.map_cons, List.sum_cons] at hpos
    rcases Nat.eq_zero_or_pos ((r.st k).cnt p) with h0 | h0
    · exact ih (fun p hp => hps p (by simp [hp])) (by omega)
    · obtain ⟨i, hi⟩ := At.of_cnt h0
      obtain ⟨j, e1, e2, -⟩ := h.exec (hps p (by simp)) hq hs hi
      exact ⟨j, e1, e2⟩

/-- What the releasing statements do. -/
theorem rel_stmt {l l' : Lk} {q : PC} (h : l.stmt q = some (l', q.nxt)) :
    (q = .y0 → l'.nw = false) ∧ (q = .r6 → l'.rm = false) ∧ (q = .x4 → l'.rm = false) ∧ (q = .r7 → l'.nr = false) ∧ (q = .r8 → l'.rq = false) ∧
    (q = .w4 → l'.wm = false) ∧ (q = .y4 → l'.wm = false) := by
  refine ⟨?_, ?_, ?_, ?_, ?_, ?_, ?_⟩
  all_goals
    rintro rfl
    simp only [Lk.stmt] at h
    split at h
    · simp only [Option.some.injEq, Prod.mk.injEq] at h
      rw [← h.1]
    · simp at h

theorem Ok.r5 (h : Ok r) : ¬ Stk r .r5 := by
  intro hp
  obtain ⟨i, k, hk⟩ := h.blocked hp (by decide)
  have hb : ∀ j, k ≤ j → (r.st j).lk.nw = true ∧ (r.st j).lk.rc = 1 := by
    intro j hj
    have h2 := (hk j hj).2
    simp only [Lk.stmt] at h2
    split at h2
    · split at h2
      · rename_i e1 e2; exact ⟨e2, e1⟩
      · simp at h2
    · simp at h2
  obtain ⟨h1, -⟩ := hk k (Nat.le_refl k)
  obtain ⟨h2, h3⟩ := hb k (Nat.le_refl k)
  have ha := h.acc k
  have hpos := h1.pos
  have hoff := ha.nwOff
  have hrm := ha.rm
  have := Bool.toNat_le (r.st k).lk.rm
  rw [h2] at hoff
  simp only [Bool.toNat_true] at hoff
  obtain ⟨j, e1, e2⟩ := h.release k [.wCS, .y0] .y0 (by decide) (h.free (by decide) rfl) (by
    simp only [List.mem_cons, List.not_mem_nil, or_false, forall_eq_or_imp, forall_eq]
    exact ⟨h.thru (by decide) rfl (.here _), .here _⟩) (by simp only [List.map_cons, List.map_nil, List.sum_cons, List.sum_nil]; omega)
  have e3 := (hb (j + 1) (by omega)).1
  rw [(rel_stmt e2).1 rfl] at e3
  simp at e3

/-- The mutex of the readers' switch is always released. -/
theorem Ok.rmFree (h : Ok r) (k : Nat) : ∃ j, k ≤ j ∧ (r.st j).lk.rm = false := by
  by_contra hc
  have hb : ∀ j, k ≤ j → (r.st j).lk.rm = true := by
    intro j hj
    by_contra hn
    exact hc ⟨j, hj, by simpa using hn⟩
  have ha := (h.acc k).rm
  rw [hb k (Nat.le_refl k)] at ha
  simp only [Bool.toNat_true] at ha
  by_cases h0 : 0 < (r.st k).cnt .r4 + (r.st k).cnt .r5 + (r.st k).cnt .r6
  · obtain ⟨j, e1, e2⟩ := h.release k [.r4, .r5, .r6] .r6 (by decide) (h.free (by decide) rfl) (by
      simp only [List.mem_cons, List.not_mem_nil, or_false, forall_eq_or_imp, forall_eq]
      exact ⟨h.thru (by decide) rfl (.next (by decide) h.r5 (.here _)), .next (by decide) h.r5 (.here _), .here _⟩)
      (by simp only [List.map_cons, List.map_nil, List.sum_cons, List.sum_nil]; omega)
    have e3 := hb (j + 1) (by omega)
    rw [(rel_stmt e2).2.1 rfl] at e3
    simp at e3
  · obtain ⟨j, e1, e2⟩ := h.release k [.x2, .x3, .x4] .x4 (by decide) (h.free (by decide) rfl) (by
      simp only [List.mem_cons, List.not_mem_nil, or_false, forall_eq_or_imp, forall_eq]
      exact ⟨h.thru (by decide) rfl (h.thru (by decide) rfl (.here _)), h.thru (by decide) rfl (.here _), .here _⟩)
      (by simp only [List.map_cons, List.map_nil, List.sum_cons, List.sum_nil]; omega)
    have e3 := hb (j + 1) (by omega)
    rw [(rel_stmt e2).2.2.1 rfl] at e3
    simp at e3

theorem Ok.r3 (h : Ok r) : ¬ Stk r .r3 := by
  intro hp
  obtain ⟨i, k, hk⟩ := h.blocked hp (by decide)
  obtain ⟨j, hj, e⟩ := h.rmFree k
  have := (hk j hj).2
  simp [Lk.stmt, e] at this

theorem Ok.x1 (h : Ok r) : ¬ Stk r .x1 := by
  intro hp
  obtain ⟨i, k, hk⟩ := h.blocked hp (by decide)
  obtain ⟨j, hj, e⟩ := h.rmFree k
  have := (hk j hj).2
  simp [Lk.stmt, e] at this

theorem Ok.toR7 (h : Ok r) : ∀ p ∈ [PC.r3, .r4, .r5, .r6, .r7], Path r p .r7 := by
  have e6 : Path r .r6 .r7 := h.thru (by decide) rfl (.here _)
  have e5 : Path r .r5 .r7 := .next (by decide) h.r5 e6
  have e4 : Path r .r4 .r7 := h.thru (by decide) rfl e5
  have e3 : Path r .r3 .r7 := .next (by decide) h.r3 e4
  simp only [List.mem_cons, List.not_mem_nil, or_false, forall_eq_or_imp, forall_eq]
  exact ⟨e3, e4, e5, e6, .here _⟩

theorem Ok.w3 (h : Ok r) : ¬ Stk r .w3 := by
  intro hp
  obtain ⟨i, k, hk⟩ := h.blocked hp (by decide)
  have hb : ∀ j, k ≤ j → (r.st j).lk.nr = true ∧ (r.st j).lk.wc = 1 := by
    intro j hj
    have h2 := (hk j hj).2
    simp only [Lk.stmt] at h2
    split at h2
    · split at h2
      · rename_i e1 e2; exact ⟨e2, e1⟩
      · simp at h2
    · simp at h2
  obtain ⟨h1, -⟩ := hk k (Nat.le_refl k)
  obtain ⟨h2, h3⟩ := hb k (Nat.le_refl k)
  have ha := h.acc k
  have hpos := h1.pos
  have hoff := ha.nrOff
  have hwm := ha.wm
  have := Bool.toNat_le (r.st k).lk.wm
  rw [h2] at hoff
  simp only [Bool.toNat_true] at hoff
  obtain ⟨j, e1, e2⟩ := h.release k _ .r7 (by decide) (h.free (by decide) rfl) h.toR7
    (by simp only [List.map_cons, List.map_nil, List.sum_cons, List.sum_nil]; omega)
  have e3 := (hb (j + 1) (by omega)).1
  rw [(rel_stmt e2).2.2.2.1 rfl] at e3
  simp at e3

/-- The mutex of the writers' switch is always released. -/
theorem Ok.wmFree (h : Ok r) (k : Nat) : ∃ j, k ≤ j ∧ (r.st j).lk.wm = false := by
  by_contra hc
  have hb : ∀ j, k ≤ j → (r.st j).lk.wm = true := by
    intro j hj
    by_contra hn
    exact hc ⟨j, hj, by simpa using hn⟩
  have ha := (h.acc k).wm
  rw [hb k (Nat.le_refl k)] at ha
  simp only [Bool.toNat_true] at ha
  by_cases h0 : 0 < (r.st k).cnt .w2 + (r.st k).cnt .w3 + (r.st k).cnt .w4
  · obtain ⟨j, e1, e2⟩ := h.release k [.w2, .w3, .w4] .w4 (by decide) (h.free (by decide) rfl) (by
      simp only [List.mem_cons, List.not_mem_nil, or_false, forall_eq_or_imp, forall_eq]
      exact ⟨h.thru (by decide) rfl (.next (by decide) h.w3 (.here _)), .next (by decide) h.w3 (.here _), .here _⟩)
      (by simp only [List.map_cons, List.map_nil, List.sum_cons, List.sum_nil]; omega)
    have e3 := hb (j + 1) (by omega)
    rw [(rel_stmt e2).2.2.2.2.2.1 rfl] at e3
    simp at e3
  · obtain ⟨j, e1, e2⟩ := h.release k [.y2, .y3, .y4] .y4 (by decide) (h.free (by decide) rfl) (by
      simp only [List.mem_cons, List.not_mem_nil, or_false, forall_eq_or_imp, forall_eq]
      exact ⟨h.thru (by decide) rfl (h.thru (by decide) rfl (.here _)), h.thru (by decide) rfl (.here _), .here _⟩)
      (by simp only [List.map_cons, List.map_nil, List.sum_cons, List.sum_nil]; omega)
    have e3 := hb (j + 1) (by omega)
    rw [(rel_stmt e2).2.2.2.2.2.2 rfl] at e3
    simp at e3

theorem Ok.w1 (h : Ok r) : ¬ Stk r .w1 := by
  intro hp
  obtain ⟨i, k, hk⟩ := h.blocked hp (by decide)
  obtain ⟨j, hj, e⟩ := h.wmFree k
  have := (hk j hj).2
  simp [Lk.stmt, e] at this

theorem Ok.y1 (h : Ok r) : ¬ Stk r .y1 := by
  intro hp
  obtain ⟨i, k, hk⟩ := h.blocked hp (by decide)
  obtain ⟨j, hj, e⟩ := h.wmFree k
  have := (hk j hj).2
  simp [Lk.stmt, e] at this

/-- Inside, or on the way in or out, holding or about to give back the readers' share of the data lock. -/
def PC.shares : PC → Bool
  | .r8 | .rCS | .x1 | .x2 | .x3 => true
  | _ => false

theorem Ok.toX4 (h : Ok r) {p : PC} (hp : p.shares = true) : Path r p .x4 := by
  have e3 : Path r .x3 .x4 := h.thru (by decide) rfl (.here _)
  have e2 : Path r .x2 .x4 := h.thru (by decide) rfl e3
  have e1 : Path r .x1 .x4 := .next (by decide) h.x1 e2
  have e0 : Path r .rCS .x4 := h.thru (by decide) rfl e1
  have e8 : Path r .r8 .x4 := h.thru (by decide) rfl e0
  cases p <;> simp [PC.shares] at hp <;> assumption

theorem Ok.w5 (h : Ok r) : ¬ Stk r .w5 := by
  intro hp
  obtain ⟨i, k, hk⟩ := h.blocked hp (by decide)
  have hb : ∀ j, k ≤ j → (r.st j).lk.nw = true := by
    intro j hj
    have h2 := (hk j hj).2
    simp only [Lk.stmt] at h2
    split at h2
    · rename_i e; exact e
    · simp at h2
  -- no reader passes the gate
  have hgate : ∀ j, k ≤ j → (r.st j).cnt .r3 = 0 ∧ (r.st j).cnt .r4 = 0 ∧ (r.st j).cnt .r5 = 0 ∧ (r.st j).cnt .r6 = 0 ∧ (r.st j).cnt .r7 = 0 := by
    intro j hj
    have ha := h.acc j
    have hpos := (hk j hj).1.pos
    have h1 := ha.nrOn
    have h2 := ha.wc
    have := Bool.toNat_le (r.st j).lk.nr
    omega
  -- there is always a reader with a share
  have hshare : ∀ j, k ≤ j → ∃ i p, At (r.st j) i p ∧ p.shares = true := by
    intro j hj
    by_cases hon : (r.st j).lk.rc > (r.st j).cnt .r5 ∨ (r.st j).cnt .x3 > 0
    · have ha := (h.acc j).rc
      obtain ⟨-, -, -, g6, g7⟩ := hgate j hj
      rcases Nat.eq_zero_or_pos ((r.st j).cnt .r8) with q8 | q8
      · rcases Nat.eq_zero_or_pos ((r.st j).cnt .rCS) with q0 | q0
        · rcases Nat.eq_zero_or_pos ((r.st j).cnt .x1) with q1 | q1
          · rcases Nat.eq_zero_or_pos ((r.st j).cnt .x2) with q2 | q2
            · rcases Nat.eq_zero_or_pos ((r.st j).cnt .x3) with q3 | q3
              · omega
              · obtain ⟨i, hi⟩ := At.of_cnt q3; exact ⟨i, _, hi, rfl⟩
            · obtain ⟨i, hi⟩ := At.of_cnt q2; exact ⟨i, _, hi, rfl⟩
          · obtain ⟨i, hi⟩ := At.of_cnt q1; exact ⟨i, _, hi, rfl⟩
        · obtain ⟨i, hi⟩ := At.of_cnt q0; exact ⟨i, _, hi, rfl⟩
      · obtain ⟨i, hi⟩ := At.of_cnt q8; exact ⟨i, _, hi, rfl⟩
    · exfalso
      have hoff := (h.acc j).nwOff
      rw [hb j hj] at hoff
      simp only [Bool.toNat_true] at hoff
      obtain ⟨j', e1, e2⟩ := h.release j [.wCS, .y0] .y0 (by decide) (h.free (by decide) rfl) (by
        simp only [List.mem_cons, List.not_mem_nil, or_false, forall_eq_or_imp, forall_eq]
        exact ⟨h.thru (by decide) rfl (.here _), .here _⟩) (by simp only [List.map_cons, List.map_nil, List.sum_cons, List.sum_nil]; omega)
      have e3 := hb (j' + 1) (by omega)
      rw [(rel_stmt e2).1 rfl] at e3
      simp at e3
  -- a thread without a share gets none
  have hstay : ∀ i j, k ≤ j → (∀ p, At (r.st j) i p → p.shares = false) → ∀ e, ∀ p, At (r.st (j + e)) i p → p.shares = false := by
    intro i j hj h0 e
    induction e with
    | zero => exact h0
    | succ e ih =>
      rintro p ⟨t', h1, rfl⟩
      have hlen : (r.st (j + e + 1)).th.length = (r.st (j + e)).th.length := stepS_len (r.next _)
      have hil : i < (r.st (j + e)).th.length := hlen ▸ (List.getElem?_eq_some_iff.1 h1).1
      have h2 := List.getElem?_eq_getElem hil
      obtain ⟨t'', h3, -, h4⟩ := h.step (j + e) h2
      rw [show j + (e + 1) = j + e + 1 by omega] at h1
      rw [h1] at h3; injection h3 with h3; subst h3
      have hpr := ih _ ⟨_, h2, rfl⟩
      have hg := hgate (j + e) (by omega)
      have hpos := pos_cnt h2
      generalize (r.st (j + e)).th[i] = t at *
      rcases h4 with ⟨e1, -⟩ | ⟨-, e1, -⟩ | ⟨-, e1, -⟩ | ⟨-, -, e1, -⟩
      · rw [e1]; exact hpr
      · rw [e1]; rfl
      · rcases e1 with e1 | e1 <;> rw [e1] <;> rfl
      · rw [stmt_nxt e1]
        cases hq : t.pc <;> rw [hq] at hpr hpos <;> first | rfl | (simp [PC.shares] at hpr; done) | (exfalso; omega)
  have hleave : ∀ i, ∃ j, k ≤ j ∧ ∀ p, At (r.st j) i p → p.shares = false := by
    intro i
    by_contra hc
    have : ∃ p, At (r.st k) i p ∧ p.shares = true := by
      by_contra hn
      exact hc ⟨k, Nat.le_refl k, fun p hp => by
        by_contra hs; exact hn ⟨p, hp, by simpa using hs⟩⟩
    obtain ⟨p, h1, h2⟩ := this
    obtain ⟨j, hj, h3⟩ := h.flow (h.toX4 h2) h1
    exact hc ⟨j, hj, fun q hq => by rw [hq.uniq h3]; rfl⟩
  choose J hJ1 hJ2 using hleave
  have hall : ∀ c, ∃ j, k ≤ j ∧ ∀ i, i < c → J i ≤ j := by
    intro c
    induction c with
    | zero => exact ⟨k, Nat.le_refl k, by simp⟩
    | succ c ih =>
      obtain ⟨j, h1, h2⟩ := ih
      refine ⟨max j (J c), by omega, fun i hi => ?_⟩
      rcases Nat.lt_succ_iff_lt_or_eq.1 hi with hi | rfl
      · have := h2 i hi; omega
      · omega
  have hlen : ∀ j, (r.st j).th.length = n := by
    intro j
    induction j with
    | zero => rw [r.zero]; simp [init]
    | succ j ih => rw [stepS_len (r.next j), ih]
  obtain ⟨j, h1, h2⟩ := hall n
  obtain ⟨i', p, h3, h4⟩ := hshare j h1
  obtain ⟨t, h5, -⟩ := id h3
  have hi' : i' < n := hlen j ▸ (List.getElem?_eq_some_iff.1 h5).1
  have hle := h2 i' hi'
  have := hstay i' (J i') (hJ1 i') (hJ2 i') (j - J i') p (by rw [show J i' + (j - J i') = j by omega]; exact h3)
  rw [h4] at this; simp at this

/-- Somebody waits for the gate for ever only if it is held by writers for ever. -/
theorem Ok.r2 (h : Ok r) (hq : ∀ k, ∃ j, k ≤ j ∧ ∀ t ∈ (r.st j).th, t.pc.reading = true ∨ t.pc = .idle) : ¬ Stk r .r2 := by
  intro hp
  obtain ⟨i, k, hk⟩ := h.blocked hp (by decide)
  obtain ⟨j, hj, hr⟩ := hq k
  obtain ⟨h1, h2⟩ := hk j hj
  have hz : ∀ p, p.reading = false → p ≠ .idle → (r.st j).cnt p = 0 := by
    intro p e1 e2
    by_contra hc
    obtain ⟨i', t, e3, rfl⟩ := cnt_pos (Nat.pos_of_ne_zero hc)
    rcases hr t (List.mem_of_getElem? e3) with e4 | e4
    · rw [e4] at e1; simp at e1
    · exact e2 e4
  have ha := h.acc j
  have hnr : (r.st j).lk.nr = true := by
    simp only [Lk.stmt] at h2
    split at h2
    · rename_i e; exact e
    · simp at h2
  have hpos := h1.pos
  have g1 := ha.rq
  have g2 := ha.wc
  have g3 := ha.nrOff
  rw [hnr] at g3
  simp only [Bool.toNat_true] at g3
  have := Bool.toNat_le (r.st j).lk.rq
  have z1 := hz .w3 rfl (by decide)
  have z2 := hz .w4 rfl (by decide)
  have z3 := hz .w5 rfl (by decide)
  have z4 := hz .wCS rfl (by decide)
  have z5 := hz .y0 rfl (by decide)
  have z6 := hz .y1 rfl (by decide)
  have z7 := hz .y2 rfl (by decide)
  have z8 := hz .y3 rfl (by decide)
  omega

theorem Ok.r1 (h : Ok r) (h2 : ¬ Stk r .r2) : ¬ Stk r .r1 := by
  intro hp
  obtain ⟨i, k, hk⟩ := h.blocked hp (by decide)
  have hb : ∀ j, k ≤ j → (r.st j).lk.rq = true := by
    intro j hj
    have h2 := (hk j hj).2
    simp only [Lk.stmt] at h2
    split at h2
    · rename_i e; exact e
    · simp at h2
  have e7 : Path r .r7 .r8 := h.thru (by decide) rfl (.here _)
  have e6 : Path r .r6 .r8 := h.thru (by decide) rfl e7
  have e5 : Path r .r5 .r8 := .next (by decide) h.r5 e6
  have e4 : Path r .r4 .r8 := h.thru (by decide) rfl e5
  have e3 : Path r .r3 .r8 := .next (by decide) h.r3 e4
  have e2 : Path r .r2 .r8 := .next (by decide) h2 e3
  have ha := (h.acc k).rq
  rw [hb k (Nat.le_refl k)] at ha
  simp only [Bool.toNat_true] at ha
  obtain ⟨j, a1, a2⟩ := h.release k [.r2, .r3, .r4, .r5, .r6, .r7, .r8] .r8 (by decide) (h.free (by decide) rfl) (by
    simp only [List.mem_cons, List.not_mem_nil, or_false, forall_eq_or_imp, forall_eq]
    exact ⟨e2, e3, e4, e5, e6, e7, .here _⟩) (by simp only [List.map_cons, List.map_nil, List.sum_cons, List.sum_nil]; omega)
  have a3 := hb (j + 1) (by omega)
  rw [(rel_stmt a2).2.2.2.2.1 rfl] at a3
  simp at a3

/-- A writer gets in. -/
theorem Ok.toW (h : Ok r) : ∀ p ∈ [PC.w1, .w2, .w3, .w4, .w5], Path r p .wCS := by
  have e5 : Path r .w5 .wCS := .next (by decide) h.w5 (.here _)
  have e4 : Path r .w4 .wCS := h.thru (by decide) rfl e5
  have e3 : Path r .w3 .wCS := .next (by decide) h.w3 e4
  have e2 : Path r .w2 .wCS := h.thru (by decide) rfl e3
  have e1 : Path r .w1 .wCS := .next (by decide) h.w1 e2
  simp only [List.mem_cons, List.not_mem_nil, or_false, forall_eq_or_imp, forall_eq]
  exact ⟨e1, e2, e3, e4, e5⟩

/-- A writer gets out. -/
theorem Ok.outW (h : Ok r) : ∀ p ∈ [PC.wCS, .y0, .y1, .y2, .y3, .y4], Path r p .idle := by
  have e4 : Path r .y4 .idle := h.thru (by decide) rfl (.here _)
  have e3 : Path r .y3 .idle := h.thru (by decide) rfl e4
  have e2 : Path r .y2 .idle := h.thru (by decide) rfl e3
  have e1 : Path r .y1 .idle := .next (by decide) h.y1 e2
  have e0 : Path r .y0 .idle := h.thru (by decide) rfl e1
  have eC : Path r .wCS .idle := h.thru (by decide) rfl e0
  simp only [List.mem_cons, List.not_mem_nil, or_false, forall_eq_or_imp, forall_eq]
  exact ⟨eC, e0, e1, e2, e3, e4⟩

/-- A reader gets out. -/
theorem Ok.outR (h : Ok r) : ∀ p ∈ [PC.rCS, .x1, .x2, .x3, .x4], Path r p .idle := by
  have e4 : Path r .x4 .idle := h.thru (by decide) rfl (.here _)
  have e3 : Path r .x3 .idle := h.thru (by decide) rfl e4
  have e2 : Path r .x2 .idle := h.thru (by decide) rfl e3
  have e1 : Path r .x1 .idle := .next (by decide) h.x1 e2
  have eC : Path r .rCS .idle := h.thru (by decide) rfl e1
  simp only [List.mem_cons, List.not_mem_nil, or_false, forall_eq_or_imp, forall_eq]
  exact ⟨eC, e1, e2, e3, e4⟩

/-- A reader past the gate gets in. -/
theorem Ok.toR (h : Ok r) : ∀ p ∈ [PC.r3, .r4, .r5, .r6, .r7, .r8], Path r p .rCS := by
  have e8 : Path r .r8 .rCS := h.thru (by decide) rfl (.here _)
  have e7 : Path r .r7 .rCS := h.thru (by decide) rfl e8
  have e6 : Path r .r6 .rCS := h.thru (by decide) rfl e7
  have e5 : Path r .r5 .rCS := .next (by decide) h.r5 e6
  have e4 : Path r .r4 .rCS := h.thru (by decide) rfl e5
  have e3 : Path r .r3 .rCS := .next (by decide) h.r3 e4
  simp only [List.mem_cons, List.not_mem_nil, or_false, forall_eq_or_imp, forall_eq]
  exact ⟨e3, e4, e5, e6, e7, e8⟩

/-- The writer operation a thread carries is the same all the way to the section. -/
theorem Ok.flowOp (h : Ok r) {p q : PC} (hpq : Path r p q) (hq : q = .wCS) (hp : p ∈ [PC.w1, .w2, .w3, .w4, .w5, .wCS]) {k i : Nat} {t : Th D Op}
    (ht : (r.st k).th[i]? = some t) (htp : t.pc = p) : ∃ j t', k ≤ j ∧ (r.st j).th[i]? = some t' ∧ t'.pc = .wCS ∧ t'.op = t.op := by
  induction hpq generalizing k t with
  | here p => exact ⟨k, t, Nat.le_refl k, ht, htp.trans hq, rfl⟩
  | @next p q hi hs _ ih =>
    by_cases hw : p = .wCS
    · exact ⟨k, t, Nat.le_refl k, ht, htp.trans hw, rfl⟩
    · obtain ⟨j, t', hj, h3, h4, -, h5⟩ := h.move hs hi ht htp
      obtain ⟨j', t'', hj', h6, h7, h8⟩ := ih hq (by cases p <;> simp [PC.nxt] at hp hw ⊢) h3 h4
      exact ⟨j', t'', by omega, h6, h7, h8.trans (h5 hw)⟩
end

end S2P.RW
