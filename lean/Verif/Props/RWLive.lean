import Verif.Proofs.RWLive
import Verif.Props.RWLock
/-
C150: who waits for the lock gets it (Model/RWLock.lean), along every infinite execution in which a thread whose next statement is possible
again and again gets to execute it (`Run.StrongFair`), and in which nobody enters a reader section inside a reader section (C30: those can
deadlock).
-/
namespace S2P.RW
variable {D Op : Type} {body : Op → D → List (D → D)} {n : Nat} {d : D} 

/-- Inside a section or on the way out of it. -/
def Leaving (t : Th D Op) : Prop := t.pc ∈ [PC.rCS, .x1, .x2, .x3, .x4] ∨ t.pc ∈ [PC.wCS, .y0, .y1, .y2, .y3, .y4]

/-- Waiting to enter a reader section. -/
def WantsRead (t : Th D Op) : Prop := t.pc ∈ [PC.r1, .r2, .r3, .r4, .r5, .r6, .r7, .r8]

/-- Waiting to enter a writer section. -/
def WantsWrite (t : Th D Op) : Prop := t.pc ∈ [PC.w1, .w2, .w3, .w4, .w5]

/-- Waiting for, inside, or leaving a writer section. -/
def Writes (t : Th D Op) : Prop := WantsWrite t ∨ t.pc ∈ [PC.wCS, .y0, .y1, .y2, .y3, .y4]

section
variable {r : Run (stepS body) (init n d)}

/-- whoever asks for the writer lock gets in, with the operation it came for. -/
theorem writer_enters (hf : ∀ i, r.StrongFair (some (.go i))) (hn : ∀ k i, r.act k ≠ some (.nest i)) {k i : Nat} {t : Th D Op}
    (ht : (r.st k).th[i]? = some t) (hw : WantsWrite t) :
    ∃ j t', k ≤ j ∧ (r.st j).th[i]? = some t' ∧ t'.pc = .wCS ∧ t'.op = t.op := by
  have h : Ok r := ⟨hf, hn⟩
  refine h.flowOp (h.toW _ hw) rfl ?_ ht rfl
  unfold WantsWrite at hw
  simp only [List.mem_cons, List.not_mem_nil, or_false] at hw ⊢
  tauto

/-- every section ends. -/
theorem sections_end (hf : ∀ i, r.StrongFair (some (.go i))) (hn : ∀ k i, r.act k ≠ some (.nest i)) {k i : Nat} {t : Th D Op}
    (ht : (r.st k).th[i]? = some t) (hl : Leaving t) : ∃ j t', k ≤ j ∧ (r.st j).th[i]? = some t' ∧ t'.pc = .idle := by
  have h : Ok r := ⟨hf, hn⟩
  rcases hl with hl | hl
  · obtain ⟨j, hj, t', h1, h2⟩ := h.flow (h.outR _ hl) ⟨t, ht, rfl⟩
    exact ⟨j, t', hj, h1, h2⟩
  · obtain ⟨j, hj, t', h1, h2⟩ := h.flow (h.outW _ hl) ⟨t, ht, rfl⟩
    exact ⟨j, t', hj, h1, h2⟩

/-- and the operation of a writer is carried out: it becomes the latest completed one. -/
theorem writer_done (hf : ∀ i, r.StrongFair (some (.go i))) (hn : ∀ k i, r.act k ≠ some (.nest i)) {k i : Nat} {t : Th D Op}
    (ht : (r.st k).th[i]? = some t) (hw : WantsWrite t) {op : Op} (hop : t.op = some op) :
    ∃ j, k ≤ j ∧ (r.st (j + 1)).done = (r.st j).done ++ [op] ∧ r.act j = some (.go i) := by
  have h : Ok r := ⟨hf, hn⟩
  obtain ⟨j0, t0, hj0, h1, h2, h3⟩ := writer_enters hf hn ht hw
  rw [hop] at h3
  by_contra hc
  have hstk : Stk r .wCS := by
    refine ⟨i, j0, ?_⟩
    have key : ∀ e, ∃ t', (r.st (j0 + e)).th[i]? = some t' ∧ t'.pc = .wCS ∧ t'.op = some op := by
      intro e
      induction e with
      | zero => exact ⟨t0, h1, h2, h3⟩
      | succ e ih =>
        obtain ⟨t1, a1, a2, a3⟩ := ih
        obtain ⟨t2, a4, -, a5⟩ := h.step (j0 + e) a1
        rcases a5 with ⟨e1, -, e2, -⟩ | ⟨e1, e2, -, e3, -⟩ | ⟨e1, -⟩ | ⟨e0, -, e1, -⟩
        · exact ⟨t2, a4, e1.trans a2, e2.trans a3⟩
        · exact ⟨t2, a4, e2, e3.trans a3⟩
        · rw [a2] at e1; exact absurd e1 (by decide)
        · exfalso
          refine hc ⟨j0 + e, by omega, ?_, e0⟩
          have hs := r.next (j0 + e)
          rw [e0] at hs
          simp only [stepS, M.step, a1] at hs
          rcases go_cases hs with ⟨f, fs, -, -, hm⟩ | ⟨l, pc', -, -, hm⟩
          · rw [a2] at e1
            have := stmt_nxt e1
            exfalso
            have a6 := a4
            rw [hm] at a6
            have a7 := put_at (m := r.st (j0 + e)) { t1 with prog := fs } a1 a1
            rw [if_pos rfl] at a7
            have a8 : some t2 = some { t1 with prog := fs } := a6.symm.trans a7
            injection a8 with a8
            rw [a8] at this
            simp only [a2, PC.nxt] at this
            exact absurd this (by decide)
          · rw [hm]
            simp [a2, a3]
    intro j hj
    obtain ⟨e, rfl⟩ := Nat.exists_eq_add_of_le hj
    obtain ⟨t', a1, a2, -⟩ := key e
    exact ⟨t', a1, a2⟩
  exact h.free (by decide) rfl hstk

/-- whoever asks for the reader lock gets in, if the writers pause again and again. -/
theorem reader_enters (hf : ∀ i, r.StrongFair (some (.go i))) (hn : ∀ k i, r.act k ≠ some (.nest i))
    (hq : ∀ k, ∃ j, k ≤ j ∧ ∀ t ∈ (r.st j).th, ¬ Writes t) {k i : Nat} {t : Th D Op} (ht : (r.st k).th[i]? = some t) (hr : WantsRead t) :
    ∃ j t', k ≤ j ∧ (r.st j).th[i]? = some t' ∧ t'.pc = .rCS := by
  have h : Ok r := ⟨hf, hn⟩
  have h2 : ¬ Stk r .r2 := by
    refine h.r2 fun k => ?_
    obtain ⟨j, hj, hz⟩ := hq k
    refine ⟨j, hj, fun t ht => ?_⟩
    have := hz t ht
    simp only [Writes, WantsWrite] at this
    cases hp : t.pc <;> simp [hp, PC.reading] at this ⊢
  have h1 := h.r1 h2
  have e3 := h.toR .r3 (by simp)
  have e2 : Path r .r2 .rCS := .next (by decide) h2 e3
  have e1 : Path r .r1 .rCS := .next (by decide) h1 e2
  have hp : Path r t.pc .rCS := by
    have := h.toR t.pc
    simp only [WantsRead, List.mem_cons, List.not_mem_nil, or_false] at hr this
    rcases hr with hr | hr | hr | hr | hr | hr | hr | hr
    · rw [hr]; exact e1
    · rw [hr]; exact e2
    all_goals exact this (by tauto)
  obtain ⟨j, hj, t', a1, a2⟩ := h.flow hp ⟨t, ht, rfl⟩
  exact ⟨j, t', hj, a1, a2⟩

/-- in particular if only one thread ever writes (the thread that reads the source, when `drop` is not called): no reader waits for
ever. -/
theorem one_writer (hf : ∀ i, r.StrongFair (some (.go i))) (hn : ∀ k i, r.act k ≠ some (.nest i)) {w : Nat}
    (hw : ∀ k i op, r.act k = some (.beginWrite i op) → i = w) {k i : Nat} {t : Th D Op} (ht : (r.st k).th[i]? = some t) (hr : WantsRead t) :
    ∃ j t', k ≤ j ∧ (r.st j).th[i]? = some t' ∧ t'.pc = .rCS := by
  have h : Ok r := ⟨hf, hn⟩
  have hwr : ∀ t : Th D Op, Writes t ↔ t.pc.reading = false ∧ t.pc ≠ .idle := by
    intro t
    simp only [Writes, WantsWrite]
    cases hp : t.pc <;> simp [PC.reading]
  have only : ∀ j i t, (r.st j).th[i]? = some t → Writes t → i = w := by
    intro j
    induction j with
    | zero =>
      intro i t h1 h2
      rw [r.zero] at h1
      have := List.eq_of_mem_replicate (List.mem_of_getElem? h1)
      subst this
      rw [hwr] at h2; exact absurd rfl h2.2
    | succ j ih =>
      intro i t' h1 h2
      have hlen : (r.st (j + 1)).th.length = (r.st j).th.length := stepS_len (r.next j)
      have hil : i < (r.st j).th.length := hlen ▸ (List.getElem?_eq_some_iff.1 h1).1
      have h3 := List.getElem?_eq_getElem hil
      obtain ⟨t'', h4, -, h5⟩ := h.step j h3
      rw [h1] at h4; injection h4 with h4; subst h4
      rw [hwr] at h2
      rcases h5 with ⟨e1, -⟩ | ⟨e1, -⟩ | ⟨-, e1, -, e2⟩ | ⟨-, e0, e1, -⟩
      · exact ih i _ h3 ((hwr _).2 (by rw [← e1]; exact h2))
      · exact ih i _ h3 ((hwr _).2 (by rw [e1]; exact ⟨rfl, by decide⟩))
      · rcases e1 with e1 | e1
        · rw [e1] at h2; simp [PC.reading] at h2
        · obtain ⟨op, e3⟩ := e2 e1
          exact hw j i op e3
      · refine ih i _ h3 ((hwr _).2 ⟨?_, e0⟩)
        rw [← stmt_reading e1 h2.2]; exact h2.1
  refine reader_enters hf hn (fun k => ?_) ht hr
  by_cases hc : ∃ t, (r.st k).th[w]? = some t ∧ Writes t
  · obtain ⟨t, h1, h2⟩ := hc
    have : ∃ j t', k ≤ j ∧ (r.st j).th[w]? = some t' ∧ t'.pc = .idle := by
      rcases h2 with h2 | h2
      · obtain ⟨j, t', a1, a2, a3, -⟩ := writer_enters hf hn h1 h2
        obtain ⟨j', t'', b1, b2, b3⟩ := sections_end hf hn a2 (.inr (by rw [a3]; simp))
        exact ⟨j', t'', by omega, b2, b3⟩
      · exact sections_end hf hn h1 (.inr h2)
    obtain ⟨j, t', h3, h4, h5⟩ := this
    refine ⟨j, h3, fun s hs hws => ?_⟩
    obtain ⟨i', hi'⟩ := List.getElem?_of_mem hs
    have := only j i' s hi' hws
    subst this
    rw [h4] at hi'; injection hi' with hi'; subst hi'
    rw [hwr] at hws; exact hws.2 h5
  · refine ⟨k, Nat.le_refl k, fun s hs hws => ?_⟩
    obtain ⟨i', hi'⟩ := List.getElem?_of_mem hs
    have := only k i' s hi' hws
    subst this
    exact hc ⟨s, hi', hws⟩
end

variable {r : Run (M.step body) (init n d)}

/-- The same execution as one that may pause. -/
def still (r : Run (M.step body) (init n d)) : Run (stepS body) (init n d) := ⟨fun k => some (r.act k), r.st, r.zero, r.next⟩

theorem still_fair (hf : ∀ i, r.StrongFair (.go i)) (i : Nat) : (still r).StrongFair (some (.go i)) := by
  intro h k
  obtain ⟨j, h1, h2⟩ := hf i h k
  exact ⟨j, h1, congrArg some h2⟩

theorem still_flat (hn : ∀ k i, r.act k ≠ .nest i) (k i : Nat) : (still r).act k ≠ some (.nest i) := by
  intro h
  injection h with h
  exact hn k i h

/-- **C150** whoever asks for the writer lock gets in, with the operation it came for. -/
theorem C150_writer_enters (hf : ∀ i, r.StrongFair (.go i)) (hn : ∀ k i, r.act k ≠ .nest i) {k i : Nat} {t : Th D Op}
    (ht : (r.st k).th[i]? = some t) (hw : WantsWrite t) :
    ∃ j t', k ≤ j ∧ (r.st j).th[i]? = some t' ∧ t'.pc = .wCS ∧ t'.op = t.op :=
  writer_enters (r := still r) (still_fair hf) (still_flat hn) ht hw

/-- **C150** every section ends. -/
theorem C150_sections_end (hf : ∀ i, r.StrongFair (.go i)) (hn : ∀ k i, r.act k ≠ .nest i) {k i : Nat} {t : Th D Op}
    (ht : (r.st k).th[i]? = some t) (hl : Leaving t) : ∃ j t', k ≤ j ∧ (r.st j).th[i]? = some t' ∧ t'.pc = .idle :=
  sections_end (r := still r) (still_fair hf) (still_flat hn) ht hl

/-- **C150** and the operation of a writer is carried out: it becomes the latest completed one. -/
theorem C150_writer_done (hf : ∀ i, r.StrongFair (.go i)) (hn : ∀ k i, r.act k ≠ .nest i) {k i : Nat} {t : Th D Op}
    (ht : (r.st k).th[i]? = some t) (hw : WantsWrite t) {op : Op} (hop : t.op = some op) :
    ∃ j, k ≤ j ∧ (r.st (j + 1)).done = (r.st j).done ++ [op] ∧ r.act j = .go i := by
  obtain ⟨j, h1, h2, h3⟩ := writer_done (r := still r) (still_fair hf) (still_flat hn) ht hw hop
  exact ⟨j, h1, h2, Option.some.inj h3⟩

/-- **C150** whoever asks for the reader lock gets in, if the writers pause again and again. -/
theorem C150_reader_enters (hf : ∀ i, r.StrongFair (.go i)) (hn : ∀ k i, r.act k ≠ .nest i)
    (hq : ∀ k, ∃ j, k ≤ j ∧ ∀ t ∈ (r.st j).th, ¬ Writes t) {k i : Nat} {t : Th D Op} (ht : (r.st k).th[i]? = some t) (hr : WantsRead t) :
    ∃ j t', k ≤ j ∧ (r.st j).th[i]? = some t' ∧ t'.pc = .rCS :=
  reader_enters (r := still r) (still_fair hf) (still_flat hn) hq ht hr

/-- **C150** in particular if only one thread ever writes (the thread that reads the source, when `drop` is not called): no reader waits for
ever. -/
theorem C150_one_writer (hf : ∀ i, r.StrongFair (.go i)) (hn : ∀ k i, r.act k ≠ .nest i) {w : Nat}
    (hw : ∀ k i op, r.act k = .beginWrite i op → i = w) {k i : Nat} {t : Th D Op} (ht : (r.st k).th[i]? = some t) (hr : WantsRead t) :
    ∃ j t', k ≤ j ∧ (r.st j).th[i]? = some t' ∧ t'.pc = .rCS :=
  one_writer (r := still r) (still_fair hf) (still_flat hn) (fun k i op e => hw k i op (Option.some.inj e)) ht hr

end S2P.RW
