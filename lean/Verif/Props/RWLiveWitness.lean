import Verif.Props.RWLive
import Verif.Props.FairWitness
/-
C150: executions that meet its hypotheses, and one in which two writers that take turns keep a reader out for ever.
-/
namespace S2P

section
variable {σ α : Type} {step : σ → α → Option σ} {s0 : σ}

theorem Run.fold (r : Run step s0) (k e : Nat) : (r.seg k e).foldlM step (r.st k) = some (r.st (k + e)) := by
  induction e with
  | zero => rfl
  | succ e ih =>
    rw [r.seg_succ, List.foldlM_append, ih]
    have := r.next (k + e)
    rw [Nat.add_assoc] at this
    simpa using this

theorem lasso_take [Inhabited α] {p cyc : List α} {r : Run step s0} (hr : ∀ i, r.act i = lassoAct p cyc i) (q e : Nat) (he : e ≤ cyc.length) :
    r.seg (p.length + q * cyc.length) e = cyc.take e := by
  have h := lasso_cycle p cyc q
  have : r.seg (p.length + q * cyc.length) cyc.length = cyc := by
    rw [← h]; simp only [Run.seg, hr, List.length_map, List.length_range]
  have h2 : r.seg (p.length + q * cyc.length) cyc.length =
      r.seg (p.length + q * cyc.length) e ++ r.seg (p.length + q * cyc.length + e) (cyc.length - e) := by
    rw [← Run.seg_add]; congr 1; omega
  have hl : (r.seg (p.length + q * cyc.length) e).length = e := by simp [Run.seg]
  have h3 : cyc.take e = (r.seg (p.length + q * cyc.length) e ++ r.seg (p.length + q * cyc.length + e) (cyc.length - e)).take e := by
    rw [← h2, this]
  rw [h3, List.take_append_of_le_length (by omega), List.take_of_length_le (by omega)]

/-- What holds after `p` and at every point of the cycle, holds from then on. -/
theorem lasso_always [Inhabited α] {p cyc : List α} (hc : cyc ≠ []) (P Q : σ → Prop) {r : Run step s0} (hr : ∀ i, r.act i = lassoAct p cyc i)
    (h0 : ∃ s, p.foldlM step s0 = some s ∧ P s) (hP : ∀ s, P s → ∃ s', cyc.foldlM step s = some s' ∧ P s')
    (hQ : ∀ s, P s → ∀ e, e < cyc.length → ∃ s', (cyc.take e).foldlM step s = some s' ∧ Q s') : ∀ j, p.length ≤ j → Q (r.st j) := by
  have hL : 0 < cyc.length := List.length_pos_iff.2 hc
  have hp : ∀ q, P (r.st (p.length + q * cyc.length)) := by
    intro q
    induction q with
    | zero =>
      obtain ⟨s, h1, h2⟩ := h0
      have h3 := r.fold 0 p.length
      rw [lasso_seg hr p.length (Nat.le_refl _), List.take_length, r.zero, h1] at h3
      injection h3 with h3
      rw [Nat.zero_add] at h3
      rw [Nat.zero_mul, Nat.add_zero, ← h3]; exact h2
    | succ q ih =>
      obtain ⟨s', h1, h2⟩ := hP _ ih
      have h3 := r.fold (p.length + q * cyc.length) cyc.length
      rw [lasso_take hr q _ (Nat.le_refl _), List.take_length, h1] at h3
      injection h3 with h3
      rw [Nat.succ_mul, ← Nat.add_assoc, ← h3]; exact h2
  intro j hj
  have hd : j = p.length + (j - p.length) / cyc.length * cyc.length + (j - p.length) % cyc.length := by
    have := Nat.div_add_mod' (j - p.length) cyc.length
    omega
  have hlt := Nat.mod_lt (j - p.length) hL
  obtain ⟨s', h1, h2⟩ := hQ _ (hp ((j - p.length) / cyc.length)) _ hlt
  have h3 := r.fold (p.length + (j - p.length) / cyc.length * cyc.length) ((j - p.length) % cyc.length)
  rw [lasso_take hr _ _ (Nat.le_of_lt hlt), h1, ← hd] at h3
  injection h3 with h3
  rw [← h3]; exact h2

/-- What is in the cycle is chosen again and again. -/
theorem lasso_strong [Inhabited α] {p cyc : List α} {r : Run step s0} (hr : ∀ i, r.act i = lassoAct p cyc i) {a : α} (ha : a ∈ cyc) :
    r.StrongFair a := by
  intro _ k
  obtain ⟨d, hd, rfl⟩ := List.getElem_of_mem ha
  exact lasso_again hr d hd k
end

namespace RW

/-- Nothing protected, no mutations: only the lock matters. -/
def noBody : Unit → Unit → List (Unit → Unit) := fun _ _ => []

instance : Inhabited (Act Unit) := ⟨.beginRead 0⟩

theorem foldlM_exec {D Op : Type} (body : Op → D → List (D → D)) (as : List (Act Op)) : ∀ m : M D Op, as.foldlM (M.step body) m = m.exec body as := by
  induction as with
  | nil => intro m; rfl
  | cons a as ih =>
    intro m
    rw [List.foldlM_cons, M.exec]
    cases h : m.step body a with
    | none => rfl
    | some m' => exact ih m'

/-- The record of completed operations does not matter. -/
theorem step_done {D Op : Type} {body : Op → D → List (D → D)} {m m' : M D Op} {a : Act Op} (h : m.step body a = some m') (dn : List Op) :
    ∃ dn', ({ m with done := dn } : M D Op).step body a = some { m' with done := dn' } := by
  cases a with
  | go i =>
    simp only [M.step] at h
    split at h
    · rename_i t ht
      have hgo : ∀ m'' : M D Op, (⟨m.th, m.lk, m.data, dn⟩ : M D Op).go body i t = some m'' →
          (⟨m.th, m.lk, m.data, dn⟩ : M D Op).step body (.go i) = some m'' := fun m'' h => by simpa only [M.step, ht] using h
      refine Exists.imp (fun dn' => hgo _) ?_
      rcases go_cases h with ⟨f, fs, h1, h2, rfl⟩ | ⟨l, pc', h1, h2, rfl⟩
      · exact ⟨dn, by simp [M.go, h1, h2, M.put]⟩
      · refine ⟨if t.pc = .wCS then dn ++ t.op.toList else dn, ?_⟩
        unfold M.go
        split
        · rename_i f fs e1 e2
          rw [h2 e1] at e2; simp at e2
        · simp only [h1, M.put]
    · simp at h
  | _ =>
    simp only [M.step] at h ⊢
    split at h
    · split at h
      · rename_i t ht hp
        injection h with h; subst h
        exact ⟨dn, by simp [ht, hp, M.put]⟩
      · simp at h
    · simp at h

theorem exec_done {D Op : Type} {body : Op → D → List (D → D)} (as : List (Act Op)) : ∀ {m m' : M D Op}, m.exec body as = some m' → ∀ dn,
    ∃ dn', ({ m with done := dn } : M D Op).exec body as = some { m' with done := dn' } := by
  induction as with
  | nil => intro m m' h dn; simp only [M.exec, Option.some.injEq] at h; subst h; exact ⟨dn, rfl⟩
  | cons a as ih =>
    intro m m' h dn
    simp only [M.exec] at h ⊢
    split at h
    · rename_i m1 hs
      obtain ⟨d1, h1⟩ := step_done hs dn
      rw [h1]
      exact ih h d1
    · simp at h

theorem foldlM_none {body : Unit → Unit → List (Unit → Unit)} {n : Nat} {r : Run (M.step body) (init n ())} {i : Nat} (hi : n ≤ i) :
    r.StrongFair (.go i) := by
  intro h
  exfalso
  obtain ⟨j, -, h⟩ := h 0
  have hlen : ∀ j, (r.st j).th.length = n := by
    intro j
    induction j with
    | zero => rw [r.zero]; simp [init]
    | succ j ih => rw [step_len (r.next j), ih]
  have : (r.st j).th[i]? = none := List.getElem?_eq_none (by rw [hlen]; exact hi)
  simp [M.step, this] at h

/-- Thread 0 writes and thread 1 reads, for ever; each time the reader has to wait for the writer. -/
def turns : List (Act Unit) :=
  [.beginWrite 0 (), .go 0, .go 0, .go 0, .go 0, .beginRead 1, .go 1, .go 0] ++ List.replicate 6 (.go 0) ++ List.replicate 12 (.go 1)

/-- Nobody is using the lock. -/
def Rest (n : Nat) (m : M Unit Unit) : Prop := ∃ dn, m = { init n () with done := dn }

set_option maxHeartbeats 1000000 in
/-- C150: a strongly fair execution with one writer, in which at position 7 the reader is waiting for the lock the writer has, and at position 1
the writer is. -/
theorem C150_meets : ∃ r : Run (M.step noBody) (init 2 ()), (∀ i, r.StrongFair (.go i)) ∧ (∀ k i, r.act k ≠ .nest i) ∧
    (∀ k i op, r.act k = .beginWrite i op → i = 0) ∧ (∃ t, (r.st 1).th[0]? = some t ∧ WantsWrite t) ∧
    (∃ t, (r.st 8).th[1]? = some t ∧ WantsRead t ∧ (r.st 8).step noBody (.go 1) = none) := by
  obtain ⟨r, hr⟩ := lasso_run (step := M.step noBody) (s0 := init 2 ()) [] turns (by simp [turns]) (Rest 2) ⟨init 2 (), rfl, [], rfl⟩ (by
    rintro _ ⟨dn, rfl⟩
    have h : (init 2 ()).exec noBody turns = some { init 2 () with done := [()] } := rfl
    obtain ⟨dn', h'⟩ := exec_done turns h dn
    exact ⟨_, (foldlM_exec _ _ _).trans h', dn', rfl⟩)
  have hmem : ∀ k, r.act k ∈ turns := by
    intro k
    rw [hr]
    rcases lasso_mem (p := []) (cyc := turns) (by simp [turns]) k with ⟨h, -⟩ | ⟨-, h⟩
    · simp at h
    · exact h
  refine ⟨r, fun i => ?_, fun k i h => ?_, fun k i op h => ?_, ?_, ?_⟩
  · by_cases h0 : i = 0
    · subst h0; exact lasso_strong hr (by simp [turns])
    · by_cases h1 : i = 1
      · subst h1; exact lasso_strong hr (by simp [turns])
      · exact foldlM_none (by omega)
  · have := hmem k
    rw [h] at this; simp [turns] at this
  · have := hmem k
    rw [h] at this; simp [turns] at this
    exact this
  · have h := r.fold 0 1
    have h1 := lasso_take hr 0 1 (by simp [turns])
    simp only [List.length_nil, Nat.zero_mul, Nat.add_zero] at h1
    rw [h1, r.zero] at h
    rw [foldlM_exec] at h
    have h2 : ∃ m t, (init 2 ()).exec noBody (turns.take 1) = some m ∧ m.th[0]? = some t ∧ t.pc = .w1 := ⟨_, _, rfl, rfl, rfl⟩
    obtain ⟨m, t, e1, e2, e3⟩ := h2
    rw [e1] at h; injection h with h
    rw [Nat.zero_add] at h
    rw [← h]
    exact ⟨t, e2, by simp [WantsWrite, e3]⟩
  · have h := r.fold 0 8
    have h1 := lasso_take hr 0 8 (by simp [turns])
    simp only [List.length_nil, Nat.zero_mul, Nat.add_zero] at h1
    rw [h1, r.zero] at h
    rw [foldlM_exec] at h
    have h2 : ∃ m t, (init 2 ()).exec noBody (turns.take 8) = some m ∧ m.th[1]? = some t ∧ t.pc = .r2 ∧ m.step noBody (.go 1) = none :=
      ⟨_, _, rfl, rfl, rfl, rfl⟩
    obtain ⟨m, t, e1, e2, e3, e4⟩ := h2
    rw [e1] at h; injection h with h
    rw [Nat.zero_add] at h
    rw [← h]
    exact ⟨t, e2, by simp [WantsRead, e3], e4⟩

/-- Writer 0 is inside; reader 2 asks and waits at the gate. -/
def starve0 : List (Act Unit) := [.beginWrite 0 ()] ++ List.replicate 5 (.go 0) ++ [.beginRead 2, .go 2]

/-- Writer `b` asks while writer `a` is inside; `a` leaves, `b` enters. -/
def handOver (a b : Nat) : List (Act Unit) := [.beginWrite b ()] ++ List.replicate 4 (.go b) ++ List.replicate 6 (.go a) ++ [.go b]

/-- Writer 0 inside, reader 2 at the gate. -/
def gate : M Unit Unit :=
  ⟨[⟨.wCS, 0, some (), [], []⟩, ⟨.idle, 0, none, [], []⟩, ⟨.r2, 0, none, [], []⟩], ⟨true, true, true, false, false, 0, 1⟩, (), []⟩

def Gate (m : M Unit Unit) : Prop := ∃ dn, m = { gate with done := dn }

set_option maxHeartbeats 1000000 in
/-- **C150** the condition on the writers is needed: two writers that take turns keep a reader waiting for ever, although the execution is
strongly fair to everybody. -/
theorem C150_readers_may_starve : ∃ r : Run (M.step noBody) (init 3 ()), (∀ i, r.StrongFair (.go i)) ∧ (∀ k i, r.act k ≠ .nest i) ∧
    ∃ k, ∀ j, k ≤ j → ∃ t, (r.st j).th[2]? = some t ∧ WantsRead t ∧ (r.st j).step noBody (.go 2) = none := by
  have hc : handOver 0 1 ++ handOver 1 0 ≠ [] := by simp [handOver]
  have hp : ∃ s, starve0.foldlM (M.step noBody) (init 3 ()) = some s ∧ Gate s := by
    rw [foldlM_exec]; exact ⟨_, rfl, [], rfl⟩
  have hP : ∀ s, Gate s → ∃ s', (handOver 0 1 ++ handOver 1 0).foldlM (M.step noBody) s = some s' ∧ Gate s' := by
    rintro _ ⟨dn, rfl⟩
    have h : gate.exec noBody (handOver 0 1 ++ handOver 1 0) = some { gate with done := [(), ()] } := rfl
    obtain ⟨dn', h'⟩ := exec_done _ h dn
    exact ⟨_, (foldlM_exec _ _ _).trans h', dn', rfl⟩
  obtain ⟨r, hr⟩ := lasso_run (step := M.step noBody) (s0 := init 3 ()) starve0 (handOver 0 1 ++ handOver 1 0) hc Gate hp hP
  have hst := lasso_always hc Gate (fun m => ∃ t, m.th[2]? = some t ∧ t.pc = .r2 ∧ m.lk.nr = true) hr hp hP (by
    rintro _ ⟨dn, rfl⟩ e he
    have hl : (handOver 0 1 ++ handOver 1 0).length = 24 := rfl
    rw [hl] at he
    have key : ∃ m', gate.exec noBody ((handOver 0 1 ++ handOver 1 0).take e) = some m' ∧ ∃ t, m'.th[2]? = some t ∧ t.pc = .r2 ∧ m'.lk.nr = true := by
     rcases e with _ | _ | _ | _ | _ | _ | _ | _ | _ | _ | _ | _ | _ | _ | _ | _ | _ | _ | _ | _ | _ | _ | _ | _ | e
     all_goals first | exact ⟨_, rfl, _, rfl, rfl, rfl⟩ | omega
    obtain ⟨m', h1, h2⟩ := key
    obtain ⟨dn', h'⟩ := exec_done _ h1 dn
    exact ⟨_, (foldlM_exec _ _ _).trans h', h2⟩)
  have hst' : ∀ j, starve0.length ≤ j → ∃ t, (r.st j).th[2]? = some t ∧ WantsRead t ∧ (r.st j).step noBody (.go 2) = none := by
    intro j hj
    obtain ⟨t, h1, h2, h3⟩ := hst j hj
    refine ⟨t, h1, by simp [WantsRead, h2], ?_⟩
    simp [M.step, h1, M.go, h2, Lk.stmt, h3]
  refine ⟨r, fun i => ?_, fun k i h => ?_, starve0.length, hst'⟩
  · by_cases h0 : i = 0
    · subst h0; exact lasso_strong hr (by simp [handOver])
    · by_cases h1 : i = 1
      · subst h1; exact lasso_strong hr (by simp [handOver])
      · by_cases h2 : i = 2
        · subst h2
          intro hen
          exfalso
          obtain ⟨j, hj, h⟩ := hen starve0.length
          obtain ⟨-, -, -, h3⟩ := hst' j hj
          rw [h3] at h; simp at h
        · exact foldlM_none (by omega)
  · rw [hr] at h
    rcases lasso_mem (p := starve0) hc k with ⟨-, h'⟩ | ⟨-, h'⟩ <;> rw [h] at h' <;> simp [starve0, handOver] at h'

end RW
end S2P
