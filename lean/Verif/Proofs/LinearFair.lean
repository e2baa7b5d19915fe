import Verif.Proofs.LinearLive
import Verif.Proofs.Fine
import Verif.Props.RWLive
/- Calls on the locked buffer of Model/Linear.lean return, along infinite, strongly fair executions (C164). -/
namespace S2P.LM
open RW Spec
variable {K V : Type} [LinearOrder K] [BEq V] {s s' : LM K V}

/-- A step, or none. -/
def stepS (s : LM K V) : Option (LAct K V) → Option (LM K V)
  | none => some s
  | some a => s.step a

theorem nonOverlapping_ret {C R : Type} {on : C → Prop} {h : List (HEv C R)} (hX : NonOverlapping on h) (id : Nat) (r : R) : NonOverlapping on (h ++ [.ret id r]) := by
  intro h1 h2 h3 a c b c' e
  rcases List.eq_nil_or_concat h3 with rfl | ⟨h3', x, rfl⟩
  · have e' : h ++ [.ret id r] = (h1 ++ .inv a c :: h2) ++ [.inv b c'] := by rw [e]
    have := (List.append_inj' e' rfl).2
    simp at this
  · have e' : h ++ [.ret id r] = (h1 ++ .inv a c :: h2 ++ .inv b c' :: h3') ++ [x] := by rw [e]; simp
    exact hX h1 h2 h3' a c b c' (List.append_inj' e' rfl).1

/-- A statement of a call adds to the history at most the return of the call. -/
theorem go_hist {i : Nat} (hs : s.step (.go i) = some s') : s'.hist = s.hist ∨ ∃ id r, s'.hist = s.hist ++ [.ret id r] := by
  have ha : ∀ p m, (s.arrive i p m).hist = s.hist ∨ ∃ id r, (s.arrive i p m).hist = s.hist ++ [.ret id r] := by
    intro p m
    simp only [arrive]
    split
    · split
      · exact .inr ⟨_, _, rfl⟩
      · exact .inl rfl
    · exact .inl rfl
  have hW : ∀ {p op t}, s.goW i p op t = some s' → s'.hist = s.hist ∨ ∃ id r, s'.hist = s.hist ++ [.ret id r] := by
    intro p op t hs
    simp only [goW] at hs
    split at hs
    · simp at hs
    · split at hs
      · injection hs with hs; subst hs; exact .inl rfl
      · split at hs
        · split at hs
          · injection hs with hs; subst hs; exact .inl rfl
          · simp at hs
        · injection hs with hs; subst hs; exact ha _ _
  simp only [step] at hs
  split at hs
  · split at hs
    · exact hW hs
    · exact hW hs
    · simp only [goR] at hs
      split at hs
      · split at hs
        · simp only [Option.map_eq_some_iff] at hs
          obtain ⟨m', hm, rfl⟩ := hs
          exact .inl rfl
        · simp only [Option.map_eq_some_iff] at hs
          obtain ⟨m', hm, rfl⟩ := hs
          exact .inl rfl
        · split at hs
          · simp only [Option.map_eq_some_iff] at hs
            obtain ⟨m', hm, rfl⟩ := hs
            exact .inl rfl
          · simp at hs
        · split at hs
          · simp only [Option.map_eq_some_iff] at hs
            obtain ⟨m', hm, rfl⟩ := hs
            exact .inl rfl
          · simp at hs
      · simp only [Option.map_eq_some_iff] at hs
        obtain ⟨m', hm, rfl⟩ := hs
        exact ha _ _
  · simp at hs

theorem go_excl {i : Nat} (hs : s.step (.go i) = some s') (hX : ∀ r, NonOverlapping (onReader (K := K) (V := V) r) s.hist) :
    ∀ r, NonOverlapping (onReader (K := K) (V := V) r) s'.hist := by
  intro r
  rcases go_hist hs with e | ⟨id, o, e⟩
  · rw [e]; exact hX r
  · rw [e]; exact nonOverlapping_ret (hX r) id o

/-- The beginning of a call: what it does to the threads and to the calls in progress. -/
theorem call_shape {i : Nat} {c : ChOp K V} (hs : s.step (.call i c) = some s') :
    (∀ j, j ≠ i → s'.pend j = s.pend j) ∧ s.pend i = none ∧
    ((s'.m = s.m ∧ s'.pend i = none) ∨
     ((∃ p', s'.pend i = some p' ∧ p'.call = c ∧ p'.eff = false) ∧
      (s.m.step bufBody (.beginRead i) = some s'.m ∨ ∃ op, asW c = some op ∧ s.m.step bufBody (.beginWrite i op) = some s'.m))) := by
  simp only [step] at hs
  split at hs
  · simp at hs
  rename_i hn
  have hn : s.pend i = none := by simpa using hn
  cases c with
  | append v | drop n =>
    simp only [Option.map_eq_some_iff] at hs
    obtain ⟨m', hm, rfl⟩ := hs
    exact ⟨fun j hj => by simp only [invoke, setPend, hj, if_false], hn, .inr ⟨⟨_, if_pos rfl, rfl, rfl⟩, .inr ⟨_, rfl, hm⟩⟩⟩
  | rd r op =>
    cases op with
    | setLast v | delLast =>
      simp only [Option.some.injEq] at hs
      subst hs
      exact ⟨fun _ _ => rfl, hn, .inl ⟨rfl, hn⟩⟩
    | read | nextMethod | readForNext | range | tail | head =>
      simp only [Option.map_eq_some_iff] at hs
      obtain ⟨m', hm, rfl⟩ := hs
      exact ⟨fun j hj => by simp only [invoke, setPend, hj, if_false], hn, .inr ⟨⟨_, if_pos rfl, rfl, rfl⟩, .inl hm⟩⟩

section
variable {n : Nat} {key : V → K} {keyNone : Py (Option K)} {maxlen : Option Nat} {cfg : Nat → Cfg}

/-- The conditions: a thread that can go on again and again does so again and again; nobody enters a section inside a section; calls on one reader do not overlap. -/
structure Live (r : Run (stepS (K := K) (V := V)) (init n key keyNone maxlen cfg)) : Prop where
  fair : ∀ i, r.StrongFair (some (.go i))
  flat : ∀ k i c, r.act k = some (.call i c) → ¬ nests c
  excl : ∀ k c, NonOverlapping (onReader (K := K) (V := V) c) (r.st k).hist

variable {r : Run (stepS (K := K) (V := V)) (init n key keyNone maxlen cfg)}

/-- Everything known about the states. -/
structure Known (n : Nat) (d0 : SD K V) (r0 : Nat → Reader K V) (s : LM K V) : Prop where
  a : AInv d0 r0 s
  h : HInv s
  b : BalInv s
  l : LiveInv s
  flat : ∀ i p, s.pend i = some p → ¬ nests p.call

theorem Live.known (h : Live r) (k : Nat) : Known n (SD.empty key keyNone maxlen) (fun i => Reader.init (cfg i)) (r.st k) := by
  induction k with
  | zero =>
    rw [r.zero]
    obtain ⟨h1, h2⟩ := inv_init n key keyNone maxlen cfg
    exact ⟨h1, h2, fun i p r op t hp => by simp [LM.init] at hp, ⟨fun i p hp => by simp [LM.init] at hp, fun i p t hp => by simp [LM.init] at hp⟩,
      fun i p hp => by simp [LM.init] at hp⟩
  | succ k ih =>
    have hs := r.next k
    cases ha : r.act k with
    | none =>
      rw [ha] at hs
      simp only [stepS, Option.some.injEq] at hs
      rw [← hs]; exact ih
    | some a =>
      rw [ha] at hs
      simp only [stepS] at hs
      obtain ⟨h1, h2⟩ := inv_step (h.excl (k + 1)) ih.a ih.h hs
      refine ⟨h1, h2, bal_step ih.a ih.b hs, live_step ih.a.rw ih.l hs, ?_⟩
      intro i p hp
      cases a with
      | call j c =>
        obtain ⟨e1, -, e2⟩ := call_shape hs
        by_cases hj : i = j
        · subst hj
          rcases e2 with ⟨-, e2⟩ | ⟨⟨p', e2, e3, -⟩, -⟩
          · rw [e2] at hp; cases hp
          · rw [e2] at hp; injection hp with hp; subst hp
            rw [e3]; exact h.flat k i c ha
        · rw [e1 i hj] at hp; exact ih.flat i p hp
      | go j =>
        obtain ⟨p0, t, e0, -, e1, e2⟩ := go_shape hs
        by_cases hj : i = j
        · subst hj
          have hc : p.call = p0.call := by
            rcases e2 with ⟨-, e2 | ⟨p', e2, e3, -⟩⟩ | ⟨_, p', -, -, -, e2, e3, -⟩ | ⟨_, p', -, -, -, e2, e3, -⟩
            · rw [e2] at hp; cases hp
            all_goals (rw [e2] at hp; injection hp with hp; subst hp; exact e3)
          rw [hc]; exact ih.flat i p0 e0
        · rw [e1 i hj] at hp; exact ih.flat i p hp

/-- What a step of the run is for the lock, and for the other threads. -/
theorem Live.proj (h : Live r) (k : Nat) : ∃ a, RW.stepS bufBody (r.st k).m a = some (r.st (k + 1)).m ∧ (∀ i, a ≠ some (.nest i)) ∧
    (∀ i op, a = some (.beginWrite i op) → ∃ c, r.act k = some (.call i c) ∧ asW c = some op) ∧
    ∀ i, r.act k = some (.go i) → a = some (.go i) ∨ ∃ q p p', (r.st k).pend i = some p ∧ p.rest = .look q ∧ (r.st (k + 1)).pend i = some p' ∧ p'.rest = q (r.st k).m.data := by
  have hs := r.next k
  cases ha : r.act k with
  | none =>
    rw [ha] at hs
    simp only [stepS, Option.some.injEq] at hs
    exact ⟨none, by rw [← hs]; rfl, by simp, by simp, by simp⟩
  | some a =>
    rw [ha] at hs
    simp only [stepS] at hs
    cases a with
    | call i c =>
      obtain ⟨-, -, ⟨e, -⟩ | ⟨-, e | ⟨op, e1, e2⟩⟩⟩ := call_shape hs
      · exact ⟨none, by rw [e]; rfl, by simp, by simp, by simp⟩
      · exact ⟨some (.beginRead i), e, by simp, by simp, by simp⟩
      · refine ⟨some (.beginWrite i op), e2, by simp, ?_, by simp⟩
        intro i' op' e; simp only [Option.some.injEq, Act.beginWrite.injEq] at e
        obtain ⟨rfl, rfl⟩ := e
        exact ⟨c, rfl, e1⟩
    | go i =>
      obtain ⟨p, t, hp, ht, -, ⟨hm, -⟩ | ⟨q, p', -, hm, e1, e2, -, e3⟩ | ⟨q, p', -, hm, e1, -, -, -⟩⟩ := go_shape hs
      · refine ⟨some (.go i), hm, by simp, by simp, ?_⟩
        intro j e; simp only [Option.some.injEq, LAct.go.injEq] at e; subst e; exact .inl rfl
      · refine ⟨some (.look i), hm, by simp, by simp, ?_⟩
        intro j e; simp only [Option.some.injEq, LAct.go.injEq] at e; subst e
        exact .inr ⟨q, p, p', hp, e1, e2, e3⟩
      · have := ((h.known k).l.flat i p t hp ht ((h.known k).flat i p hp)).1
        rw [e1] at this
        exact this.elim

/-- The same execution, of the lock. -/
noncomputable def Live.lock (h : Live r) : Run (RW.stepS bufBody) (RW.init n (SD.empty key keyNone maxlen)) :=
  ⟨fun k => (h.proj k).choose, fun k => (r.st k).m, by rw [r.zero]; rfl, fun k => (h.proj k).choose_spec.1⟩

/-- Somebody else's step does not touch the call. -/
theorem Live.keep (_h : Live r) {k i : Nat} {p : Pend K V} (hp : (r.st k).pend i = some p) (hg : r.act k ≠ some (.go i)) : (r.st (k + 1)).pend i = some p := by
  have hs := r.next k
  cases ha : r.act k with
  | none =>
    rw [ha] at hs
    simp only [stepS, Option.some.injEq] at hs
    rw [← hs]; exact hp
  | some a =>
    rw [ha] at hs hg
    simp only [stepS] at hs
    cases a with
    | call j c =>
      obtain ⟨e1, e2, -⟩ := call_shape hs
      have : i ≠ j := by rintro rfl; rw [e2] at hp; cases hp
      rw [e1 i this]; exact hp
    | go j =>
      obtain ⟨-, -, -, -, e1, -⟩ := go_shape hs
      have : i ≠ j := by rintro rfl; exact hg rfl
      rw [e1 i this]; exact hp

theorem Live.idle (h : Live r) {k i : Nat} {t : Th (SD K V) (WOp V)} (ht : (r.st k).m.th[i]? = some t) : t.pc = .idle ↔ (r.st k).pend i = none := by
  have hok := (h.known k).a.thr i t ht
  constructor
  · intro hpc
    cases hp : (r.st k).pend i with
    | none => rfl
    | some p =>
      rw [hp] at hok
      obtain ⟨id, c, rest, out, eff⟩ := p
      cases c with
      | rd r op => have := hok.1; rw [hpc] at this; simp [PC.reading] at this
      | append v | drop n =>
        obtain ⟨op, -, -, h1, h2⟩ := hok
        cases eff with
        | true => have := h2 rfl; rw [hpc] at this; simp at this
        | false => have := (h1 rfl).1; rw [hpc] at this; simp at this
  · intro hp; rw [hp] at hok; exact hok

/-- The lock is shared fairly as well: looking at the data is all a call can do without moving on in the lock, and it looks finitely often. -/
theorem Live.lockFair (h : Live r) (i : Nat) : h.lock.StrongFair (some (.go i)) := by
  intro hen k
  have hen' : ∀ k, ∃ j, k ≤ j ∧ (stepS (r.st j) (some (.go i))).isSome = true := by
    intro k
    obtain ⟨j, h1, h2⟩ := hen k
    refine ⟨j, h1, ?_⟩
    have h2 : ((r.st j).m.step bufBody (.go i)).isSome = true := h2
    have hth : ∃ t, (r.st j).m.th[i]? = some t := by
      cases hu : (r.st j).m.th[i]? with
      | none => simp [M.step, hu] at h2
      | some u => exact ⟨u, rfl⟩
    obtain ⟨t, ht⟩ := hth
    have hni : t.pc ≠ .idle := by
      intro hc; simp [M.step, ht, M.go, hc, Lk.stmt] at h2
    cases hp : (r.st j).pend i with
    | none => exact absurd ((h.idle ht).2 hp) hni
    | some p =>
      have := go_iff (h.known j).a (h.known j).b hp ht
      rw [h2] at this
      exact this
  have hgo := h.fair i hen'
  by_contra hc
  have hlook : ∀ j, k ≤ j → r.act j = some (.go i) →
      ∃ q p p', (r.st j).pend i = some p ∧ p.rest = .look q ∧ (r.st (j + 1)).pend i = some p' ∧ p'.rest = q (r.st j).m.data := by
    intro j hj ha
    rcases (h.proj j).choose_spec.2.2.2 i ha with e | e
    · exact absurd ⟨j, hj, e⟩ hc
    · exact e
  have key : ∀ q : Prog (SD K V) (Py (Ret V) × Reader K V), ∀ j, k ≤ j → ∀ p, (r.st j).pend i = some p → p.rest = q → False := by
    intro q
    have next : ∀ j, k ≤ j → ∀ p, (r.st j).pend i = some p → ∃ j', k ≤ j' ∧ (r.st j').pend i = some p ∧ r.act j' = some (.go i) := by
      intro j hj p hp
      obtain ⟨j', h1, h2⟩ := hgo j
      obtain ⟨e, rfl⟩ := Nat.exists_eq_add_of_le h1
      clear h1
      induction e generalizing j with
      | zero => exact ⟨j, hj, hp, h2⟩
      | succ e ih =>
        by_cases hg : r.act j = some (.go i)
        · exact ⟨j, hj, hp, hg⟩
        · exact ih (j + 1) (by omega) (h.keep hp hg) (by rw [show j + 1 + e = j + (e + 1) by omega]; exact h2)
    induction q with
    | look q ih =>
      intro j hj p hp hr
      obtain ⟨j', h1, h2, h3⟩ := next j hj p hp
      obtain ⟨q', p1, p2, h4, h5, h6, h7⟩ := hlook j' h1 h3
      rw [h2] at h4; injection h4 with h4; subst h4
      rw [hr] at h5; injection h5 with h5; subst h5
      exact ih _ (j' + 1) (by omega) p2 h6 h7
    | ret x | lock q ih | unlock q ih =>
      intro j hj p hp hr
      obtain ⟨j', h1, h2, h3⟩ := next j hj p hp
      obtain ⟨q', p1, p2, h4, h5, h6, h7⟩ := hlook j' h1 h3
      rw [h2] at h4; injection h4 with h4; subst h4
      rw [hr] at h5; cases h5
  obtain ⟨j, hj, ha⟩ := hgo k
  obtain ⟨q, p, p', h1, h2, h3, h4⟩ := hlook j hj ha
  exact key _ (j + 1) (by omega) p' h3 rfl

theorem Live.lockFlat (h : Live r) (k i : Nat) : h.lock.act k ≠ some (.nest i) := (h.proj k).choose_spec.2.1 i

/-- An append or a drop returns. -/
theorem Live.writer_returns (h : Live r) {k i : Nat} {p : Pend K V} (hp : (r.st k).pend i = some p) {op : WOp V} (hc : asW p.call = some op) :
    ∃ j, k ≤ j ∧ (r.st j).pend i = none := by
  obtain ⟨t, ht⟩ := (h.known k).l.thread i p hp
  have hok := (h.known k).a.thr i t ht
  rw [hp] at hok
  have hd : WantsWrite t ∨ Leaving t := by
    obtain ⟨id, c, rest, out, eff⟩ := p
    cases c with
    | rd r op => simp [asW] at hc
    | append v | drop n =>
      obtain ⟨op', -, -, h1, h2⟩ := hok
      simp only [WantsWrite, Leaving]
      cases eff with
      | true =>
        have := h2 rfl
        simp only [List.mem_cons, List.not_mem_nil, or_false] at this ⊢
        tauto
      | false =>
        have := (h1 rfl).1
        simp only [List.mem_cons, List.not_mem_nil, or_false] at this ⊢
        tauto
  have hend : ∀ {j t}, (r.st j).m.th[i]? = some t → Leaving t → ∃ j', j ≤ j' ∧ (r.st j').pend i = none := by
    intro j t ht hl
    obtain ⟨j', t', h1, h2, h3⟩ := sections_end (r := h.lock) h.lockFair h.lockFlat (k := j) ht hl
    exact ⟨j', h1, (h.idle h2).1 h3⟩
  rcases hd with hd | hd
  · obtain ⟨j, t', h1, h2, h3, -⟩ := writer_enters (r := h.lock) h.lockFair h.lockFlat (k := k) ht hd
    obtain ⟨j', h4, h5⟩ := hend (j := j) h2 (.inr (by rw [h3]; simp))
    exact ⟨j', by omega, h5⟩
  · exact hend ht hd

/-- A call of a reader returns, if appends and drops pause again and again. -/
theorem Live.reader_returns (h : Live r) (hq : ∀ k, ∃ j, k ≤ j ∧ ∀ i p, (r.st j).pend i = some p → asW p.call = none) {k i : Nat} {p : Pend K V}
    (hp : (r.st k).pend i = some p) : ∃ j, k ≤ j ∧ (r.st j).pend i = none := by
  cases hc : asW p.call with
  | some op => exact h.writer_returns hp hc
  | none =>
    obtain ⟨t, ht⟩ := (h.known k).l.thread i p hp
    have hok := (h.known k).a.thr i t ht
    have hend : ∀ {j t}, (r.st j).m.th[i]? = some t → Leaving t → ∃ j', j ≤ j' ∧ (r.st j').pend i = none := by
      intro j t ht hl
      obtain ⟨j', t', h1, h2, h3⟩ := sections_end (r := h.lock) h.lockFair h.lockFlat (k := j) ht hl
      exact ⟨j', h1, (h.idle h2).1 h3⟩
    have hni : t.pc ≠ .idle := by
      intro e; rw [(h.idle ht).1 e] at hp; cases hp
    have hd : WantsRead t ∨ Leaving t := by
      rw [hp] at hok
      obtain ⟨id, c, rest, out, eff⟩ := p
      cases c with
      | rd r op =>
        have h1 := hok.1
        simp only [WantsRead, Leaving]
        cases hpc : t.pc <;> simp [hpc, PC.reading] at h1 hni ⊢
      | append v | drop n => simp [asW] at hc
    rcases hd with hd | hd
    · have hq' : ∀ k, ∃ j, k ≤ j ∧ ∀ t ∈ (h.lock.st j).th, ¬ Writes t := by
        intro k
        obtain ⟨j, h1, h2⟩ := hq k
        refine ⟨j, h1, fun t ht hw => ?_⟩
        obtain ⟨i', hi'⟩ := List.getElem?_of_mem ht
        have hi' : (r.st j).m.th[i']? = some t := hi'
        have hok := (h.known j).a.thr i' t hi'
        cases hp' : (r.st j).pend i' with
        | none =>
          have := (h.idle hi').2 hp'
          simp only [Writes, WantsWrite, this] at hw
          simp at hw
        | some p' =>
          have := h2 i' p' hp'
          rw [hp'] at hok
          obtain ⟨id, c, rest, out, eff⟩ := p'
          cases c with
          | rd r op =>
            have h1 := hok.1
            simp only [Writes, WantsWrite] at hw
            cases hpc : t.pc <;> simp [hpc, PC.reading] at h1 hw
          | append v | drop n => simp [asW] at this
      obtain ⟨j, t', h1, h2, h3⟩ := reader_enters (r := h.lock) h.lockFair h.lockFlat hq' (k := k) ht hd
      obtain ⟨j', h4, h5⟩ := hend (j := j) h2 (.inl (by rw [h3]; simp))
      exact ⟨j', by omega, h5⟩
    · exact hend ht hd

/-- Appends and drops pause again and again if only one thread makes them. -/
theorem Live.one_writer (h : Live r) {w : Nat} (hw : ∀ k i p, (r.st k).pend i = some p → asW p.call ≠ none → i = w) (k : Nat) :
    ∃ j, k ≤ j ∧ ∀ i p, (r.st j).pend i = some p → asW p.call = none := by
  have fin : ∀ {j}, (∀ p, (r.st j).pend w = some p → asW p.call = none) → ∀ i p, (r.st j).pend i = some p → asW p.call = none := by
    intro j hj i p hp
    by_contra hc
    have := hw j i p hp hc
    subst this
    exact hc (hj p hp)
  cases hp : (r.st k).pend w with
  | none => exact ⟨k, Nat.le_refl _, fin fun p h' => by rw [hp] at h'; cases h'⟩
  | some p =>
    cases hc : asW p.call with
    | none => exact ⟨k, Nat.le_refl _, fin fun p' h' => by rw [hp] at h'; injection h' with h'; subst h'; exact hc⟩
    | some op =>
      obtain ⟨j, h1, h2⟩ := h.writer_returns hp hc
      exact ⟨j, h1, fin fun p h' => by rw [h2] at h'; cases h'⟩
end
end S2P.LM
