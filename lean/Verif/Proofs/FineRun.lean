import Verif.Proofs.FineSim
/-
C164: infinite executions of the statement-by-statement stream buffer, seen as executions of the locked buffer of a session, and of the one-step stream buffer.
-/
namespace S2P
open Spec
variable {K V I : Type}

namespace FSB
variable [LinearOrder K] [BEq V] {cfg : SBCfg K V} {n : Nat} {s s' : FSB K V I}

/-- What a step is for the locked buffer of session `b`. -/
theorem lm_sim {x : FAct K V I} (hs : s.step cfg x = some s') (b : Nat) :
    (∃ w, x = .low b w ∧ (s.lm b).step (.go w.num) = some (s'.lm b)) ∨
    ((∀ w, x ≠ .low b w) ∧ (s'.lm b = s.lm b ∨ ∃ (w : Who) (c : ChOp K V), (s.lm b).step (.call w.num c) = some (s'.lm b) ∧
      (LM.nests c → ∃ r op, x = .direct b r op ∧ c = .rd r op) ∧
      (LM.asW c ≠ none → (∃ t v, w = .thr t ∧ s.sb.thr t = .storing b v) ∨ ∃ d k, w = .dropper d ∧ s.sb.drops d = some (b, k)) ∧
      (one w = true → LM.asW c ≠ none))) := by
  have hset : ∀ b' w l, (b = b' ∧ (s.setLm b' w l).lm b = l) ∨ (b ≠ b' ∧ (s.setLm b' w l).lm b = s.lm b) := by
    intro b' w l
    by_cases hb : b = b'
    · exact .inl ⟨hb, if_pos hb⟩
    · exact .inr ⟨hb, if_neg hb⟩
  have huse : ∀ b' w a, s.use b' w a = some s' → (b = b' ∧ (s.lm b').step a = some (s'.lm b)) ∨ (b ≠ b' ∧ s'.lm b = s.lm b) := by
    intro b' w a h
    simp only [FSB.use] at h
    split at h
    · simp at h
    rename_i l hl
    split at h
    · injection h with h; subst h
      rcases hset b' w l with ⟨h1, h2⟩ | h1
      · exact .inl ⟨h1, by rw [h2]; exact hl⟩
      · exact .inr h1
    · simp only [Option.map_eq_some_iff] at h
      obtain ⟨y, -, rfl⟩ := h
      rcases hset b' w l with ⟨h1, h2⟩ | h1
      · refine .inl ⟨h1, ?_⟩
        have : ({ s.setLm b' w l with sb := y } : FSB K V I).lm b = l := h2
        rw [this]; exact hl
      · exact .inr h1
  cases x with
  | low b' w =>
    rcases huse _ _ _ hs with ⟨rfl, h⟩ | ⟨h1, h2⟩
    · exact .inl ⟨w, rfl, h⟩
    · exact .inr ⟨fun w e => by injection e with e; exact h1 e.symm, .inl h2⟩
  | direct b' r op =>
    refine .inr ⟨(fun w e => by cases e), ?_⟩
    simp only [FSB.step] at hs
    split at hs
    · simp at hs
    rcases huse _ _ _ hs with ⟨rfl, h⟩ | ⟨h1, h2⟩
    · exact .inr ⟨_, _, h, fun _ => ⟨r, op, rfl, rfl⟩, fun h => absurd rfl h, fun h => Bool.noConfusion h⟩
    · exact .inl h2
  | sb a =>
    refine .inr ⟨(fun w e => by cases e), ?_⟩
    have hplain : ∀ a, s.plain cfg a = some s' → s'.lm b = s.lm b := by
      intro a h
      obtain ⟨y, -, rfl⟩ := plain_some h
      rfl
    cases a with
    | thr t =>
      simp only [FSB.step] at hs
      split at hs
      swap
      · simp at hs
      split at hs
      · rename_i b' v hv
        rcases huse _ _ _ hs with ⟨rfl, h⟩ | ⟨h1, h2⟩
        · exact .inr ⟨_, _, h, (fun h => by cases h), (fun _ => .inl ⟨t, v, rfl, hv⟩), fun _ => by simp [LM.asW]⟩
        · exact .inl h2
      · split at hs
        · simp at hs
        split at hs <;> (injection hs with hs; subst hs; exact .inl rfl)
      · exact .inl (hplain _ hs)
    | infoGo c =>
      simp only [FSB.step] at hs
      split at hs
      · split at hs
        · simp at hs
        split at hs <;> (injection hs with hs; subst hs; exact .inl rfl)
      · exact .inl (hplain _ hs)
    | attach b0 i j =>
      simp only [FSB.step] at hs
      split at hs
      swap
      · simp at hs
      split at hs
      · exact .inl (hplain _ hs)
      rename_i b' _
      split at hs
      swap
      · simp at hs
      simp only [Option.map_eq_some_iff] at hs
      obtain ⟨l, hl, rfl⟩ := hs
      rcases hset b' (.direct j) l with ⟨rfl, h2⟩ | ⟨-, h2⟩
      · refine .inr ⟨.direct j, _, hl.trans (congrArg some h2.symm), ?_, (fun h => absurd rfl h), fun h => Bool.noConfusion h⟩
        intro hn
        split at hn <;> exact hn.elim
      · exact .inl h2
    | rd b' a =>
      cases a with
      | call op => simp [FSB.step] at hs
      | setStop => simp [FSB.step] at hs
      | go i =>
        simp only [FSB.step] at hs
        split at hs
        swap
        · simp at hs
        split at hs
        · simp at hs
        split at hs
        · rename_i op hop
          rcases huse _ _ _ hs with ⟨rfl, h⟩ | ⟨h1, h2⟩
          · refine .inr ⟨_, _, h, (fun hn => ?_), (fun h => absurd rfl h), fun h => Bool.noConfusion h⟩
            unfold Cons.asks at hop
            split at hop <;> simp at hop <;> subst hop <;> exact hn.elim
          · exact .inl h2
        · exact .inl (hplain _ hs)
      | callNext i | callIter i | callRead i | leave i =>
        simp only [FSB.step] at hs
        split at hs
        · exact .inl (hplain _ hs)
        · simp at hs
    | dropGo c =>
      simp only [FSB.step] at hs
      split at hs
      swap
      · simp at hs
      split at hs
      · simp at hs
      · rename_i b' k hk
        rcases huse _ _ _ hs with ⟨rfl, h⟩ | ⟨h1, h2⟩
        · exact .inr ⟨_, _, h, (fun h => by cases h), (fun _ => .inr ⟨c, k, rfl, hk⟩), fun _ => by simp [LM.asW]⟩
        · exact .inl h2
    | readOk t r | readRaise t r | close t r | keyRaise t r | drop t r =>
      simp only [FSB.step] at hs
      split at hs
      · exact .inl (hplain _ hs)
      · simp at hs
    | _ => exact .inl (hplain _ hs)

/-- An infinite execution of the statement-by-statement stream buffer. -/
abbrev Forever (I : Type) (n : Nat) (cfg : SBCfg K V) : Type := Run (FSB.step cfg) (FSB.init n cfg : FSB K V I)

/-- The conditions. `fair`: whoever's next statement is possible again and again executes it again and again. `excl`: calls on one reader do not overlap. `quiet`:
lengths are not taken in the middle of an append or a drop. `flat`: nobody calls `range` with `only_new_items=True`, which takes the reader lock inside a reader
section and can deadlock (C30). -/
structure Live (r : Forever I n cfg) : Prop where
  fair : ∀ b w, r.StrongFair (.low b w)
  excl : ∀ k b c, NonOverlapping (LM.onReader (K := K) (V := V) c) ((r.st k).lm b).hist
  quiet : ∀ k b, (r.st k).looksAt (r.act k) = some b → (r.st k).Quiet b
  flat : ∀ k b c op, r.act k = .direct b c op → ¬ LM.nests (.rd c op : ChOp K V)

variable {r : Forever I n cfg}

/-- The direct calls begun. -/
def Directs (r : Forever I n cfg) (b : Nat) (op : ChOp K V) : Prop := ∃ k c o, op = .rd c o ∧ r.act k = .direct b c o

theorem Live.finv (h : Live r) (k : Nat) : ∃ O, FInv cfg n (Directs r) O (r.st k) := by
  induction k with
  | zero => rw [r.zero]; exact ⟨[], FInv.init⟩
  | succ k ih =>
    obtain ⟨O, ih⟩ := ih
    exact ⟨_, ih.step (r.next k) (h.quiet k) (h.excl (k + 1)) fun b c op e => ⟨k, c, op, rfl, e⟩⟩

theorem Live.lm_proj (_h : Live r) (b k : Nat) : ∃ a, LM.stepS ((r.st k).lm b) a = some ((r.st (k + 1)).lm b) ∧
    (∀ w, r.act k = .low b w → a = some (.go w.num)) ∧ (∀ i, a = some (.go i) → ∃ w : Who, w.num = i ∧ r.act k = .low b w) ∧
    (∀ i c, a = some (.call i c) → ¬ LM.nests c ∨ ∃ r' op, r.act k = .direct b r' op ∧ c = .rd r' op) ∧
    (∀ i c, a = some (.call i c) → LM.asW c ≠ none → (∃ t v, i = (Who.thr t).num ∧ (r.st k).sb.thr t = .storing b v) ∨ ∃ d m, i = (Who.dropper d).num ∧ (r.st k).sb.drops d = some (b, m)) ∧
    (∀ (w : Who) c, a = some (.call w.num c) → one w = true → LM.asW c ≠ none) := by
  rcases lm_sim (r.next k) b with ⟨w, h1, h2⟩ | ⟨h1, h2 | ⟨w, c, h2, h3, h4, h5⟩⟩
  · refine ⟨some (.go w.num), h2, ?_, ?_, ?_, ?_, ?_⟩
    · intro w' e; rw [h1] at e; injection e with _ e; rw [e]
    · intro i e; injection e with e; injection e with e; exact ⟨w, e, h1⟩
    · intro i c e; injection e with e; cases e
    · intro i c e; injection e with e; cases e
    · intro i c e; injection e with e; cases e
  · exact ⟨none, by rw [h2]; rfl, fun w e => absurd e (h1 w), by simp, by simp, by simp, by simp⟩
  · refine ⟨some (.call w.num c), h2, fun w e => absurd e (h1 w), by simp, ?_, ?_, ?_⟩
    · intro i c' e; injection e with e; injection e with e1 e2; subst e2
      by_cases hn : LM.nests c
      · exact .inr (h3 hn)
      · exact .inl hn
    · intro i c' e hc; injection e with e; injection e with e1 e2; subst e2 e1
      rcases h4 hc with ⟨t, v, rfl, h6⟩ | ⟨d, m, rfl, h6⟩
      · exact .inl ⟨t, v, rfl, h6⟩
      · exact .inr ⟨d, m, rfl, h6⟩
    · intro w' c' e; injection e with e; injection e with e1 e2; subst e2
      rw [← Who.num_inj e1]; exact h5

/-- The execution of the locked buffer of session `b`. -/
noncomputable def Live.lm (h : Live r) (b : Nat) : Run (LM.stepS (K := K) (V := V)) (LM.init n cfg.key cfg.keyNone cfg.maxlen cfg.rdCfg) :=
  ⟨fun k => (h.lm_proj b k).choose, fun k => (r.st k).lm b, by rw [r.zero]; rfl, fun k => (h.lm_proj b k).choose_spec.1⟩

/-- Nothing but the lock holds a call up. -/
theorem FInv.only_lock {D : Nat → ChOp K V → Prop} {O : List (SBAct K V I)} (h : FInv cfg n D O s) (hX : ∀ b r, NonOverlapping (LM.onReader r) (s.lm b).hist) (b : Nat) (w : Who) (l : LM K V)
    (hl : (s.lm b).step (.go w.num) = some l) : (s.step cfg (.low b w)).isSome = true := by
  have hX' := LM.go_excl hl (hX b)
  obtain ⟨p, hp⟩ := LM.go_pend hl
  simp only [FSB.step, FSB.use, hl]
  split
  · rfl
  rename_i id op o tl hd
  have hk := (LM.step_kind (h.lm b).1 hl).2
  obtain ⟨id', op', o', k, k2⟩ : ∃ id' op' o', l.lin = (s.lm b).lin ++ [(id', op', o')] ∧ s.sb.Doing b w op' := by
    rcases hk with ⟨k, -⟩ | ⟨id', op', o', k, k2⟩
    · rw [k] at hd; simp at hd
    · refine ⟨id', op', o', k, ?_⟩
      rcases k2 with ⟨k2, -, -⟩ | ⟨-, p, k2, k3, k4, -⟩
      · cases k2
      · rw [← k3]; exact h.link b w p k2 k4
  rw [k] at hd
  simp only [List.drop_left', List.cons.injEq, Prod.mk.injEq] at hd
  obtain ⟨⟨rfl, rfl, rfl⟩, -⟩ := hd
  obtain ⟨x, hx⟩ := Option.isSome_iff_exists.1 (h.some_buf hp)
  have hinv := LM.inv_step hX' (h.lm b).1 (h.lm b).2 hl
  have hat := (LM.step_atom (h.lm b).1 hinv.1).2 _ _ _ k
  have hpast := h.past b x hx
  have ho : (x.cons.ch.step op').2 = o' := by
    simp only [Cons.past, Prod.mk.injEq] at hpast
    rw [hpast.1, hat]
  obtain ⟨y, hy⟩ := Option.isSome_iff_exists.1 (SB.effect_step (cfg := cfg) k2 hx ho).2
  rw [hy]; rfl

theorem Live.lm_live (h : Live r) (b : Nat) : LM.Live (h.lm b) := by
  refine ⟨?_, ?_, fun k c => h.excl k b c⟩
  · intro i hen k
    obtain ⟨w, rfl⟩ := Who.num_surj i
    obtain ⟨j, h1, h2⟩ := h.fair b w (fun k => by
      obtain ⟨j, h1, h2⟩ := hen k
      obtain ⟨l, hl⟩ := Option.isSome_iff_exists.1 h2
      obtain ⟨O, hF⟩ := h.finv j
      exact ⟨j, h1, hF.only_lock (h.excl j) b w l hl⟩) k
    exact ⟨j, h1, (h.lm_proj b j).choose_spec.2.1 w h2⟩
  · intro k i c e
    rcases (h.lm_proj b k).choose_spec.2.2.2.1 i c e with h1 | ⟨r', op, h1, rfl⟩
    · exact h1
    · exact h.flat k b r' op h1

/-- An append or a drop returns. -/
theorem Live.writer_returns (h : Live r) {k b : Nat} {w : Who} {p : Pend K V} (hp : ((r.st k).lm b).pend w.num = some p) (hc : LM.asW p.call ≠ none) :
    ∃ j, k ≤ j ∧ ((r.st j).lm b).pend w.num = none := by
  obtain ⟨op, ho⟩ := Option.ne_none_iff_exists'.1 hc
  exact (h.lm_live b).writer_returns (k := k) hp ho

/-- A property that calls have when they begin, they have as long as they last. -/
theorem Live.pends (h : Live r) {b : Nat} {P : Nat → ChOp K V → Prop} (hcall : ∀ k i c, (h.lm b).act k = some (.call i c) → P i c) {k i : Nat} {p : Pend K V}
    (hp : ((r.st k).lm b).pend i = some p) : P i p.call := by
  induction k generalizing i p with
  | zero => rw [r.zero] at hp; simp [FSB.init, LM.init] at hp
  | succ k ih =>
    have hs := (h.lm b).next k
    have hp : ((h.lm b).st (k + 1)).pend i = some p := hp
    have ih : ∀ {i : Nat} {p : Pend K V}, ((h.lm b).st k).pend i = some p → P i p.call := ih
    cases ha : (h.lm b).act k with
    | none =>
      rw [ha] at hs
      simp only [LM.stepS, Option.some.injEq] at hs
      rw [← hs] at hp
      exact ih hp
    | some a =>
      rw [ha] at hs
      simp only [LM.stepS] at hs
      cases a with
      | call j c =>
        obtain ⟨e1, -, e2⟩ := LM.call_shape hs
        by_cases hj : i = j
        · subst hj
          rcases e2 with ⟨-, e2⟩ | ⟨⟨p', e2, e3, -⟩, -⟩
          · rw [e2] at hp; cases hp
          · rw [e2] at hp; injection hp with hp; subst hp
            rw [e3]; exact hcall k i c ha
        · rw [e1 i hj] at hp; exact ih hp
      | go j =>
        obtain ⟨p0, t, e0, -, e1, e2⟩ := LM.go_shape hs
        by_cases hj : i = j
        · subst hj
          have hc' : p.call = p0.call := by
            rcases e2 with ⟨-, e2 | ⟨p', e2, e3, -⟩⟩ | ⟨_, p', -, -, -, e2, e3, -⟩ | ⟨_, p', -, -, -, e2, e3, -⟩
            · rw [e2] at hp; cases hp
            all_goals (rw [e2] at hp; injection hp with hp; subst hp; exact e3)
          rw [hc']; exact ih e0
        · rw [e1 i hj] at hp; exact ih hp

/-- A call of a reading thread, or of `drop`, returns. -/
theorem Live.thread_returns (h : Live r) {k b : Nat} {w : Who} (hw : one w = true) {p : Pend K V} (hp : ((r.st k).lm b).pend w.num = some p) :
    ∃ j, k ≤ j ∧ ((r.st j).lm b).pend w.num = none := by
  refine h.writer_returns hp (h.pends (b := b) (P := fun i c => ∀ w : Who, w.num = i → one w = true → LM.asW c ≠ none) ?_ hp w rfl hw)
  rintro k i c e w rfl
  exact (h.lm_proj b k).choose_spec.2.2.2.2.2 w c e

/-- Appends to and drops from the buffer of session `b` pause again and again. -/
def Pauses (r : Forever I n cfg) (b : Nat) : Prop :=
  ∀ k, ∃ j, k ≤ j ∧ ∀ w p, ((r.st j).lm b).pend (Who.num w) = some p → LM.asW p.call = none

/-- Any call returns, if they do. -/
theorem Live.reader_returns (h : Live r) {k b : Nat} (hq : Pauses r b) {w : Who} {p : Pend K V} (hp : ((r.st k).lm b).pend w.num = some p) :
    ∃ j, k ≤ j ∧ ((r.st j).lm b).pend w.num = none := by
  refine (h.lm_live b).reader_returns (k := k) ?_ hp
  intro k
  obtain ⟨j, h1, h2⟩ := hq k
  refine ⟨j, h1, fun i p hp => ?_⟩
  obtain ⟨w, rfl⟩ := Who.num_surj i
  exact h2 w p hp

/-- They do if one thread only stores in session `b`, and nobody drops from it. -/
theorem Live.pauses (h : Live r) {b t : Nat} (ht : ∀ k t' v, (r.st k).sb.thr t' = .storing b v → t' = t) (hd : ∀ k c m, (r.st k).sb.drops c ≠ some (b, m)) : Pauses r b := by
  intro k
  have hcall : ∀ k i c, (h.lm b).act k = some (.call i c) → LM.asW c ≠ none → i = (Who.thr t).num := by
    intro k i c e hc
    rcases (h.lm_proj b k).choose_spec.2.2.2.2.1 i c e hc with ⟨t', v, rfl, h1⟩ | ⟨d, m, rfl, h1⟩
    · rw [ht k t' v h1]
    · exact absurd h1 (hd k d m)
  have hw : ∀ k i p, ((h.lm b).st k).pend i = some p → LM.asW p.call ≠ none → i = (Who.thr t).num := fun k i p hp =>
    h.pends (b := b) (P := fun i c => LM.asW c ≠ none → i = (Who.thr t).num) hcall hp
  obtain ⟨j, h1, h2⟩ := (h.lm_live b).one_writer hw k
  exact ⟨j, h1, fun w p hp => h2 _ p hp⟩

/-! ### The one-step execution -/

/-- What a step of the run is for the one-step stream buffer. -/
def Sim (r : Forever I n cfg) (k : Nat) (a : Option (SBAct K V I)) : Prop :=
  (∃ a', r.act k = .sb a' ∧ a = some a') ∨
  (a = none ∧ ∃ b w p, (r.st k).Begins b w (r.act k) ∧ ((r.st (k + 1)).lm b).pend w.num = some p ∧ p.eff = false) ∨
  (a = none ∧ ∃ b w, r.act k = .low b w ∧ ((r.st (k + 1)).lm b).lin = ((r.st k).lm b).lin) ∨
  (∃ b w p, r.act k = .low b w ∧ ((r.st k).lm b).pend w.num = some p ∧ p.eff = false ∧ a = some (SB.move b p.call w)) ∨
  (∃ b c op, r.act k = .direct b c op ∧ a = some (.rd b (.call (.rd c op))))

theorem Live.proj (h : Live r) (k : Nat) : ∃ a, SB.stepS cfg (r.st k).sb a = some (r.st (k + 1)).sb ∧ Sim r k a := by
  obtain ⟨O, hF⟩ := h.finv k
  rcases hF.sim (r.next k) (h.quiet k) (h.excl (k + 1)) with ⟨a, h1, h2⟩ | ⟨h1, h2⟩ | ⟨h1, h2⟩ | ⟨b, w, p, h1, h2, h3, h4⟩ | ⟨b, c, op, h1, h2⟩
  · exact ⟨some a, h2, .inl ⟨a, h1, rfl⟩⟩
  · exact ⟨none, by rw [h1]; rfl, .inr (.inl ⟨rfl, h2⟩)⟩
  · exact ⟨none, by rw [h1]; rfl, .inr (.inr (.inl ⟨rfl, h2⟩))⟩
  · exact ⟨some (SB.move b p.call w), h4, .inr (.inr (.inr (.inl ⟨b, w, p, h1, h2, h3, rfl⟩)))⟩
  · exact ⟨some (.rd b (.call (.rd c op))), h2, .inr (.inr (.inr (.inr ⟨b, c, op, h1, rfl⟩)))⟩

/-- The one-step execution, with pauses. -/
noncomputable def Live.sb (h : Live r) : SB.Paused I cfg :=
  ⟨fun k => (h.proj k).choose, fun k => (r.st k).sb, by rw [r.zero]; rfl, fun k => (h.proj k).choose_spec.1⟩

theorem Live.sb_act (h : Live r) (k : Nat) : Sim r k (h.sb.act k) := (h.proj k).choose_spec.2

/-- A call in progress that has not taken effect is not in progress later: in between it took effect. -/
theorem Live.takes (h : Live r) {b : Nat} {w : Who} {e k : Nat} {p : Pend K V} (hp : ((r.st k).lm b).pend w.num = some p) (he : p.eff = false)
    (hn : ((r.st (k + e)).lm b).pend w.num = none) : ∃ j, k ≤ j ∧ h.sb.act j = some (SB.move b p.call w) := by
  induction e generalizing k p with
  | zero => rw [Nat.add_zero, hp] at hn; cases hn
  | succ e ih =>
    by_cases hg : r.act k = .low b w
    · have hs := r.next k
      rw [hg] at hs
      obtain ⟨O, hF⟩ := h.finv k
      have hl : ((r.st k).lm b).step (.go w.num) = some ((r.st (k + 1)).lm b) := by
        rcases lm_sim hs b with ⟨w', h1, h2⟩ | ⟨h1, -⟩
        · injection h1 with _ h1; subst h1; exact h2
        · exact absurd rfl (h1 w)
      rcases LM.go_eff (hF.lm b).1 hl hp he with ⟨o, h1⟩ | ⟨h1, p', h2, h3, h4⟩
      · refine ⟨k, Nat.le_refl k, ?_⟩
        rcases h.sb_act k with ⟨a', e, -⟩ | ⟨-, b', w', p', e, -⟩ | ⟨-, b', w', e, e2⟩ | ⟨b', w', p', e, e2, -, e3⟩ | ⟨b', c, op, e, -⟩
        · rw [hg] at e; cases e
        · rw [hg] at e; cases w' <;> simp [Begins] at e
        · rw [hg] at e; injection e with e e'; subst e e'; rw [h1] at e2; simp at e2
        · rw [hg] at e; injection e with e e'; subst e e'
          rw [hp] at e2; injection e2 with e2; subst e2
          exact e3
        · rw [hg] at e; cases e
      · obtain ⟨j, h5, h6⟩ := ih h2 h4 (by rw [show k + 1 + e = k + (e + 1) by omega]; exact hn)
        exact ⟨j, by omega, by rw [← h3]; exact h6⟩
    · have hk : ((r.st (k + 1)).lm b).pend w.num = some p := by
        refine (h.lm_live b).keep (k := k) hp ?_
        intro e
        obtain ⟨w', h1, h2⟩ := (h.lm_proj b k).choose_spec.2.2.1 _ e
        rw [Who.num_inj h1] at h2
        exact hg h2
      obtain ⟨j, h5, h6⟩ := ih hk he (by rw [show k + 1 + e = k + (e + 1) by omega]; exact hn)
      exact ⟨j, by omega, h6⟩

end FSB
end S2P
