import Verif.Model.Consumer
import Verif.Proofs.Reader
/- Facts about the consumer machine. -/
namespace S2P
open Spec
variable {K V : Type}

/-- What one read of `n` items hands out when `u` is unread. -/
def chunkOf (n : Int) : List V → Ret V
  | [] => .none
  | v :: vs => if n ≤ 1 then .one v else .many ((v :: vs).take n.toNat)

/-- Items consumed by one read of `n` items. -/
def chunkSize (n : Int) : Nat := max 1 n.toNat

/-- What consumer `i` observed, in order. -/
def Cons.evtsOf (s : Cons K V) (i : Nat) : List (CEvt V) := (s.evts.filter (fun p => p.1 == i)).map (·.2)

theorem chunkOf_items (n : Int) (u : List V) : (chunkOf n u).items = u.take (chunkSize n) := by
  unfold chunkOf chunkSize
  cases u with
  | nil => simp [Ret.items]
  | cons v vs =>
    dsimp only
    split
    · rename_i h
      have : max 1 n.toNat = 1 := by omega
      rw [this]; simp [Ret.items]
    · rename_i h
      have : max 1 n.toNat = n.toNat := by omega
      rw [this]; rfl

theorem chunkOf_ne {n : Int} {u : List V} (h : u ≠ []) : chunkOf n u ≠ .none := by
  cases u with
  | nil => exact absurd rfl h
  | cons v vs => simp only [chunkOf]; split <;> simp

section
variable [LinearOrder K]

theorem read_chunk (key : V → K) (items : List V) (cur : Option V) (n : Int) :
    Spec.read key items cur n true false = .ok (chunkOf n (unread key items cur)) := by
  unfold Spec.read chunkOf
  split
  · simp [*, noItem]
  · simp [*]; split <;> rfl

theorem unread_suffix' {key : V → K} {items : List V} (hs : items.Pairwise (fun v w => key v < key w)) (c : Option V) :
    ∃ a, items = a ++ unread key items c ∧ ∀ x, c = some x → ∀ w ∈ a, key w ≤ key x := by
  cases c with
  | none => exact ⟨[], rfl, by simp⟩
  | some c =>
    induction items with
    | nil => exact ⟨[], rfl, by simp⟩
    | cons v items ih =>
      obtain ⟨h1, h2⟩ := List.pairwise_cons.1 hs
      simp only [unread, List.filter_cons]
      by_cases hv : key c < key v
      · refine ⟨[], ?_, by simp⟩
        simp only [hv, decide_true, if_true, List.nil_append, List.cons.injEq, true_and]
        exact (List.filter_eq_self.2 (fun w hw => by simpa using lt_trans hv (h1 w hw))).symm
      · obtain ⟨a, ha, hb⟩ := ih h2
        refine ⟨v :: a, ?_, ?_⟩
        · simp only [hv, decide_false, Bool.false_eq_true, if_false, List.cons_append, List.cons.injEq, true_and]
          exact ha
        · intro x hx w hw
          rcases List.mem_cons.1 hw with rfl | hw
          · injection hx with hx; subst hx; exact not_lt.1 hv
          · exact hb x hx w hw

/-- After handing out a non-empty prefix of the unread items, the rest is unread. -/
theorem unread_after {key : V → K} {items : List V} (hs : items.Pairwise (fun v w => key v < key w)) (c : Option V) (p q : List V) (x : V)
    (hu : unread key items c = p ++ q) (hx : p.getLast? = some x) : unread key items (some x) = q := by
  obtain ⟨a, ha, hb⟩ := unread_suffix' hs c
  rw [hu] at ha
  obtain ⟨p', hp'⟩ := List.getLast?_eq_some_iff.1 hx
  subst hp'
  have hab : unread key items c = p' ++ x :: q := by rw [hu]; simp
  have hs' := hs
  rw [ha] at hs'
  simp only [unread]
  rw [ha, List.filter_append, List.filter_append, List.filter_append]
  have hq : q.filter (fun v => decide (key x < key v)) = q := by
    apply List.filter_eq_self.2
    intro w hw
    have h1 := (List.pairwise_append.1 (List.pairwise_append.1 hs').2.1).2.2 x (by simp) w hw
    simpa using h1
  have hp : p'.filter (fun v => decide (key x < key v)) = [] := by
    rw [List.filter_eq_nil_iff]
    intro w hw
    have h1 := (List.pairwise_append.1 (List.pairwise_append.1 (List.pairwise_append.1 hs').2.1).1).2.2 w hw x (by simp)
    simpa using le_of_lt h1
  have hax : a.filter (fun v => decide (key x < key v)) = [] := by
    rw [List.filter_eq_nil_iff]
    intro w hw
    have h1 := (List.pairwise_append.1 hs').2.2 w hw x (by simp)
    simpa using le_of_lt h1
  rw [hq, hp, hax]
  simp

theorem unread_chunk {key : V → K} {items : List V} (hs : items.Pairwise (fun v w => key v < key w)) (c : Option V) (n : Int) :
    unread key items (cursorAfter c (.ok (chunkOf n (unread key items c)))) = (unread key items c).drop (chunkSize n) := by
  cases hu : unread key items c with
  | nil => simp [chunkOf, cursorAfter, hu]
  | cons v vs =>
    simp only [chunkOf]
    split
    · rename_i h
      have : chunkSize n = 1 := by unfold chunkSize; omega
      rw [this]
      simp only [cursorAfter, List.drop_succ_cons, List.drop_zero]
      exact unread_after hs c [v] vs v hu rfl
    · rename_i h
      have : chunkSize n = n.toNat := by unfold chunkSize; omega
      rw [this]
      have hne : (List.take n.toNat (v :: vs)) ≠ [] := by
        have : n.toNat = (n.toNat - 1) + 1 := by omega
        rw [this]; simp
      have hx := List.getLast?_eq_some_getLast hne
      simp only [cursorAfter, hx]
      exact unread_after hs c _ _ _ (by rw [hu, List.take_append_drop]) hx

end

/-! ### The machine -/

section
variable [LT K] [DecidableLT K] [BEq V]

/-- Reached by some execution. -/
def Cons.Reach (key : V → K) (kn : Py (Option K)) (m : Option Nat) (cfg : Nat → Cfg) (s : Cons K V) : Prop :=
  ∃ as, (Cons.init key kn m cfg).exec cfg as = some s

theorem Cons.exec_append (cfg : Nat → Cfg) (s : Cons K V) (a b : List (CAct K V)) :
    s.exec cfg (a ++ b) = (s.exec cfg a).bind (fun s' => s'.exec cfg b) := by
  induction a generalizing s with
  | nil => rfl
  | cons x a ih =>
    simp only [List.cons_append, Cons.exec]
    cases s.step cfg x with
    | none => rfl
    | some s' => exact ih s'

theorem Cons.Reach.exec {key : V → K} {kn : Py (Option K)} {m : Option Nat} {cfg : Nat → Cfg} {s s' : Cons K V}
    (h : s.Reach key kn m cfg) {as : List (CAct K V)} (he : s.exec cfg as = some s') : s'.Reach key kn m cfg := by
  obtain ⟨bs, hb⟩ := h
  exact ⟨bs ++ as, by rw [Cons.exec_append, hb]; exact he⟩

theorem Cons.exec_ind {P : Cons K V → Prop} {cfg : Nat → Cfg} (hstep : ∀ s a s', P s → s.step cfg a = some s' → P s')
    (as : List (CAct K V)) {s s' : Cons K V} (h : P s) (he : s.exec cfg as = some s') : P s' := by
  induction as generalizing s with
  | nil => simp only [Cons.exec, Option.some.injEq] at he; subst he; exact h
  | cons a as ih =>
    simp only [Cons.exec] at he
    split at he
    · rename_i s1 hs; exact ih (hstep _ _ _ h hs) he
    · simp at he

/-- The same with a condition on the actions. -/
theorem Cons.exec_ind' {P : Cons K V → Prop} {A : CAct K V → Prop} {cfg : Nat → Cfg}
    (hstep : ∀ s a s', P s → A a → s.step cfg a = some s' → P s')
    (as : List (CAct K V)) {s s' : Cons K V} (h : P s) (hA : ∀ a ∈ as, A a) (he : s.exec cfg as = some s') : P s' := by
  induction as generalizing s with
  | nil => simp only [Cons.exec, Option.some.injEq] at he; subst he; exact h
  | cons a as ih =>
    simp only [Cons.exec] at he
    split at he
    · rename_i s1 hs; exact ih (hstep _ _ _ h (hA a (by simp)) hs) (fun b hb => hA b (by simp [hb])) he
    · simp at he

/-- Every step either leaves the calls alone or makes one. -/
theorem Cons.step_call {cfg : Nat → Cfg} {s s' : Cons K V} {a : CAct K V} (h : s.step cfg a = some s') :
    (s'.ch = s.ch ∧ s'.ops = s.ops ∧ s'.outs = s.outs) ∨
    ∃ op, s'.ch = (s.ch.step op).1 ∧ s'.ops = s.ops ++ [op] ∧ s'.outs = s.outs ++ [(s.ch.step op).2] := by
  cases a with
  | call op => simp only [Cons.step, Option.some.injEq] at h; subst h; exact .inr ⟨op, rfl, rfl, rfl⟩
  | setStop => simp only [Cons.step, Option.some.injEq] at h; subst h; exact .inl ⟨rfl, rfl, rfl⟩
  | callNext i | callIter i | callRead i n p st | leave i =>
    simp only [Cons.step] at h
    split at h
    · injection h with h; subst h; exact .inl ⟨rfl, rfl, rfl⟩
    · simp at h
  | go i =>
    simp only [Cons.step, Cons.go] at h
    split at h
    · simp at h
    · split at h <;> (rename_i hc; rw [Cons.call] at hc; injection hc with h1 h2; subst h1; injection h with h; subst h
                      exact .inr ⟨_, rfl, rfl, rfl⟩)
    · split at h <;> (injection h with h; subst h; exact .inl ⟨rfl, rfl, rfl⟩)
    · split at h <;> (rename_i hc; rw [Cons.call] at hc; injection hc with h1 h2; subst h1; injection h with h; subst h
                      exact .inr ⟨_, rfl, rfl, rfl⟩)
    · split at h <;> (injection h with h; subst h; exact .inl ⟨rfl, rfl, rfl⟩)
    · split at h <;> (injection h with h; subst h; exact .inl ⟨rfl, rfl, rfl⟩)
    · injection h with h; subst h; exact .inl ⟨rfl, rfl, rfl⟩
    · injection h with h; subst h; exact .inl ⟨rfl, rfl, rfl⟩
    · split at h <;> (rename_i hc; rw [Cons.call] at hc; injection hc with h1 h2; subst h1; injection h with h; subst h
                      exact .inr ⟨_, rfl, rfl, rfl⟩)
    · split at h <;> (injection h with h; subst h; exact .inl ⟨rfl, rfl, rfl⟩)
    · injection h with h; subst h; exact .inl ⟨rfl, rfl, rfl⟩

/-- The ghosts record the run of the channel. -/
theorem Cons.Reach.run {key : V → K} {kn : Py (Option K)} {m : Option Nat} {cfg : Nat → Cfg} {s : Cons K V}
    (h : s.Reach key kn m cfg) : (Ch.run (Ch.init key kn m cfg) s.ops) = (s.ch, s.outs) := by
  obtain ⟨as, he⟩ := h
  refine Cons.exec_ind (P := fun s => (Ch.run (Ch.init key kn m cfg) s.ops) = (s.ch, s.outs)) ?_ as rfl he
  intro s a s' hP hs
  rcases Cons.step_call hs with ⟨h1, h2, h3⟩ | ⟨op, h1, h2, h3⟩
  · rw [h1, h2, h3]; exact hP
  · rw [h1, h2, h3, Ch.run_snoc, hP]

theorem Cons.Reach.ch {key : V → K} {kn : Py (Option K)} {m : Option Nat} {cfg : Nat → Cfg} {s : Cons K V}
    (h : s.Reach key kn m cfg) : s.ch.Reach key kn m cfg := ⟨s.ops, by rw [h.run]⟩

theorem Cons.evtsOf_emit (s : Cons K V) (i : Nat) (e : CEvt V) (j : Nat) :
    (s.emit i e).evtsOf j = if i = j then s.evtsOf j ++ [e] else s.evtsOf j := by
  simp only [Cons.evtsOf, Cons.emit, List.filter_append, List.map_append]
  by_cases h : i = j <;> simp [h]

/-- Nothing consumer `i` can see has changed. -/
structure Cons.Frame (i : Nat) (s s' : Cons K V) : Prop where
  buf : s'.ch.buf = s.ch.buf
  rd : s'.ch.readers i = s.ch.readers i
  pc : s'.pc i = s.pc i
  evts : s'.evtsOf i = s.evtsOf i
  stopped : s'.stopped = s.stopped

theorem Cons.call_rd_frame (s : Cons K V) {i j : Nat} (h : j ≠ i) (o : RdOp K V) : Cons.Frame i s (s.call (.rd j o)).1 :=
  ⟨rfl, by simp [Cons.call, Ch.step, h.symm], rfl, rfl, rfl⟩

theorem Cons.Frame.goto {i : Nat} {s s' : Cons K V} (h : Cons.Frame i s s') {j : Nat} (hj : j ≠ i) (p : CPC) : Cons.Frame i s (s'.goto j p) :=
  ⟨h.buf, h.rd, by simp [Cons.goto, hj.symm, h.pc], h.evts, h.stopped⟩

theorem Cons.Frame.emit {i : Nat} {s s' : Cons K V} (h : Cons.Frame i s s') {j : Nat} (hj : j ≠ i) (e : CEvt V) : Cons.Frame i s (s'.emit j e) :=
  ⟨h.buf, h.rd, h.pc, by rw [Cons.evtsOf_emit, if_neg hj, h.evts], h.stopped⟩

theorem Cons.Frame.refl (i : Nat) (s : Cons K V) : Cons.Frame i s s := ⟨rfl, rfl, rfl, rfl, rfl⟩

/-- Another consumer's step. -/
theorem Cons.go_frame {s s' : Cons K V} {i j : Nat} (h : j ≠ i) (hs : s.go j = some s') : Cons.Frame i s s' := by
  have hr := Cons.Frame.refl i s
  unfold Cons.go at hs
  split at hs
  · simp at hs
  · have hf := Cons.call_rd_frame s h .readForNext
    split at hs <;> (rename_i hc; rw [hc] at hf; injection hs with hs; subst hs)
    · exact (hf.emit h _).goto h _
    · exact hf.goto h _
    · exact (hf.emit h _).goto h _
  · split at hs <;> (injection hs with hs; subst hs; exact (hr.emit h _).goto h _)
  · have hf := Cons.call_rd_frame s h .readForNext
    split at hs <;> (rename_i hc; rw [hc] at hf; injection hs with hs; subst hs)
    · exact (hf.emit h _).goto h _
    · exact hf.goto h _
    · exact (hf.emit h _).goto h _
  · split at hs <;> (injection hs with hs; subst hs)
    · exact (hr.emit h _).goto h _
    · exact hr.goto h _
  · split at hs <;> (injection hs with hs; subst hs)
    · exact (hr.emit h _).goto h _
    · exact hr.goto h _
  · injection hs with hs; subst hs; exact hr.goto h _
  · injection hs with hs; subst hs; exact hr.goto h _
  · rename_i n p st _
    have hf := Cons.call_rd_frame s h (.read (some n) p (some true) (some st))
    split at hs <;> (rename_i hc; rw [hc] at hf; injection hs with hs; subst hs)
    · exact (hf.emit h _).goto h _
    · exact hf.goto h _
    · exact (hf.emit h _).goto h _
  · split at hs <;> (injection hs with hs; subst hs)
    · exact (hr.emit h _).goto h _
    · exact hr.goto h _
  · injection hs with hs; subst hs; exact hr.goto h _

end
end S2P
