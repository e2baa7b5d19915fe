import Mathlib.Data.List.Basic
import Mathlib.Data.Nat.Init
/-
Infinite executions of a machine given by its step function. Imports no model file.
-/
namespace S2P

/-- An infinite execution from `s0`: the choices made, and the states gone through. -/
structure Run {σ α : Type} (step : σ → α → Option σ) (s0 : σ) where
  act : Nat → α
  st : Nat → σ
  zero : st 0 = s0
  next : ∀ i, step (st i) (act i) = some (st (i + 1))

namespace Run
variable {σ α : Type} {step : σ → α → Option σ} {s0 : σ}

/-- The `n` choices from position `k` on. -/
def seg (r : Run step s0) (k n : Nat) : List α := (List.range n).map fun j => r.act (k + j)

/-- As long as `alive` holds, there is always another choice satisfying `p`: the scheduler does not forget somebody who wants to go on. -/
def Fair (r : Run step s0) (alive : σ → Prop) (p : α → Bool) : Prop := ∀ k, alive (r.st k) → ∃ j, k ≤ j ∧ p (r.act j) = true

/-- Whenever `alive` holds from some moment on, there is another choice satisfying `p` (weak fairness). -/
def WeakFair (r : Run step s0) (alive : σ → Prop) (p : α → Bool) : Prop := ∀ k, (∀ j, k ≤ j → alive (r.st j)) → ∃ j, k ≤ j ∧ p (r.act j) = true

/-- A choice that is possible again and again is made again and again (strong fairness). -/
def StrongFair (r : Run step s0) (a : α) : Prop := (∀ k, ∃ j, k ≤ j ∧ (step (r.st j) a).isSome = true) → ∀ k, ∃ j, k ≤ j ∧ r.act j = a

theorem seg_succ (r : Run step s0) (k n : Nat) : r.seg k (n + 1) = r.seg k n ++ [r.act (k + n)] := by
  simp [seg, List.range_succ]

theorem seg_add (r : Run step s0) (k n m : Nat) : r.seg k (n + m) = r.seg k n ++ r.seg (k + n) m := by
  induction m with
  | zero => simp [seg]
  | succ m ih => rw [← Nat.add_assoc, seg_succ, ih, seg_succ, List.append_assoc, Nat.add_assoc]

theorem mem_seg (r : Run step s0) (k n : Nat) (a : α) (h : a ∈ r.seg k n) : ∃ j, k ≤ j ∧ j < k + n ∧ a = r.act j := by
  simp only [seg, List.mem_map, List.mem_range] at h
  obtain ⟨j, h1, h2⟩ := h
  exact ⟨k + j, by omega, by omega, h2.symm⟩

/-- In a weakly fair run somebody who is always alive has as many turns as we like. -/
theorem many_weak (r : Run step s0) {alive : σ → Prop} {p : α → Bool} (hf : r.WeakFair alive p) (k : Nat) (ha : ∀ j, k ≤ j → alive (r.st j)) (n : Nat) :
    ∃ m, n ≤ (r.seg k m).countP p := by
  induction n with
  | zero => exact ⟨0, by simp⟩
  | succ n ih =>
    obtain ⟨m, hm⟩ := ih
    obtain ⟨j, h1, h2⟩ := hf (k + m) fun j hj => ha j (by omega)
    refine ⟨m + (j - (k + m) + 1), ?_⟩
    rw [seg_add, seg_succ, List.countP_append, List.countP_append, List.countP_singleton]
    rw [if_pos (by rw [show k + m + (j - (k + m)) = j by omega]; exact h2)]
    omega

theorem Fair.weak {r : Run step s0} {alive : σ → Prop} {p : α → Bool} (hf : r.Fair alive p) : r.WeakFair alive p := fun k ha => hf k (ha k (Nat.le_refl k))

/-- In a fair run somebody who is always alive has as many turns as we like. -/
theorem many (r : Run step s0) {alive : σ → Prop} {p : α → Bool} (hf : r.Fair alive p) (k : Nat) (ha : ∀ j, k ≤ j → alive (r.st j)) (n : Nat) :
    ∃ m, n ≤ (r.seg k m).countP p := many_weak r hf.weak k ha n

end Run
end S2P
