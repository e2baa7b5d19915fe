import Verif.Py
import Mathlib.Order.Defs.LinearOrder
import Mathlib.Order.Basic
import Mathlib.Tactic.Common
/- Lemmas about the Python runtime fragment. -/
namespace S2P
variable {K V α : Type}

/-! ### splitting a list by a predicate that is true on a prefix -/

theorem take_countP {p : α → Bool} {l : List α} (h : l.Pairwise (fun x y => p y → p x)) :
    l.take (l.countP p) = l.filter p := by
  induction l with
  | nil => simp
  | cons x xs ih =>
    obtain ⟨hx, hxs⟩ := List.pairwise_cons.1 h
    by_cases hp : p x
    · simp [hp, ih hxs]
    · have : ∀ y ∈ xs, ¬ p y := fun y hy hpy => hp (hx y hy hpy)
      have h0 : xs.countP p = 0 := by rw [List.countP_eq_zero]; simpa using this
      have h1 : xs.filter p = [] := by rw [List.filter_eq_nil_iff]; simpa using this
      simp [hp, h0, h1]

theorem drop_countP {p : α → Bool} {l : List α} (h : l.Pairwise (fun x y => p y → p x)) :
    l.drop (l.countP p) = l.filter (fun x => !p x) := by
  induction l with
  | nil => simp
  | cons x xs ih =>
    obtain ⟨hx, hxs⟩ := List.pairwise_cons.1 h
    by_cases hp : p x
    · simp [hp, ih hxs]
    · have : ∀ y ∈ xs, ¬ p y := fun y hy hpy => hp (hx y hy hpy)
      have h0 : xs.countP p = 0 := by rw [List.countP_eq_zero]; simpa using this
      have h1 : xs.filter (fun x => !p x) = xs := by rw [List.filter_eq_self]; simpa using this
      simp [hp, h0, h1]

theorem lt_countP_iff {p : α → Bool} {l : List α} (h : l.Pairwise (fun x y => p y → p x))
    (i : Nat) (hi : i < l.length) : i < l.countP p ↔ p l[i] := by
  induction l generalizing i with
  | nil => simp at hi
  | cons x xs ih =>
    obtain ⟨hx, hxs⟩ := List.pairwise_cons.1 h
    by_cases hp : p x
    · cases i with
      | zero => simp [hp]
      | succ i => simp [hp]; exact ih hxs i (by simpa using hi)
    · have : ∀ y ∈ xs, ¬ p y := fun y hy hpy => hp (hx y hy hpy)
      have h0 : xs.countP p = 0 := by rw [List.countP_eq_zero]; simpa using this
      cases i with
      | zero => simp [hp, h0]
      | succ i => simpa [hp, h0] using this _ (List.getElem_mem _)

theorem bisectLoop_spec {p : K → Bool} {a : List K} (h : a.Pairwise (fun x y => p y → p x))
    (fuel lo hi : Nat) (hf : hi - lo ≤ fuel) (hlo : lo ≤ a.countP p) (hhi : a.countP p ≤ hi)
    (hlen : hi ≤ a.length) :
    bisectLoop (fun m => .ok (p m)) a fuel lo hi = .ok (a.countP p) := by
  induction fuel generalizing lo hi with
  | zero => simp [bisectLoop]; omega
  | succ fuel ih =>
    unfold bisectLoop
    split
    · rename_i hlt
      have hm : (lo + hi) / 2 < a.length := by omega
      rw [List.getElem?_eq_getElem hm]
      have key := lt_countP_iff h _ hm
      dsimp only
      by_cases hp : p a[(lo + hi) / 2]
      · rw [hp]; dsimp only
        exact ih _ _ (by omega) (by have := key.2 hp; omega) hhi hlen
      · have hp' : p a[(lo + hi) / 2] = false := by simpa using hp
        rw [hp']; dsimp only
        exact ih _ _ (by omega) hlo (by have := mt key.1 hp; omega) (by omega)
    · congr 1; omega

section order
variable [LinearOrder K]

theorem mono_lt {a : List K} (h : a.Pairwise (· ≤ ·)) (x : K) :
    a.Pairwise (fun y z => (decide (z < x) : Bool) → (decide (y < x) : Bool)) := by
  refine h.imp ?_
  intro y z hyz hz
  simp only [decide_eq_true_eq] at *
  exact lt_of_le_of_lt hyz hz

theorem mono_le {a : List K} (h : a.Pairwise (· ≤ ·)) (x : K) :
    a.Pairwise (fun y z => (decide (z ≤ x) : Bool) → (decide (y ≤ x) : Bool)) := by
  refine h.imp ?_
  intro y z hyz hz
  simp only [decide_eq_true_eq] at *
  exact le_trans hyz hz

theorem bisectLeft_some {a : List K} (h : a.Pairwise (· ≤ ·)) (x : K) :
    bisectLeft a (some x) = .ok (a.countP (fun y => decide (y < x))) := by
  unfold bisectLeft
  exact bisectLoop_spec (p := fun y => decide (y < x)) (mono_lt h x) _ _ _ (by omega) (by omega)
    (List.countP_le_length) (Nat.le_refl _)

theorem bisectRight_some {a : List K} (h : a.Pairwise (· ≤ ·)) (x : K) :
    bisectRight a (some x) = .ok (a.countP (fun y => decide (y ≤ x))) := by
  unfold bisectRight
  have : (fun m : K => (ltPy (some x) (some m)).map (! ·)) = fun m => .ok (decide (m ≤ x)) := by
    funext m
    simp only [ltPy, Except.map]
    congr 1
    simp [← not_lt]
  rw [this]
  exact bisectLoop_spec (p := fun y => decide (y ≤ x)) (mono_le h x) _ _ _ (by omega) (by omega)
    (List.countP_le_length) (Nat.le_refl _)

end order

theorem bisectRight_none [LT K] [DecidableLT K] (a : List K) :
    bisectRight a none = if a = [] then .ok 0 else .error .typeError := by
  unfold bisectRight
  cases a with
  | nil => simp [bisectLoop]
  | cons x xs =>
    have hm : (0 + (x :: xs).length) / 2 < (x :: xs).length := by simp; omega
    rw [List.length_cons, bisectLoop, if_pos (by omega), List.getElem?_eq_getElem (by simpa using hm)]
    simp [ltPy, Except.map]

theorem bisectLeft_none [LT K] [DecidableLT K] (a : List K) :
    bisectLeft a none = if a = [] then .ok 0 else .error .typeError := by
  unfold bisectLeft
  cases a with
  | nil => simp [bisectLoop]
  | cons x xs =>
    have hm : (0 + (x :: xs).length) / 2 < (x :: xs).length := by simp; omega
    rw [List.length_cons, bisectLoop, if_pos (by omega), List.getElem?_eq_getElem (by simpa using hm)]
    simp [ltPy]

/-! ### deques -/

theorem dqLast_eq (l : List α) :
    dqLast l = match l.getLast? with | some x => .ok x | none => .error .indexError := by
  unfold dqLast dqGetInt
  cases l with
  | nil => simp
  | cons x xs =>
    have : ¬ (0 : Int) ≤ -1 := by omega
    rw [if_neg this, if_pos (by simp; omega)]
    have h2 : ((-1 : Int) + ((x :: xs).length : Int)).toNat = (x :: xs).length - 1 := by simp; omega
    rw [h2, dqGet, ← List.getLast?_eq_getElem?]
    cases (x :: xs).getLast? <;> rfl

theorem dqLast_nil : dqLast ([] : List α) = .error .indexError := by simp [dqLast_eq]

theorem dqLast_append (l : List α) (x : α) : dqLast (l ++ [x]) = .ok x := by simp [dqLast_eq]

theorem dqAppend_eq (m : Option Nat) (l : List α) (x : α) :
    dqAppend m l x = match m with
      | none => l ++ [x]
      | some m => if m < l.length + 1 then (l ++ [x]).tail else l ++ [x] := by
  unfold dqAppend; cases m <;> simp

theorem dqAppend_map {β : Type} (f : α → β) (m : Option Nat) (l : List α) (x : α) :
    (dqAppend m l x).map f = dqAppend m (l.map f) (f x) := by
  simp only [dqAppend_eq]
  cases m with
  | none => simp
  | some m => simp only [List.length_map]; split <;> simp

theorem dqAppend_length (m : Option Nat) (l : List α) (x : α) (h : ∀ k, m = some k → l.length ≤ k) :
    ∀ k, m = some k → (dqAppend m l x).length ≤ k := by
  intro k hk
  subst hk
  have := h k rfl
  simp only [dqAppend_eq]
  split <;> simp <;> omega

/-- On a deque within its bound, `append` keeps the newest `maxlen` elements. -/
theorem dqAppend_newest (m : Option Nat) (l : List α) (x : α) (h : ∀ k, m = some k → l.length ≤ k) :
    dqAppend m l x = match m with
      | none => l ++ [x]
      | some m => (l ++ [x]).drop ((l ++ [x]).length - m) := by
  simp only [dqAppend_eq]
  cases m with
  | none => rfl
  | some m =>
    have := h m rfl
    dsimp only
    split
    · have : (l ++ [x]).length - m = 1 := by simp; omega
      rw [this]; simp [List.drop_one]
    · have : (l ++ [x]).length - m = 0 := by simp; omega
      rw [this]; simp

theorem foldl_dqAppend (m : Nat) (l xs : List α) (h : l.length ≤ m) :
    xs.foldl (dqAppend (some m)) l = (l ++ xs).drop ((l ++ xs).length - m) := by
  induction xs generalizing l with
  | nil =>
    have : l.length - m = 0 := by omega
    simp [this]
  | cons x xs ih =>
    rw [List.foldl_cons, ih]
    · rw [dqAppend_newest _ _ _ (by intro k hk; cases hk; exact h)]
      dsimp only
      generalize hc : (l ++ [x]).length - m = c
      have : c ≤ (l ++ [x]).length := by omega
      rw [← List.drop_append_of_le_length this, List.drop_drop]
      simp only [List.append_assoc, List.singleton_append, List.length_drop]
      congr 1
      simp only [List.length_append, List.length_cons, List.length_nil] at *
      omega
    · exact dqAppend_length (some m) l x (by intro k hk; cases hk; exact h) m rfl

theorem dqOf_eq (m : Option Nat) (xs : List α) :
    dqOf m xs = match m with | none => xs | some m => xs.drop (xs.length - m) := by
  unfold dqOf
  cases m with
  | none =>
    dsimp only
    have : ∀ l : List α, xs.foldl (dqAppend none) l = l ++ xs := by
      induction xs with
      | nil => simp
      | cons x xs ih => intro l; simp [ih, dqAppend]
    simpa using this []
  | some m => rw [foldl_dqAppend m [] xs (by simp)]; simp

/-! ### everyNth -/

theorem everyNth_one (l : List α) : everyNth 1 0 l = l := by
  induction l with
  | nil => rfl
  | cons x xs ih => simp [everyNth, ih]

theorem everyNth_drop (step c : Nat) (l : List α) : everyNth step c l = everyNth step 0 (l.drop c) := by
  induction l generalizing c with
  | nil => simp [everyNth]
  | cons x xs ih =>
    cases c with
    | zero => simp
    | succ c => simp only [everyNth, List.drop_succ_cons]; exact ih c

theorem everyNth_cons (step : Nat) (hs : 0 < step) (x : α) (xs : List α) :
    everyNth step 0 (x :: xs) = x :: everyNth step 0 ((x :: xs).drop step) := by
  rw [everyNth, everyNth_drop]
  obtain ⟨s, rfl⟩ : ∃ s, step = s + 1 := ⟨step - 1, by omega⟩
  simp

/-- Element `k` of the result is element `k * step` of the list. -/
theorem everyNth_getElem? (step : Nat) (hs : 0 < step) (l : List α) (k : Nat) :
    (everyNth step 0 l)[k]? = l[k * step]? := by
  induction k generalizing l with
  | zero => cases l <;> simp [everyNth]
  | succ k ih =>
    cases l with
    | nil => simp [everyNth]
    | cons x xs =>
      rw [everyNth_cons step hs, List.getElem?_cons_succ, ih, List.getElem?_drop]
      congr 1
      rw [Nat.succ_mul]; omega

theorem everyNth_sublist (step c : Nat) (l : List α) : (everyNth step c l).Sublist l := by
  induction l generalizing c with
  | nil => simp [everyNth]
  | cons x xs ih =>
    cases c with
    | zero => simp only [everyNth]; exact (ih _).cons_cons x
    | succ c => simp only [everyNth]; exact (ih _).cons x

theorem filterMap_range_getElem? (e : List α) (n : Nat) :
    (List.range n).filterMap (fun k => e[k]?) = e.take n := by
  induction n with
  | zero => simp
  | succ n ih =>
    rw [List.range_succ, List.filterMap_append, ih, List.take_add_one]
    cases h : e[n]? <;> simp [h]

/-! ### sorted -/

theorem sortedInsert_perm (lt : α → α → Bool) (x : α) (l : List α) :
    (sortedInsert lt x l).Perm (x :: l) := by
  induction l with
  | nil => simp [sortedInsert]
  | cons y ys ih =>
    simp only [sortedInsert]
    split
    · exact (ih.cons y).trans (List.Perm.swap x y ys)
    · exact List.Perm.refl _

theorem pySorted_perm (lt : α → α → Bool) (l : List α) : (pySorted lt l).Perm l := by
  induction l with
  | nil => simp [pySorted]
  | cons x xs ih =>
    have : pySorted lt (x :: xs) = sortedInsert lt x (pySorted lt xs) := rfl
    rw [this]
    exact (sortedInsert_perm lt x _).trans (ih.cons x)

/-- If `r` is transitive, refines `lt` and its failure, the result is `r`-sorted. -/
theorem pySorted_pairwise (lt : α → α → Bool) (r : α → α → Prop)
    (h1 : ∀ x y, lt x y = true → r x y) (h2 : ∀ x y, lt y x = false → r x y)
    (ht : ∀ x y z, r x y → r y z → r x z) (l : List α) : (pySorted lt l).Pairwise r := by
  induction l with
  | nil => simp [pySorted]
  | cons x xs ih =>
    have : pySorted lt (x :: xs) = sortedInsert lt x (pySorted lt xs) := rfl
    rw [this]
    clear this
    generalize pySorted lt xs = l at ih
    induction l with
    | nil => simp [sortedInsert]
    | cons y ys ihy =>
      obtain ⟨hy, hys⟩ := List.pairwise_cons.1 ih
      simp only [sortedInsert]
      split
      · rename_i hlt
        refine List.pairwise_cons.2 ⟨?_, ihy hys⟩
        intro z hz
        have := (sortedInsert_perm lt x ys).mem_iff.1 hz
        rcases List.mem_cons.1 this with rfl | hz
        · exact h1 _ _ hlt
        · exact hy z hz
      · rename_i hlt
        have hlt : lt y x = false := by simpa using hlt
        refine List.pairwise_cons.2 ⟨?_, ih⟩
        intro z hz
        rcases List.mem_cons.1 hz with rfl | hz
        · exact h2 _ _ hlt
        · exact ht _ _ _ (h2 _ _ hlt) (hy z hz)

/-- Sorting an already sorted list (no later element smaller than an earlier one) is the identity. -/
theorem pySorted_of_sorted (lt : α → α → Bool) (l : List α)
    (h : l.Pairwise (fun x y => lt y x = false)) : pySorted lt l = l := by
  induction l with
  | nil => rfl
  | cons x xs ih =>
    obtain ⟨hx, hxs⟩ := List.pairwise_cons.1 h
    have : pySorted lt (x :: xs) = sortedInsert lt x (pySorted lt xs) := rfl
    rw [this, ih hxs]
    cases xs with
    | nil => rfl
    | cons y ys => simp [sortedInsert, hx y (by simp)]

end S2P
