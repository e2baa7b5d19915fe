import Verif.Model.SortedDeque
import Verif.Spec.Sorted
import Verif.Proofs.Py
/- Lemmas about the SortedDeque model. -/
namespace S2P
variable {K V : Type}

/-! ### specification side: linear scans as filter/head -/

theorem first_eq (p : V → Bool) (l : List V) :
    Spec.first p l = match (l.filter p).head? with | some v => .ok v | none => .error .valueError := by
  induction l with
  | nil => rfl
  | cons v vs ih =>
    simp only [Spec.first]
    by_cases h : p v <;> simp [h, ih]

theorem last_eq (p : V → Bool) (l : List V) :
    Spec.last p l = match (l.filter p).getLast? with | some v => .ok v | none => .error .valueError := by
  rw [Spec.last, first_eq, List.filter_reverse, List.head?_reverse]

theorem dqGet_countP {p : V → Bool} {l : List V} (h : l.Pairwise (fun x y => p y → p x)) :
    (if l.countP p ≠ l.length then dqGet l (l.countP p) else .error .valueError)
      = Spec.first (fun v => !p v) l := by
  rw [first_eq, ← drop_countP h, List.head?_drop]
  by_cases hl : l.countP p = l.length
  · simp [hl]
  · have : l.countP p < l.length := by have := List.countP_le_length (p := p) (l := l); omega
    simp [hl, dqGet, List.getElem?_eq_getElem this]

theorem dqGet_countP_pred {p : V → Bool} {l : List V} (h : l.Pairwise (fun x y => p y → p x)) :
    (if l.countP p ≠ 0 then dqGet l (l.countP p - 1) else .error .valueError)
      = Spec.last p l := by
  rw [last_eq, ← take_countP h, List.getLast?_eq_getElem?]
  have hle := List.countP_le_length (p := p) (l := l)
  by_cases hl : l.countP p = 0
  · simp [hl]
  · have h1 : (l.take (l.countP p)).length = l.countP p := by simp [hle]
    have h2 : l.countP p - 1 < l.length := by omega
    rw [h1, if_pos hl, dqGet, List.getElem?_take, if_pos (by omega), List.getElem?_eq_getElem h2]

theorem drop_filter {p q : V → Bool} {l : List V} (hp : l.Pairwise (fun x y => p y → p x))
    (hq : l.Pairwise (fun x y => q y → q x)) :
    (l.filter q).drop (l.countP p) = l.filter (fun x => !p x && q x) := by
  induction l with
  | nil => simp
  | cons x xs ih =>
    obtain ⟨hpx, hpxs⟩ := List.pairwise_cons.1 hp
    obtain ⟨hqx, hqxs⟩ := List.pairwise_cons.1 hq
    by_cases h1 : p x
    · by_cases h2 : q x
      · simp [h1, h2, ih hpxs hqxs]
      · have h3 : xs.filter q = [] := by
          rw [List.filter_eq_nil_iff]; intro y hy hqy; exact h2 (hqx y hy hqy)
        have h4 : xs.filter (fun x => !p x && q x) = [] := by
          rw [List.filter_eq_nil_iff]; intro y hy hqy
          simp only [Bool.and_eq_true] at hqy; exact h2 (hqx y hy hqy.2)
        simp [h1, h2, h3, h4]
    · have h0 : xs.countP p = 0 := by
        rw [List.countP_eq_zero]; intro y hy hpy; exact h1 (hpx y hy hpy)
      have h3 : xs.filter (fun x => !p x && q x) = xs.filter q := by
        apply List.filter_congr
        intro y hy
        have : p y = false := by simpa using fun hpy => h1 (hpx y hy hpy)
        simp [this]
      simp [h1, h0, h3, List.filter_cons]

theorem everyNth_stride (step : Nat) (hs : 0 < step) (l : List V) :
    everyNth step 0 l = Spec.stride step l := by
  unfold Spec.stride
  have : (fun k => l[k * step]?) = fun k => (everyNth step 0 l)[k]? := by
    funext k; exact (everyNth_getElem? step hs l k).symm
  rw [this, filterMap_range_getElem?, List.take_of_length_le (everyNth_sublist step 0 l).length_le]

/-! ### well-formedness -/

namespace SD

/-- Keys aligned with items, items sorted by key, length within bound. -/
structure WF [LE K] (s : SD K V) : Prop where
  aligned : s.keys = s.items.map s.key
  sorted : s.items.Pairwise (fun v w => s.key v ≤ s.key w)
  bounded : ∀ m, s.maxlen = some m → s.items.length ≤ m

section plain
variable [LT K] [DecidableLT K]

theorem append_cases (s : SD K V) (v : V) :
    (s.keys = [] ∧ s.append v = ({ s with keys := dqAppend s.maxlen s.keys (s.key v), items := dqAppend s.maxlen s.items v }, .ok ()))
    ∨ (∃ l, s.keys.getLast? = some l ∧ l < s.key v ∧ s.append v = ({ s with keys := dqAppend s.maxlen s.keys (s.key v), items := dqAppend s.maxlen s.items v }, .ok ()))
    ∨ (∃ l, s.keys.getLast? = some l ∧ ¬ l < s.key v ∧ s.append v = (s, .error .valueError)) := by
  unfold append
  simp only [dqLast_eq]
  cases hk : s.keys.getLast? with
  | none =>
    left
    have : s.keys = [] := by simpa using hk
    simp [this]
  | some l =>
    right
    by_cases hl : l < s.key v
    · left; exact ⟨l, rfl, hl, by simp [hl]⟩
    · right; exact ⟨l, rfl, hl, by simp [hl]⟩

/-- Keys are the keys of the items (no order needed). -/
theorem aligned_append {s : SD K V} (h : s.keys = s.items.map s.key) (v : V) :
    (s.append v).1.keys = (s.append v).1.items.map (s.append v).1.key := by
  rcases s.append_cases v with ⟨_, ha⟩ | ⟨l, _, _, ha⟩ | ⟨l, _, _, ha⟩ <;> rw [ha]
  · simp only [dqAppend_map, h]
  · simp only [dqAppend_map, h]
  · exact h

theorem append_key (s : SD K V) (v : V) : (s.append v).1.key = s.key ∧ (s.append v).1.maxlen = s.maxlen
    ∧ (s.append v).1.keyNone = s.keyNone := by
  rcases s.append_cases v with ⟨_, ha⟩ | ⟨l, _, _, ha⟩ | ⟨l, _, _, ha⟩ <;> rw [ha] <;> simp

theorem dqAppend_newest' (m : Option Nat) (l : List V) (x : V) (h : ∀ k, m = some k → l.length ≤ k) :
    dqAppend m l x = Spec.newest m (l ++ [x]) := by
  rw [dqAppend_newest _ _ _ h]; cases m <;> rfl

/-- What `append` does, in terms of items only. -/
theorem append_eq {s : SD K V} (h : s.keys = s.items.map s.key) (hb : ∀ m, s.maxlen = some m → s.items.length ≤ m) (v : V) :
    s.append v = if Spec.mayAppend s.key s.items v
      then ({ s with keys := (Spec.newest s.maxlen (s.items ++ [v])).map s.key,
                     items := Spec.newest s.maxlen (s.items ++ [v]) }, .ok ())
      else (s, .error .valueError) := by
  have hn : dqAppend s.maxlen s.items v = Spec.newest s.maxlen (s.items ++ [v]) := by
    exact dqAppend_newest' _ _ _ hb
  have hk : dqAppend s.maxlen s.keys (s.key v) = (Spec.newest s.maxlen (s.items ++ [v])).map s.key := by
    rw [h, ← dqAppend_map, hn]
  have hl : s.keys.getLast? = s.items.getLast?.map s.key := by rw [h, List.getLast?_map]
  rcases s.append_cases v with ⟨he, ha⟩ | ⟨l, hl', hlt, ha⟩ | ⟨l, hl', hlt, ha⟩
  · have : s.items = [] := by simpa [h] using he
    rw [ha, hk, hn]; simp [this, Spec.mayAppend]
  · rw [hl] at hl'
    obtain ⟨w, hw, rfl⟩ := Option.map_eq_some_iff.1 hl'
    rw [ha, hk, hn]; simp [hw, hlt, Spec.mayAppend]
  · rw [hl] at hl'
    obtain ⟨w, hw, rfl⟩ := Option.map_eq_some_iff.1 hl'
    rw [ha]; simp [hw, hlt, Spec.mayAppend]

theorem newest_length (m : Option Nat) (l : List V) : ∀ k, m = some k → (Spec.newest m l).length ≤ k := by
  rintro k rfl; simp [Spec.newest]; omega

theorem newest_append (m : Option Nat) (l : List V) (v : V) :
    Spec.newest m (Spec.newest m l ++ [v]) = Spec.newest m (l ++ [v]) := by
  cases m with
  | none => rfl
  | some m =>
    simp only [Spec.newest]
    generalize hc : l.length - m = c
    have h1 : c ≤ l.length := by omega
    rw [← List.drop_append_of_le_length h1, List.drop_drop]
    simp only [List.length_append, List.length_drop, List.length_cons, List.length_nil]
    by_cases hm : m ≤ l.length
    · congr 1; omega
    · have : c = 0 := by omega
      subst this; simp

theorem appends_items (key : V → K) (kn : Py (Option K)) (m : Option Nat) (xs acc : List V) (s : SD K V)
    (hs : s = ⟨(Spec.newest m acc).map key, Spec.newest m acc, key, kn, m⟩) :
    (xs.foldl (fun s v => (s.append v).1) s).items = Spec.newest m (Spec.accepted key m acc xs) := by
  induction xs generalizing s acc with
  | nil => subst hs; rfl
  | cons v vs ih =>
    rw [List.foldl_cons]
    have hap := append_eq (s := s) (by subst hs; rfl) (by subst hs; exact newest_length m acc) v
    simp only [Spec.accepted]
    subst hs
    simp only at hap
    by_cases hlt : Spec.mayAppend key (Spec.newest m acc) v
    · simp only [hlt, if_true] at hap ⊢
      rw [hap]
      exact ih _ _ (by rw [newest_append])
    · simp only [hlt] at hap ⊢
      rw [hap]
      exact ih _ _ rfl

/-- Strictly increasing keys survive `append` for any transitive `<`. -/
theorem append_strict {s : SD K V} (ht : ∀ a b c : K, a < b → b < c → a < c)
    (h : s.keys = s.items.map s.key) (hs : s.items.Pairwise (fun v w => s.key v < s.key w)) (v : V) :
    (s.append v).1.items.Pairwise (fun v w => s.key v < s.key w) := by
  have aux : (∀ w ∈ s.items, s.key w < s.key v) →
      (dqAppend s.maxlen s.items v).Pairwise (fun v w => s.key v < s.key w) := by
    intro hv
    have h1 : (s.items ++ [v]).Pairwise (fun a b => s.key a < s.key b) := by
      rw [List.pairwise_append]; exact ⟨hs, by simp, by simpa using hv⟩
    rw [dqAppend_eq]
    cases s.maxlen with
    | none => exact h1
    | some m => dsimp only; split
                · exact h1.tail
                · exact h1
  rcases s.append_cases v with ⟨he, ha⟩ | ⟨l, hl, hlt, ha⟩ | ⟨l, hl, hlt, ha⟩
  · rw [ha]; apply aux
    have : s.items = [] := by simpa [h] using he
    simp [this]
  · rw [ha]; apply aux
    rw [h, List.getLast?_map] at hl
    obtain ⟨x, hx, rfl⟩ := Option.map_eq_some_iff.1 hl
    obtain ⟨ys, hys⟩ := List.getLast?_eq_some_iff.1 hx
    intro w hw
    rw [hys] at hs hw
    rcases List.mem_append.1 hw with hw | hw
    · exact ht _ _ _ ((List.pairwise_append.1 hs).2.2 w hw x (by simp)) hlt
    · have : w = x := by simpa using hw
      rw [this]; exact hlt
  · rw [ha]; exact hs

end plain

section order
variable [LinearOrder K] {s : SD K V}

theorem WF.keys_sorted (h : s.WF) : s.keys.Pairwise (· ≤ ·) := by
  rw [h.aligned, List.pairwise_map]; exact h.sorted

theorem WF.len_keys (h : s.WF) : s.keys.length = s.items.length := by simp [h.aligned]

theorem WF.bisectLeft (h : s.WF) (x : K) :
    bisectLeft s.keys (some x) = .ok (s.items.countP (fun v => decide (s.key v < x))) := by
  rw [bisectLeft_some h.keys_sorted, h.aligned, List.countP_map]; rfl

theorem WF.bisectRight (h : s.WF) (x : K) :
    bisectRight s.keys (some x) = .ok (s.items.countP (fun v => decide (s.key v ≤ x))) := by
  rw [bisectRight_some h.keys_sorted, h.aligned, List.countP_map]; rfl

theorem WF.mono_lt (h : s.WF) (x : K) :
    s.items.Pairwise (fun v w => (decide (s.key w < x) : Bool) → (decide (s.key v < x) : Bool)) := by
  refine h.sorted.imp ?_
  intro y z hyz hz
  simp only [decide_eq_true_eq] at *
  exact lt_of_le_of_lt hyz hz

theorem WF.mono_le (h : s.WF) (x : K) :
    s.items.Pairwise (fun v w => (decide (s.key w ≤ x) : Bool) → (decide (s.key v ≤ x) : Bool)) := by
  refine h.sorted.imp ?_
  intro y z hyz hz
  simp only [decide_eq_true_eq] at *
  exact le_trans hyz hz

theorem findGt_some (h : s.WF) (k : K) :
    s.findGt (some k) = Spec.first (fun v => decide (k < s.key v)) s.items := by
  simp only [findGt, h.bisectRight, bind, Except.bind]
  refine (dqGet_countP (h.mono_le k)).trans ?_
  congr 1; funext v; simp [← not_le]

theorem findGe_some (h : s.WF) (k : K) :
    s.findGe (some k) = Spec.first (fun v => decide (k ≤ s.key v)) s.items := by
  simp only [findGe, h.bisectLeft, bind, Except.bind]
  refine (dqGet_countP (h.mono_lt k)).trans ?_
  congr 1; funext v; simp [← not_lt]

theorem findLe_some (h : s.WF) (k : K) :
    s.findLe (some k) = Spec.last (fun v => decide (s.key v ≤ k)) s.items := by
  simp only [findLe, h.bisectRight, bind, Except.bind]
  rw [dqGet_countP_pred (h.mono_le k)]

theorem findLt_some (h : s.WF) (k : K) :
    s.findLt (some k) = Spec.last (fun v => decide (s.key v < k)) s.items := by
  simp only [findLt, h.bisectLeft, bind, Except.bind]
  rw [dqGet_countP_pred (h.mono_lt k)]

theorem find_some (h : s.WF) (k : K) :
    s.find (some k) = Spec.first (fun v => decide (s.key v = k)) s.items := by
  simp only [find, h.bisectLeft, bind, Except.bind]
  change (if _ ≠ s.items.length then _ else _) = _
  have hd := drop_countP (h.mono_lt k)
  have hle := List.countP_le_length (p := fun v => decide (s.key v < k)) (l := s.items)
  -- items with key = k are exactly those of the suffix
  have hf : s.items.filter (fun v => decide (s.key v = k))
      = (s.items.drop (s.items.countP (fun v => decide (s.key v < k)))).filter
          (fun v => decide (s.key v = k)) := by
    rw [hd, List.filter_filter]
    apply List.filter_congr
    intro v _
    by_cases hv : s.key v = k <;> simp [hv]
  rw [first_eq, hf]
  generalize hc : s.items.countP (fun v => decide (s.key v < k)) = c at *
  by_cases hl : c = s.items.length
  · simp [hl]
  · have hlt : c < s.items.length := by omega
    have hsort := h.sorted.drop (i := c)
    have hge : ∀ v ∈ s.items.drop c, k ≤ s.key v := by
      rw [hd]; intro v hv; simpa using (List.mem_filter.1 hv).2
    rw [List.drop_eq_getElem_cons hlt] at hsort hge ⊢
    have hk : dqGet s.keys c = .ok (s.key s.items[c]) := by
      simp [dqGet, h.aligned, hlt]
    have hi : dqGet s.items c = .ok s.items[c] := by simp [dqGet, hlt]
    simp only [hl, ne_eq, not_false_eq_true, if_true, hk, hi]
    clear hf hd
    generalize s.items[c] = x at *
    generalize s.items.drop (c + 1) = t at *
    by_cases he : s.key x = k
    · simp [he]
    · have hgt : k < s.key x := lt_of_le_of_ne (hge _ (by simp)) (Ne.symm he)
      have hnil : t.filter (fun v => decide (s.key v = k)) = [] := by
        rw [List.filter_eq_nil_iff]
        intro v hv hvk
        have := (List.pairwise_cons.1 hsort).1 v hv
        simp only [decide_eq_true_eq] at hvk
        rw [hvk] at this
        exact absurd this (not_le.2 hgt)
      simp [he, hnil]

/-- The slice between the two bisections is the closed interval of keys. -/
theorem slice_eq (h : s.WF) (lo hi : K) :
    (s.items.take (s.items.countP (fun v => decide (s.key v ≤ hi)))).drop
        (s.items.countP (fun v => decide (s.key v < lo)))
      = Spec.between s.key lo hi s.items := by
  rw [take_countP (h.mono_le hi), drop_filter (h.mono_lt lo) (h.mono_le hi), Spec.between]
  apply List.filter_congr
  intro v _
  simp [← not_lt]

theorem range_some (h : s.WF) (lo hi : K) (step : Option Int) :
    s.range (some lo) (some hi) step = match step with
      | none => .ok (Spec.between s.key lo hi s.items)
      | some st => if st ≤ 0 then .error .valueError
          else .ok (everyNth st.toNat 0 (Spec.between s.key lo hi s.items)) := by
  simp only [range, h.bisectLeft, h.bisectRight, bind, Except.bind, rangeByIndex, islice, slice_eq h]
  cases step <;> rfl

theorem keyslice (h : s.WF) (k : K) :
    (s.items.take (s.items.countP (fun v => decide (s.key v ≤ k)))).drop
        (s.items.countP (fun v => decide (s.key v < k)))
      = s.items.filter (fun v => decide (s.key v = k)) := by
  rw [slice_eq h, Spec.between]
  apply List.filter_congr
  intro v _
  rw [← Bool.decide_and]
  congr 1
  exact propext ⟨fun h => le_antisymm h.2 h.1, fun h => ⟨le_of_eq h.symm, le_of_eq h⟩⟩

theorem contains_eq [BEq V] (h : s.WF) (hb : ∀ v w : V, (v == w) = true → s.key v = s.key w) (x : V) :
    s.contains x = .ok (s.items.any (· == x)) := by
  simp only [contains, h.bisectLeft, h.bisectRight, bind, Except.bind, islice, keyslice h]
  congr 1
  rw [List.any_filter]
  congr 1; funext v
  by_cases hv : (v == x) = true
  · simp [hv, hb v x hv]
  · simp only [Bool.not_eq_true] at hv; simp [hv]

theorem count_eq [BEq V] (h : s.WF) (hb : ∀ v w : V, (v == w) = true → s.key v = s.key w) (x : V) :
    s.count x = .ok (s.items.countP (· == x)) := by
  simp only [count, h.bisectLeft, h.bisectRight, bind, Except.bind, islice, keyslice h]
  congr 1
  rw [List.countP_filter]
  congr 1; funext v
  by_cases hv : (v == x) = true
  · simp [hv, hb v x hv]
  · simp only [Bool.not_eq_true] at hv; simp [hv]

theorem position_eq [BEq V] (x : V) (l : List V) :
    Spec.position x l = match l.findIdx? (· == x) with
      | some i => .ok i | none => .error .valueError := by
  induction l with
  | nil => rfl
  | cons v vs ih =>
    simp only [Spec.position, List.findIdx?_cons]
    split
    · rfl
    · rw [ih]; cases vs.findIdx? (· == x) <;> rfl

theorem index_eq [BEq V] (h : s.WF) (hb : ∀ v w : V, (v == w) = true → s.key v = s.key w) (x : V) :
    s.index x = Spec.position x s.items := by
  simp only [index, h.bisectLeft, h.bisectRight, bind, Except.bind, dqIndex]
  rw [position_eq]
  have hij : s.items.countP (fun v => decide (s.key v < s.key x))
      ≤ s.items.countP (fun v => decide (s.key v ≤ s.key x)) := by
    apply List.countP_mono_left
    intro v _ hv
    simp only [decide_eq_true_eq] at *
    exact le_of_lt hv
  have hjl := List.countP_le_length (p := fun v => decide (s.key v ≤ s.key x)) (l := s.items)
  generalize hi : s.items.countP (fun v => decide (s.key v < s.key x)) = i at *
  generalize hj : s.items.countP (fun v => decide (s.key v ≤ s.key x)) = j at *
  -- decompose
  have hdec : s.items = s.items.take i ++ ((s.items.take j).drop i ++ s.items.drop j) := by
    have h1 : s.items.take j = s.items.take i ++ (s.items.take j).drop i := by
      conv_lhs => rw [← List.take_append_drop i (s.items.take j)]
      rw [List.take_take, Nat.min_eq_left hij]
    rw [← List.append_assoc, ← h1, List.take_append_drop]
  have hpre : ∀ v ∈ s.items.take i, (v == x) = false := by
    intro v hv
    rw [← hi, take_countP (h.mono_lt _)] at hv
    have := (List.mem_filter.1 hv).2
    simp only [decide_eq_true_eq] at this
    by_contra hc
    exact absurd (hb v x (by simpa using hc)) (ne_of_lt this)
  have hpost : ∀ v ∈ s.items.drop j, (v == x) = false := by
    intro v hv
    rw [← hj, drop_countP (h.mono_le _)] at hv
    have := (List.mem_filter.1 hv).2
    simp only [Bool.not_eq_true', decide_eq_false_iff_not, not_le] at this
    by_contra hc
    exact absurd (hb v x (by simpa using hc)) (ne_of_gt this)
  have hn1 : (s.items.take i).findIdx? (· == x) = none := by
    rw [List.findIdx?_eq_none_iff]; exact hpre
  have hn2 : (s.items.drop j).findIdx? (· == x) = none := by
    rw [List.findIdx?_eq_none_iff]; exact hpost
  conv_rhs => rw [hdec]
  rw [List.findIdx?_append, hn1, List.findIdx?_append, hn2]
  have hil : (s.items.take i).length = i := by simp; omega
  cases hfi : ((s.items.take j).drop i).findIdx? (· == x) with
  | none => simp
  | some a => simp [hil]

/-! ### append -/

theorem WF.dqAppend_sorted (h : s.WF) (v : V) (hv : ∀ w ∈ s.items, s.key w ≤ s.key v) :
    (dqAppend s.maxlen s.items v).Pairwise (fun a b => s.key a ≤ s.key b) := by
  have h1 : (s.items ++ [v]).Pairwise (fun a b => s.key a ≤ s.key b) := by
    rw [List.pairwise_append]
    exact ⟨h.sorted, by simp, by simpa using hv⟩
  rw [dqAppend_eq]
  cases s.maxlen with
  | none => exact h1
  | some m => dsimp only; split
              · exact h1.tail
              · exact h1

theorem WF.le_last (h : s.WF) {l : K} (hl : s.keys.getLast? = some l) : ∀ w ∈ s.items, s.key w ≤ l := by
  intro w hw
  rw [h.aligned] at hl
  obtain ⟨ys, hys⟩ := List.getLast?_eq_some_iff.1 hl
  have hs : (s.items.map s.key).Pairwise (· ≤ ·) := by rw [← h.aligned]; exact h.keys_sorted
  have hm : s.key w ∈ s.items.map s.key := List.mem_map_of_mem hw
  rw [hys] at hs hm
  rcases List.mem_append.1 hm with hm | hm
  · exact (List.pairwise_append.1 hs).2.2 _ hm l (by simp)
  · exact le_of_eq (by simpa using hm)

theorem WF.append (h : s.WF) (v : V) : (s.append v).1.WF := by
  have key : (∀ w ∈ s.items, s.key w ≤ s.key v) →
      ({ s with keys := dqAppend s.maxlen s.keys (s.key v), items := dqAppend s.maxlen s.items v } : SD K V).WF := by
    intro hv
    refine ⟨?_, h.dqAppend_sorted v hv, ?_⟩
    · simp only [dqAppend_map, h.aligned]
    · exact dqAppend_length _ _ _ h.bounded
  rcases s.append_cases v with ⟨he, ha⟩ | ⟨l, hl, hlt, ha⟩ | ⟨l, hl, hlt, ha⟩
  · rw [ha]
    apply key
    have : s.items = [] := by have := h.len_keys; simp [he] at this; simpa using this.symm
    simp [this]
  · rw [ha]
    exact key (fun w hw => le_trans (h.le_last hl w hw) (le_of_lt hlt))
  · rw [ha]; exact h

/-! ### drop -/

theorem dropLoop_eq (h : s.keys.length = s.items.length) (n : Nat) :
    dropLoop n s = ({ s with keys := s.keys.drop n, items := s.items.drop n },
      if n ≤ s.items.length then .ok () else .error .indexError) := by
  induction n generalizing s with
  | zero => simp [dropLoop]
  | succ n ih =>
    unfold dropLoop
    cases hk : s.keys with
    | nil =>
      have : s.items = [] := by simpa [hk] using h.symm
      cases s
      simp_all [dqDel]
    | cons k ks =>
      cases hi : s.items with
      | nil => simp [hk, hi] at h
      | cons i is =>
        simp only [dqDel, List.length_cons, Nat.zero_lt_succ, if_true, List.eraseIdx_zero, List.tail_cons]
        rw [ih (by simpa [hk, hi] using h)]
        simp

theorem WF.drop (h : s.WF) (n : Int) : (s.drop n).1.WF := by
  rw [SD.drop, dropLoop_eq h.len_keys]
  refine ⟨?_, ?_, ?_⟩
  · simp [h.aligned]
  · exact h.sorted.drop
  · intro m hm; have := h.bounded m hm; simp; omega

theorem drop_eq (h : s.WF) (n : Int) :
    s.drop n = ({ s with keys := s.keys.drop n.toNat, items := s.items.drop n.toNat },
      if n ≤ s.items.length then .ok () else .error .indexError) := by
  rw [SD.drop, dropLoop_eq h.len_keys]
  congr 1
  by_cases hn : n ≤ s.items.length
  · rw [if_pos hn, if_pos (by omega)]
  · rw [if_neg hn, if_neg (by omega)]

/-! ### insert / remove -/

theorem insertAt_eq (h : s.WF) (i : Nat) (v : V) :
    s.insertAt i v = if s.maxlen = some s.items.length then (s, .error .indexError)
      else ({ s with keys := s.keys.take i ++ s.key v :: s.keys.drop i,
                     items := s.items.take i ++ v :: s.items.drop i }, .ok ()) := by
  unfold insertAt dqInsert
  rw [h.len_keys]
  by_cases hm : s.maxlen = some s.items.length <;> simp [hm]

theorem insert_eq (h : s.WF) (v : V) :
    s.insert v = if s.maxlen = some s.items.length then (s, .error .indexError)
      else ({ s with
          keys := (s.items.filter (fun w => decide (s.key w < s.key v)) ++ v :: s.items.filter (fun w => decide (s.key v ≤ s.key w))).map s.key,
          items := s.items.filter (fun w => decide (s.key w < s.key v)) ++ v :: s.items.filter (fun w => decide (s.key v ≤ s.key w)) },
        .ok ()) := by
  have hd : s.items.filter (fun w => !decide (s.key w < s.key v)) = s.items.filter (fun w => decide (s.key v ≤ s.key w)) := by
    apply List.filter_congr; intro w _; simp [← not_lt]
  simp only [SD.insert, h.bisectLeft]
  rw [insertAt_eq h, h.aligned, ← List.map_take, ← List.map_drop, take_countP (h.mono_lt _), drop_countP (h.mono_lt _), hd]
  simp

theorem insertRight_eq (h : s.WF) (v : V) :
    s.insertRight v = if s.maxlen = some s.items.length then (s, .error .indexError)
      else ({ s with
          keys := (s.items.filter (fun w => decide (s.key w ≤ s.key v)) ++ v :: s.items.filter (fun w => decide (s.key v < s.key w))).map s.key,
          items := s.items.filter (fun w => decide (s.key w ≤ s.key v)) ++ v :: s.items.filter (fun w => decide (s.key v < s.key w)) },
        .ok ()) := by
  have hd : s.items.filter (fun w => !decide (s.key w ≤ s.key v)) = s.items.filter (fun w => decide (s.key v < s.key w)) := by
    apply List.filter_congr; intro w _; simp [← not_le]
  simp only [SD.insertRight, h.bisectRight]
  rw [insertAt_eq h, h.aligned, ← List.map_take, ← List.map_drop, take_countP (h.mono_le _), drop_countP (h.mono_le _), hd]
  simp

theorem sorted_insert_filter (h : s.WF) (v : V) (p q : V → Bool)
    (hp : ∀ w, p w → s.key w ≤ s.key v) (hq : ∀ w, q w → s.key v ≤ s.key w) :
    (s.items.filter p ++ v :: s.items.filter q).Pairwise (fun a b => s.key a ≤ s.key b) := by
  rw [List.pairwise_append, List.pairwise_cons]
  refine ⟨h.sorted.filter _, ⟨?_, h.sorted.filter _⟩, ?_⟩
  · intro w hw; exact hq w (List.mem_filter.1 hw).2
  · intro a ha b hb
    have ha := hp a (List.mem_filter.1 ha).2
    rcases List.mem_cons.1 hb with rfl | hb
    · exact ha
    · exact le_trans ha (hq b (List.mem_filter.1 hb).2)

theorem filter_split_length (l : List V) (p q : V → Bool) (h : ∀ w, q w = !p w) :
    (l.filter p).length + (l.filter q).length = l.length := by
  have : q = fun w => !p w := funext h
  subst this
  induction l with
  | nil => rfl
  | cons x xs ih => by_cases hx : p x <;> simp [hx] <;> omega

theorem WF.insertAny (h : s.WF) (v : V) (p q : V → Bool)
    (hp : ∀ w, p w → s.key w ≤ s.key v) (hq : ∀ w, q w → s.key v ≤ s.key w) (hpq : ∀ w, q w = !p w)
    (hm : ¬ s.maxlen = some s.items.length) :
    ({ s with keys := (s.items.filter p ++ v :: s.items.filter q).map s.key,
              items := s.items.filter p ++ v :: s.items.filter q } : SD K V).WF := by
  refine ⟨rfl, sorted_insert_filter h v p q hp hq, ?_⟩
  intro m hmm
  have h1 := h.bounded m hmm
  have h2 : s.items.length ≠ m := by rintro rfl; exact hm hmm
  have h3 := filter_split_length s.items p q hpq
  simp only [List.length_append, List.length_cons]
  omega

theorem WF.insert (h : s.WF) (v : V) : (s.insert v).1.WF := by
  rw [insert_eq h]
  split
  · exact h
  · rename_i hm
    refine h.insertAny v _ _ ?_ ?_ ?_ hm
    · intro w hw; exact le_of_lt (by simpa using hw)
    · intro w hw; simpa using hw
    · intro w; simp [← not_lt]

theorem WF.insertRight (h : s.WF) (v : V) : (s.insertRight v).1.WF := by
  rw [insertRight_eq h]
  split
  · exact h
  · rename_i hm
    refine h.insertAny v _ _ ?_ ?_ ?_ hm
    · intro w hw; simpa using hw
    · intro w hw; exact le_of_lt (by simpa using hw)
    · intro w; simp [← not_le]

theorem position_eraseP [BEq V] (x : V) (l : List V) :
    (∃ i, Spec.position x l = .ok i ∧ i < l.length ∧ l.eraseIdx i = l.eraseP (· == x))
    ∨ (Spec.position x l = .error .valueError ∧ ∀ v ∈ l, (v == x) = false) := by
  induction l with
  | nil => right; simp [Spec.position]
  | cons v vs ih =>
    by_cases hv : (v == x) = true
    · left; exact ⟨0, by simp [Spec.position, hv], by simp, by simp [hv]⟩
    · rcases ih with ⟨i, h1, h2, h3⟩ | ⟨h1, h2⟩
      · left
        refine ⟨i + 1, by simp [Spec.position, hv, h1, Except.map], by simpa using h2, ?_⟩
        simp [hv, h3]
      · right
        refine ⟨by simp [Spec.position, hv, h1, Except.map], ?_⟩
        intro w hw
        rcases List.mem_cons.1 hw with rfl | hw
        · simpa using hv
        · exact h2 w hw

theorem remove_eq [BEq V] (h : s.WF) (hb : ∀ v w : V, (v == w) = true → s.key v = s.key w) (x : V) :
    s.remove x = if s.items.any (· == x)
      then ({ s with keys := (s.items.eraseP (· == x)).map s.key, items := s.items.eraseP (· == x) }, .ok ())
      else (s, .error .valueError) := by
  unfold remove
  rw [index_eq h hb]
  rcases position_eraseP x s.items with ⟨i, h1, h2, h3⟩ | ⟨h1, h2⟩
  · have hany : s.items.any (· == x) = true := by
      by_contra hc
      have hc : ∀ v ∈ s.items, (v == x) = false := by
        intro v hv; simp only [List.any_eq_true, not_exists, not_and] at hc; simpa using hc v hv
      have : (s.items.findIdx? (· == x)) = none := by rw [List.findIdx?_eq_none_iff]; exact hc
      rw [position_eq, this] at h1
      simp at h1
    rw [h1, if_pos hany]
    simp only [dqDel, h.len_keys, h2, if_true]
    rw [← h3, h.aligned]
    congr 2
    clear h1 h3 hany
    generalize s.items = l at h2
    induction l generalizing i with
    | nil => rfl
    | cons a as ih => cases i with
      | zero => rfl
      | succ i => simp only [List.map_cons, List.eraseIdx_cons_succ]; rw [ih i (by simpa using h2)]
  · rw [h1]
    have : ¬ s.items.any (· == x) = true := by
      simp only [List.any_eq_true, not_exists, not_and]
      intro v hv; simp [h2 v hv]
    rw [if_neg this]

theorem map_eraseIdx {α β : Type} (f : α → β) (l : List α) (i : Nat) :
    (l.map f).eraseIdx i = (l.eraseIdx i).map f := by
  induction l generalizing i with
  | nil => rfl
  | cons a as ih => cases i with
    | zero => rfl
    | succ i => simp [ih]

/-- Well-formedness survives `remove` even if `==` and the key function disagree. -/
theorem WF.remove [BEq V] (h : s.WF) (x : V) : (s.remove x).1.WF := by
  unfold SD.remove
  cases s.index x with
  | error e => exact h
  | ok i =>
    simp only [dqDel, h.len_keys]
    by_cases hi : i < s.items.length
    · simp only [hi, if_true]
      refine ⟨?_, ?_, ?_⟩
      · simp only [h.aligned, map_eraseIdx]
      · exact h.sorted.sublist (List.eraseIdx_sublist _ _)
      · intro m hm
        have h1 := h.bounded m hm
        have h2 := (List.eraseIdx_sublist s.items i).length_le
        simp only; omega
    · simp only [hi, if_false]; exact h

/-! ### construction -/

section new
variable [BEq V] [LT V] [DecidableLT V]

theorem sorted_pairs (l : List V) (key : V → K) :
    (pySorted tupleLt (l.map fun v => (key v, v))).Pairwise (fun a b => a.1 ≤ b.1) := by
  apply pySorted_pairwise
  · intro x y hxy
    unfold tupleLt at hxy
    split at hxy
    · rename_i he; exact le_of_eq he
    · exact le_of_lt (by simpa using hxy)
  · intro x y hxy
    unfold tupleLt at hxy
    split at hxy
    · rename_i he; exact le_of_eq he.symm
    · simpa using hxy
  · intro x y z h1 h2; exact le_trans h1 h2

/-- The items of a freshly constructed deque before truncation. -/
def sortedItems (l : List V) (key : V → K) : List V :=
  (pySorted tupleLt (l.map fun v => (key v, v))).map (·.2)

theorem sortedItems_perm (l : List V) (key : V → K) : (sortedItems l key).Perm l := by
  have := (pySorted_perm tupleLt (l.map fun v => (key v, v))).map (·.2)
  simpa [sortedItems, Function.comp_def] using this

theorem decorated_fst (l : List V) (key : V → K) :
    (pySorted tupleLt (l.map fun v => (key v, v))).map (·.1) = (sortedItems l key).map key := by
  unfold sortedItems
  rw [List.map_map]
  apply List.map_congr_left
  intro p hp
  have := (pySorted_perm tupleLt (l.map fun v => (key v, v))).mem_iff.1 hp
  obtain ⟨v, _, rfl⟩ := List.mem_map.1 this
  rfl

theorem sortedItems_sorted (l : List V) (key : V → K) :
    (sortedItems l key).Pairwise (fun v w => key v ≤ key w) := by
  have := sorted_pairs l key
  have h2 : ((sortedItems l key).map key).Pairwise (· ≤ ·) := by
    rw [← decorated_fst, List.pairwise_map]; exact this
  rwa [List.pairwise_map] at h2

theorem sortedItems_of_strict (l : List V) (key : V → K) (h : l.Pairwise (fun v w => key v < key w)) :
    sortedItems l key = l := by
  unfold sortedItems
  rw [pySorted_of_sorted]
  · simp [Function.comp_def]
  · rw [List.pairwise_map]
    refine h.imp ?_
    intro v w hvw
    simp [tupleLt, ne_of_gt hvw, le_of_lt hvw]

theorem new_items (l : List V) (key : V → K) (kn : Py (Option K)) (m : Option Nat) :
    (new l key kn m).items = Spec.newest m (sortedItems l key) := by
  simp only [new, dqOf_eq, Spec.newest, sortedItems]
  cases m <;> rfl

theorem new_nil (key : V → K) (kn : Py (Option K)) (m : Option Nat) : new [] key kn m = empty key kn m := rfl

theorem new_wf (l : List V) (key : V → K) (kn : Py (Option K)) (m : Option Nat) :
    (new l key kn m).WF := by
  refine ⟨?_, ?_, ?_⟩
  · rw [new_items]
    have : (new l key kn m).keys = dqOf m ((sortedItems l key).map key) := by
      rw [← decorated_fst]; rfl
    rw [this, dqOf_eq]
    show _ = (Spec.newest m (sortedItems l key)).map key
    cases m <;> simp [Spec.newest]
  · rw [new_items]
    show (Spec.newest m (sortedItems l key)).Pairwise (fun v w => key v ≤ key w)
    have := sortedItems_sorted l key
    cases m with
    | none => exact this
    | some m => exact this.drop
  · intro k hk
    have hk : m = some k := hk
    subst hk
    rw [new_items]
    simp [Spec.newest]
    omega

theorem Reachable.wf {s : SD K V} (h : Reachable s) : s.WF := by
  induction h with
  | new l key kn m => exact new_wf l key kn m
  | @step s op _ ih =>
    cases op with
    | append v => exact ih.append v
    | insert v => exact ih.insert v
    | insertRight v => exact ih.insertRight v
    | remove v => exact ih.remove v
    | drop n => exact ih.drop n
    | clear => exact new_wf _ _ _ _
    | setMaxlen m =>
      show (s.setMaxlen m).WF
      unfold setMaxlen
      split
      · exact new_wf _ _ _ _
      · exact ih
    | setKey k kn => exact new_wf _ _ _ _
    | delKey k kn => exact new_wf _ _ _ _
    | copy => exact new_wf _ _ _ _
    | roundTrip => exact new_wf _ _ _ _

end new
end order
end SD
end S2P
