import Verif.Proofs.SortedDeque
import Mathlib.Order.Nat
/-
Properties C01–C10 and C57 of the sorted deque. `SD.Reachable` = obtained from the constructor by any public calls
(including calls that raised). The right-hand sides are linear scans (`Spec/Sorted.lean`) over the item list.
-/
namespace S2P
open SD
variable {K V : Type}

section reach
variable [LinearOrder K] [BEq V] [LT V] [DecidableLT V] {s : SD K V}

/-! ### C01 -/

/-- C01: sorted by key, search keys aligned with the items, never longer than `maxlen`, after any history. -/
theorem C01_sorted_aligned_bounded (h : Reachable s) :
    s.items.Pairwise (fun v w => s.key v ≤ s.key w) ∧ s.keys = s.items.map s.key ∧
    ∀ m, s.maxlen = some m → s.items.length ≤ m :=
  ⟨h.wf.sorted, h.wf.aligned, h.wf.bounded⟩

/-! ### C02 -/

/-- C02: `append` succeeds iff the deque is empty or the key is above the last one; on success the item becomes the last and
only the bound evicts; on failure it is a `ValueError` and nothing changes. -/
theorem C02_append (h : Reachable s) (v : V) :
    ((s.append v).2 = .ok () ↔ s.items = [] ∨ ∃ w, s.items.getLast? = some w ∧ s.key w < s.key v) ∧
    ((s.append v).2 = .ok () → (s.append v).1 = { s with
        keys := (Spec.newest s.maxlen (s.items ++ [v])).map s.key
        items := Spec.newest s.maxlen (s.items ++ [v]) }) ∧
    ((s.append v).2 ≠ .ok () → s.append v = (s, .error .valueError)) := by
  rw [append_eq h.wf.aligned h.wf.bounded]
  have hm : Spec.mayAppend s.key s.items v = true ↔
      (s.items = [] ∨ ∃ w, s.items.getLast? = some w ∧ s.key w < s.key v) := by
    unfold Spec.mayAppend
    cases hl : s.items.getLast? with
    | none => simp at hl; simp [hl]
    | some w => simp; rintro hn; simp [hn] at hl
  rw [← hm]
  by_cases hc : Spec.mayAppend s.key s.items v = true
  · simp [hc]
  · simp [hc]

/-- C02, second half: filled by `append` alone, the keys are strictly increasing whenever `<` is transitive; no totality
is needed (think of NaN keys). -/
theorem C02_append_only_strict {K V : Type} [LT K] [DecidableLT K] (trans : ∀ a b c : K, a < b → b < c → a < c)
    (key : V → K) (kn : Py (Option K)) (m : Option Nat) (xs : List V) :
    (xs.foldl (fun s v => (s.append v).1) (SD.empty key kn m)).items.Pairwise (fun v w => key v < key w) := by
  suffices H : ∀ s : SD K V, s.key = key → s.keys = s.items.map s.key →
      s.items.Pairwise (fun v w => key v < key w) →
      (xs.foldl (fun s v => (s.append v).1) s).items.Pairwise (fun v w => key v < key w) from
    H _ rfl rfl (by simp [SD.empty])
  induction xs with
  | nil => intro s _ _ h; exact h
  | cons x xs ih =>
    intro s hk ha hs
    refine ih _ ((s.append_key x).1.trans hk) (aligned_append ha x) ?_
    have := append_strict trans ha (by rw [hk]; exact hs) x
    rwa [hk] at this

/-! ### C03 -/

/-- C03: the five `find` methods are linear scans. -/
theorem C03_find_scans (h : Reachable s) (k : K) :
    s.find (some k) = Spec.first (fun v => decide (s.key v = k)) s.items ∧
    s.findGe (some k) = Spec.first (fun v => decide (k ≤ s.key v)) s.items ∧
    s.findGt (some k) = Spec.first (fun v => decide (k < s.key v)) s.items ∧
    s.findLe (some k) = Spec.last (fun v => decide (s.key v ≤ k)) s.items ∧
    s.findLt (some k) = Spec.last (fun v => decide (s.key v < k)) s.items :=
  ⟨find_some h.wf k, findGe_some h.wf k, findGt_some h.wf k, findLe_some h.wf k, findLt_some h.wf k⟩

/-- Probing with `None` is a `TypeError` on a non-empty deque, "not found" on an empty one. -/
theorem C03_find_none (s : SD K V) (hl : s.keys = s.items.map s.key) :
    (s.items ≠ [] → s.find none = .error .typeError ∧ s.findGe none = .error .typeError ∧
      s.findGt none = .error .typeError ∧ s.findLe none = .error .typeError ∧ s.findLt none = .error .typeError) ∧
    (s.items = [] → s.find none = .error .valueError ∧ s.findGe none = .error .valueError ∧
      s.findGt none = .error .valueError ∧ s.findLe none = .error .valueError ∧ s.findLt none = .error .valueError) := by
  have hk : s.keys = [] ↔ s.items = [] := by rw [hl]; simp
  constructor
  · intro hi
    have : s.keys ≠ [] := fun h => hi (hk.1 h)
    simp [find, findGe, findGt, findLe, findLt, bisectLeft_none, bisectRight_none, this, bind, Except.bind]
  · intro hi
    simp [find, findGe, findGt, findLe, findLt, bisectLeft_none, bisectRight_none, hk.2 hi, bind, Except.bind, len, hi]

/-! ### C04 -/

/-- C04: `range` without a step is the closed key interval; a positive step keeps every step-th item from the first;
other steps are a `ValueError`. -/
theorem C04_range (h : Reachable s) (lo hi : K) :
    s.range (some lo) (some hi) none = .ok (Spec.between s.key lo hi s.items) ∧
    (∀ st : Int, 0 < st →
      s.range (some lo) (some hi) (some st) = .ok (Spec.stride st.toNat (Spec.between s.key lo hi s.items))) ∧
    (∀ st : Int, st ≤ 0 → s.range (some lo) (some hi) (some st) = .error .valueError) := by
  refine ⟨?_, ?_, ?_⟩
  · rw [range_some h.wf]
  · intro st hst
    rw [range_some h.wf]
    dsimp only
    rw [if_neg (by omega)]
    rw [everyNth_stride _ (by omega)]
  · intro st hst
    rw [range_some h.wf]; simp [hst]

/-! ### C05 -/

/-- C05: membership, `index` and `count` are linear scans with the items' own `==`, provided equal items have equal keys. -/
theorem C05_membership_scans (h : Reachable s) (hkey : ∀ v w : V, (v == w) = true → s.key v = s.key w) (x : V) :
    s.contains x = .ok (s.items.any (· == x)) ∧ s.index x = Spec.position x s.items ∧
    s.count x = .ok (s.items.countP (· == x)) :=
  ⟨contains_eq h.wf hkey x, index_eq h.wf hkey x, count_eq h.wf hkey x⟩

/-! ### C06 -/

/-- C06, insert: on a full deque `IndexError` and no change; otherwise the item goes before (`insert`) / after
(`insert_right`) all items with an equal key, the others keep their order. -/
theorem C06_insert (h : Reachable s) (v : V) :
    (s.maxlen = some s.items.length → s.insert v = (s, .error .indexError) ∧ s.insertRight v = (s, .error .indexError)) ∧
    (s.maxlen ≠ some s.items.length →
      (∃ a b, s.items = a ++ b ∧ (∀ w ∈ a, s.key w < s.key v) ∧ (∀ w ∈ b, s.key v ≤ s.key w) ∧
        s.insert v = ({ s with keys := (a ++ v :: b).map s.key, items := a ++ v :: b }, .ok ())) ∧
      (∃ a b, s.items = a ++ b ∧ (∀ w ∈ a, s.key w ≤ s.key v) ∧ (∀ w ∈ b, s.key v < s.key w) ∧
        s.insertRight v = ({ s with keys := (a ++ v :: b).map s.key, items := a ++ v :: b }, .ok ()))) := by
  rw [insert_eq h.wf, insertRight_eq h.wf]
  refine ⟨fun hm => by simp [hm], fun hm => ⟨?_, ?_⟩⟩
  · refine ⟨_, _, ?_, ?_, ?_, by rw [if_neg hm]⟩
    · have h1 := take_countP (h.wf.mono_lt (s.key v))
      have h2 := drop_countP (h.wf.mono_lt (s.key v))
      have hd : s.items.filter (fun w => !decide (s.key w < s.key v)) = s.items.filter (fun w => decide (s.key v ≤ s.key w)) := by
        apply List.filter_congr; intro w _; simp [← not_lt]
      rw [← hd, ← h1, ← h2, List.take_append_drop]
    · intro w hw; simpa using (List.mem_filter.1 hw).2
    · intro w hw; simpa using (List.mem_filter.1 hw).2
  · refine ⟨_, _, ?_, ?_, ?_, by rw [if_neg hm]⟩
    · have h1 := take_countP (h.wf.mono_le (s.key v))
      have h2 := drop_countP (h.wf.mono_le (s.key v))
      have hd : s.items.filter (fun w => !decide (s.key w ≤ s.key v)) = s.items.filter (fun w => decide (s.key v < s.key w)) := by
        apply List.filter_congr; intro w _; simp [← not_le]
      rw [← hd, ← h1, ← h2, List.take_append_drop]
    · intro w hw; simpa using (List.mem_filter.1 hw).2
    · intro w hw; simpa using (List.mem_filter.1 hw).2

/-- C06, remove: deletes exactly the first equal item, or `ValueError` and no change if there is none. -/
theorem C06_remove (h : Reachable s) (hkey : ∀ v w : V, (v == w) = true → s.key v = s.key w) (x : V) :
    (∃ a y b, s.items = a ++ y :: b ∧ (y == x) = true ∧ (∀ w ∈ a, (w == x) = false) ∧
      s.remove x = ({ s with keys := (a ++ b).map s.key, items := a ++ b }, .ok ())) ∨
    ((∀ w ∈ s.items, (w == x) = false) ∧ s.remove x = (s, .error .valueError)) := by
  rw [remove_eq h.wf hkey]
  by_cases hany : s.items.any (· == x) = true
  · left
    rw [if_pos hany]
    obtain ⟨y, hy, hyx⟩ := List.any_eq_true.1 hany
    obtain ⟨z, l1, l2, h1, h2, h3, h4⟩ := List.exists_of_eraseP (p := (· == x)) hy hyx
    refine ⟨l1, z, l2, h3, h2, ?_, by rw [h4]⟩
    intro w hw; simpa using h1 w hw
  · right
    rw [if_neg hany]
    refine ⟨?_, rfl⟩
    intro w hw
    by_contra hc
    exact hany (List.any_eq_true.2 ⟨w, hw, by simpa using hc⟩)

/-! ### C07 -/

/-- C07: `drop(n)` removes exactly the `n` oldest items (none for `n ≤ 0`); if there are fewer, it empties the deque and raises
`IndexError`. Key function and bound stay. -/
theorem C07_drop (h : Reachable s) (n : Int) :
    (s.drop n).1 = { s with keys := (s.items.drop n.toNat).map s.key, items := s.items.drop n.toNat } ∧
    (s.drop n).2 = (if n ≤ s.items.length then .ok () else .error .indexError) := by
  rw [drop_eq h.wf]
  refine ⟨?_, rfl⟩
  simp [h.wf.aligned, List.map_drop]

/-! ### C10 -/

/-- C10: `find_last_gt(k)` returns the newest item iff its key is above `k`, else `ValueError` (also when empty). -/
theorem C10_find_last_gt (h : Reachable s) (k : K) :
    s.findLastGt (some k) = match s.items.getLast? with
      | some w => if k < s.key w then .ok w else .error .valueError
      | none => .error .valueError := by
  unfold findLastGt
  rw [dqLast_eq, dqLast_eq, h.wf.aligned, List.getLast?_map]
  cases hl : s.items.getLast? with
  | none => simp only [List.getLast?_eq_none_iff] at hl; simp [hl]
  | some w => simp only [Option.map_some, ltPy]
              by_cases hk : k < s.key w <;> simp [hk]

/-! ### C09 -/

/-- C09, construction: key-sorted permutation of the iterable, of which the `maxlen` largest are kept. -/
theorem C09_construct (l : List V) (key : V → K) (kn : Py (Option K)) (m : Option Nat) :
    ∃ l' : List V, l'.Perm l ∧ l'.Pairwise (fun v w => key v ≤ key w) ∧
      (new l key kn m).items = Spec.newest m l' ∧ (new l key kn m).key = key ∧ (new l key kn m).maxlen = m :=
  ⟨sortedItems l key, sortedItems_perm l key, sortedItems_sorted l key, new_items l key kn m, rfl, rfl⟩

/-- C09, `clear` empties and keeps key function and bound; `copy` (and the pickle / jdict round trip) has the same items up
to the order of equal-key items, and exactly the same when no two keys tie. -/
theorem C09_clear_copy (h : Reachable s) :
    s.clear = { s with keys := [], items := [] } ∧
    (s.copy.items.Perm s.items ∧ s.copy.key = s.key ∧ s.copy.maxlen = s.maxlen) ∧
    (s.items.Pairwise (fun v w => s.key v < s.key w) → s.copy = s ∧ s.roundTrip = s) := by
  have hb : ∀ l : List V, l.length = s.items.length → Spec.newest s.maxlen l = l := by
    intro l hl
    cases hm : s.maxlen with
    | none => rfl
    | some m =>
      have := h.wf.bounded m hm
      simp only [Spec.newest]
      rw [show l.length - m = 0 by omega]; rfl
  have hi : s.copy.items = sortedItems s.items s.key := by
    show (new s.items s.key s.keyNone s.maxlen).items = _
    rw [new_items, hb _ (sortedItems_perm s.items s.key).length_eq]
  refine ⟨rfl, ⟨?_, rfl, rfl⟩, ?_⟩
  · rw [hi]; exact sortedItems_perm _ _
  · intro hs
    have h1 : s.copy.items = s.items := by rw [hi, sortedItems_of_strict _ _ hs]
    have h2 : s.copy.keys = s.keys := by
      have : s.copy.keys = s.copy.items.map s.key := (new_wf s.items s.key s.keyNone s.maxlen).aligned
      rw [this, h1, h.wf.aligned]
    have : s.copy = s := by
      show (⟨s.copy.keys, s.copy.items, s.key, s.keyNone, s.maxlen⟩ : SD K V) = s
      rw [h1, h2]
    exact ⟨this, this⟩

/-- C09, resize: assigning `maxlen` keeps the items with the largest keys (exactly the newest ones if no keys tie). -/
theorem C09_resize (h : Reachable s) (m : Option Nat) :
    (s.setMaxlen m).maxlen = m ∧ (s.setMaxlen m).key = s.key ∧
    (∃ l' : List V, l'.Perm s.items ∧ l'.Pairwise (fun v w => s.key v ≤ s.key w) ∧
      (s.setMaxlen m).items = Spec.newest m l') ∧
    (s.items.Pairwise (fun v w => s.key v < s.key w) → (s.setMaxlen m).items = Spec.newest m s.items) := by
  unfold setMaxlen
  by_cases hm : m = s.maxlen
  · subst hm
    simp only [ne_eq, not_true_eq_false, if_false, true_and]
    have : Spec.newest s.maxlen s.items = s.items := by
      cases hm : s.maxlen with
      | none => rfl
      | some k =>
        have := h.wf.bounded k hm
        simp only [Spec.newest]
        rw [show s.items.length - k = 0 by omega]; rfl
    exact ⟨⟨s.items, List.Perm.refl _, h.wf.sorted, this.symm⟩, fun _ => this.symm⟩
  · simp only [ne_eq, hm, not_false_eq_true, if_true, new_items]
    refine ⟨rfl, rfl, ⟨_, sortedItems_perm _ _, sortedItems_sorted _ _, rfl⟩, ?_⟩
    intro hs; rw [sortedItems_of_strict _ _ hs]

/-- C72, re-key (partial): assigning a new key function gives all items, sorted by the new key. Missing: the bound is lost. -/
theorem C72_rekey_partial (s : SD K V) (key : V → K) (kn : Py (Option K)) :
    (s.setKey key kn).items.Perm s.items ∧ (s.setKey key kn).items.Pairwise (fun v w => key v ≤ key w) ∧
    (s.setKey key kn).key = key ∧ (s.setKey key kn).maxlen = none := by
  have : (s.setKey key kn).items = sortedItems s.items key := by
    show (new s.items key kn none).items = _
    rw [new_items]; rfl
  rw [this]
  exact ⟨sortedItems_perm _ _, sortedItems_sorted _ _, rfl, rfl⟩

/-- C09: deleting the key (back to the identity key) keeps the bound, and all items. -/
theorem C09_delkey (h : Reachable s) (ident : V → K) (kn : Py (Option K)) :
    (s.delKey ident kn).items.Perm s.items ∧ (s.delKey ident kn).items.Pairwise (fun v w => ident v ≤ ident w) ∧
    (s.delKey ident kn).key = ident ∧ (s.delKey ident kn).maxlen = s.maxlen := by
  have : (s.delKey ident kn).items = sortedItems s.items ident := by
    show (new s.items ident kn s.maxlen).items = _
    rw [new_items]
    cases hm : s.maxlen with
    | none => rfl
    | some m =>
      have h1 := h.wf.bounded m hm
      have h2 := (sortedItems_perm s.items ident).length_eq
      simp only [Spec.newest]
      rw [show (sortedItems s.items ident).length - m = 0 by omega]; rfl
  rw [this]
  exact ⟨sortedItems_perm _ _, sortedItems_sorted _ _, rfl, rfl⟩

end reach

/-- C72 is false: the bound of a bounded deque is silently dropped (the property object refers to the base
class setter, which re-runs `__init__` without `maxlen`). -/
theorem C72_refuted :
    ¬ ∀ (s : SD Nat Nat), Reachable s → ∀ key kn, (s.setKey key kn).maxlen = s.maxlen := by
  intro h
  have := h (new [1, 2] id (.ok none) (some 2)) (Reachable.new _ _ _ _) (fun n => 10 - n) (.ok none)
  exact absurd this (by decide)

/-- The copy of a deque may reorder items whose keys tie (`sorted` compares the items themselves on ties). -/
theorem C09_copy_reorders_ties :
    ¬ ∀ (s : SD Nat Nat), Reachable s → s.copy.items = s.items := by
  intro h
  have := h (((new [2] (fun _ => 0) (.ok none) none).apply (.insertRight 1)).1) ((Reachable.new _ _ _ _).step _)
  exact absurd this (by decide)

/-! ### C08 -/

/-- C08: after any appends to an empty deque the contents are the last `maxlen` accepted items, in order, for every key
type with a decidable `<` (no order laws needed). -/
theorem C08_newest_accepted [LT K] [DecidableLT K] (key : V → K) (kn : Py (Option K)) (m : Option Nat) (xs : List V) :
    (xs.foldl (fun s v => (s.append v).1) (SD.empty key kn m)).items = Spec.newest m (Spec.accepted key m [] xs) :=
  appends_items key kn m xs [] _ (by cases m <;> simp [SD.empty, Spec.newest])

/-- C08, the common case: strictly increasing keys are all accepted, so the contents are the last `maxlen` appended items. -/
theorem C08_increasing [LinearOrder K] (key : V → K) (kn : Py (Option K)) (m : Option Nat) (xs : List V)
    (h : xs.Pairwise (fun v w => key v < key w)) :
    (xs.foldl (fun s v => (s.append v).1) (SD.empty key kn m)).items = Spec.newest m xs := by
  rw [C08_newest_accepted]
  congr 1
  have aux : ∀ (ys acc : List V), (acc ++ ys).Pairwise (fun v w => key v < key w) →
      Spec.accepted key m acc ys = acc ++ ys := by
    intro ys
    induction ys with
    | nil => intro acc _; simp [Spec.accepted]
    | cons y ys ih =>
      intro acc hp
      have hm : Spec.mayAppend key (Spec.newest m acc) y = true := by
        unfold Spec.mayAppend
        cases hl : (Spec.newest m acc).getLast? with
        | none => rfl
        | some w =>
          have hw : w ∈ acc := by
            have := List.mem_of_getLast? hl
            cases m with
            | none => exact this
            | some m => exact List.mem_of_mem_drop this
          simpa using (List.pairwise_append.1 hp).2.2 w hw y (by simp)
      simp only [Spec.accepted, hm, if_true]
      rw [ih (acc ++ [y]) (by simpa using hp)]
      simp
  simpa using aux xs [] (by simpa using h)

/-! ### C57 -/

/-- Calls a session buffer receives: appends by the source thread, manual drops. -/
inductive BufOp (V : Type) where
  | append (v : V) | drop (n : Int)

/-- Run calls on a deque, recording every accepted item. -/
def runBuf [LT K] [DecidableLT K] : SD K V → List (BufOp V) → List V → SD K V × List V
  | s, [], acc => (s, acc)
  | s, .append v :: ops, acc =>
    runBuf (s.append v).1 ops (match (s.append v).2 with | .ok _ => acc ++ [v] | .error _ => acc)
  | s, .drop n :: ops, acc => runBuf (s.drop n).1 ops acc

/-- Every `append` in the list finds the deque non-empty unless nothing was accepted before. -/
def NeverEmptied [LT K] [DecidableLT K] : SD K V → List (BufOp V) → List V → Prop
  | _, [], _ => True
  | s, .append v :: ops, acc => (acc ≠ [] → s.items ≠ []) ∧
      NeverEmptied (s.append v).1 ops (match (s.append v).2 with | .ok _ => acc ++ [v] | .error _ => acc)
  | s, .drop n :: ops, acc => NeverEmptied (s.drop n).1 ops acc

/-- C57 (partial): all accepted items of a session buffer have strictly increasing keys, provided no append found the
buffer emptied by `drop` (or `maxlen = 0`). Missing: that proviso, see `C57_refuted`. -/
theorem C57_accepted_increasing_partial [LinearOrder K] (key : V → K) (kn : Py (Option K)) (m : Option Nat)
    (ops : List (BufOp V)) (h : NeverEmptied (SD.empty key kn m) ops []) :
    (runBuf (SD.empty key kn m) ops []).2.Pairwise (fun v w => key v < key w) := by
  suffices H : ∀ (s : SD K V) (acc : List V), s.WF → s.key = key → NeverEmptied s ops acc →
      acc.Pairwise (fun v w => key v < key w) → (∀ w, s.items.getLast? = some w → acc.getLast? = some w) →
      (runBuf s ops acc).2.Pairwise (fun v w => key v < key w) from
    H _ [] ⟨rfl, by simp [SD.empty], by simp [SD.empty]⟩ rfl h (by simp) (by simp [SD.empty])
  clear h
  induction ops with
  | nil => intro s acc _ _ _ hp _; exact hp
  | cons op ops ih =>
    intro s acc hw hk hne hp hl
    cases op with
    | append v =>
      obtain ⟨hne1, hne2⟩ := hne
      have hap := append_eq hw.aligned hw.bounded v
      by_cases hc : Spec.mayAppend s.key s.items v = true
      · rw [if_pos hc] at hap
        have h2 : (s.append v).2 = .ok () := by rw [hap]
        simp only [h2] at hne2
        simp only [runBuf, h2]
        refine ih _ _ (hw.append v) ((s.append_key v).1.trans hk) hne2 ?_ ?_
        · rw [List.pairwise_append]
          refine ⟨hp, by simp, ?_⟩
          intro w hw' x hx
          have hx : x = v := by simpa using hx
          subst hx
          have hacc : acc ≠ [] := List.ne_nil_of_mem hw'
          obtain ⟨z, hz⟩ : ∃ z, s.items.getLast? = some z := by
            cases hq : s.items.getLast? with
            | none => exact absurd (by simpa using hq) (hne1 hacc)
            | some z => exact ⟨z, rfl⟩
          have hlt : key z < key x := by
            simp only [Spec.mayAppend, hz, hk] at hc; simpa using hc
          obtain ⟨ys, hys⟩ := List.getLast?_eq_some_iff.1 (hl z hz)
          rw [hys] at hp hw'
          rcases List.mem_append.1 hw' with h1 | h1
          · exact lt_trans ((List.pairwise_append.1 hp).2.2 w h1 z (by simp)) hlt
          · have : w = z := by simpa using h1
            rw [this]; exact hlt
        · rw [hap]
          intro w hw'
          simp only at hw'
          cases hm : s.maxlen with
          | none => rw [hm] at hw'; simpa [Spec.newest] using hw'
          | some k =>
            rw [hm] at hw'
            simp only [Spec.newest, List.getLast?_drop] at hw'
            split at hw'
            · exact absurd hw' (by simp)
            · simpa using hw'
      · rw [if_neg hc] at hap
        have h2 : (s.append v).2 = .error .valueError := by rw [hap]
        have h1 : (s.append v).1 = s := by rw [hap]
        simp only [h2, h1] at hne2
        simp only [runBuf, h2, h1]
        exact ih _ _ hw hk hne2 hp hl
    | drop n =>
      simp only [runBuf]
      refine ih _ _ (hw.drop n) ?_ hne hp ?_
      · rw [drop_eq hw]; exact hk
      · rw [drop_eq hw]
        intro w hw'
        simp only [List.getLast?_drop] at hw'
        split at hw'
        · exact absurd hw' (by simp)
        · exact hl w hw'

/-- C57 is false as stated: after `drop` has emptied the buffer, an item with an old (or equal, or smaller) key is accepted. -/
theorem C57_refuted : ¬ ∀ (ops : List (BufOp Nat)),
    (runBuf (SD.empty id (.ok none) (some 5) : SD Nat Nat) ops []).2.Pairwise (fun v w => v < w) := by
  intro h
  exact absurd (h [.append 7, .drop 1, .append 7, .drop 1, .append 3]) (by decide)

/-! ### the hypotheses are met by non-trivial cases -/

section examples

/-- Test items: a key and a payload. -/
structure It where
  k : Nat
  p : Nat
  deriving DecidableEq, Repr

instance : LT It := ⟨fun a b => a.k < b.k ∨ (a.k = b.k ∧ a.p < b.p)⟩
instance : DecidableLT It := fun a b => inferInstanceAs (Decidable (a.k < b.k ∨ (a.k = b.k ∧ a.p < b.p)))

/-- A bounded deque after a mixed history: construct (with a tie), append, rejected append, drop, insert with a tie,
append. -/
def exDeque : SD Nat It :=
  ([Op.append ⟨5, 0⟩, .append ⟨3, 9⟩, .drop 1, .insert ⟨4, 7⟩, .append ⟨9, 1⟩] : List (Op Nat It)).foldl
    (fun s op => (s.apply op).1) (new [⟨4, 1⟩, ⟨1, 0⟩, ⟨4, 0⟩] It.k (.error .typeError) (some 4))

theorem exDeque_reachable : Reachable exDeque :=
  ((((((Reachable.new _ _ _ _).step _).step _).step _).step _).step _)

example : exDeque.items = [⟨4, 0⟩, ⟨4, 1⟩, ⟨5, 0⟩, ⟨9, 1⟩] ∧ exDeque.maxlen = some 4 := by decide

/-- C01–C07, C09, C10 apply to it. -/
example : exDeque.items.Pairwise (fun v w => exDeque.key v ≤ exDeque.key w) :=
  (C01_sorted_aligned_bounded exDeque_reachable).1
example : (exDeque.append ⟨10, 0⟩).2 = .ok () ∧ (exDeque.append ⟨9, 0⟩).2 = .error .valueError := by decide
example : exDeque.findGt (some 4) = .ok ⟨5, 0⟩ ∧ exDeque.findLe (some 8) = .ok ⟨5, 0⟩ ∧
    exDeque.findLt (some 4) = .error .valueError := by decide
example : exDeque.range (some 4) (some 5) (some 2) = .ok [⟨4, 0⟩, ⟨5, 0⟩] := by decide
/-- The hypothesis of C05 / C06_remove (equal items have equal keys) holds for structural equality. -/
example : exDeque.index ⟨4, 1⟩ = .ok 1 :=
  (C05_membership_scans exDeque_reachable (fun v w h => by rw [eq_of_beq h]) ⟨4, 1⟩).2.1
example : (exDeque.insert ⟨6, 0⟩).2 = .error .indexError ∧
    ((exDeque.drop 2).1.insertRight ⟨5, 9⟩).1.items = [⟨5, 0⟩, ⟨5, 9⟩, ⟨9, 1⟩] := by decide
example : (exDeque.drop 7).2 = .error .indexError ∧ (exDeque.drop 7).1.items = [] := by decide
example : exDeque.findLastGt (some 8) = .ok ⟨9, 1⟩ ∧ exDeque.findLastGt (some 9) = .error .valueError := by decide

/-- A key comparison that is transitive but not total: `none` (think NaN) is unordered. -/
structure NanKey where
  val : Option Nat
instance : LT NanKey := ⟨fun a b => match a.val, b.val with | some x, some y => x < y | _, _ => False⟩
instance : DecidableLT NanKey := fun a b => by
  show Decidable (match a.val, b.val with | some x, some y => x < y | _, _ => False)
  split <;> infer_instance

/-- The hypothesis of `C02_append_only_strict` is met by it. -/
example : ∀ a b c : NanKey, a < b → b < c → a < c := by
  rintro ⟨a⟩ ⟨b⟩ ⟨c⟩ h1 h2
  cases a with
  | none => exact h1.elim
  | some a => cases b with
    | none => exact h1.elim
    | some b => cases c with
      | none => exact h2.elim
      | some c => exact Nat.lt_trans (show a < b from h1) (show b < c from h2)

/-- C08 on a history with rejected and evicted items. -/
example : ([3, 5, 4, 6, 6, 8].foldl (fun s v => (s.append v).1) (SD.empty id (.ok none) (some 2) : SD Nat Nat)).items
    = [6, 8] := by decide
example : [1, 2, 5].Pairwise (fun v w : Nat => id v < id w) := by decide

/-- The proviso of C57 is met by a history with drops, evictions and a rejected item. -/
example : NeverEmptied (SD.empty id (.ok none) (some 2) : SD Nat Nat)
    [.append 1, .append 2, .append 3, .drop 1, .append 2, .append 9] [] ∧
    (runBuf (SD.empty id (.ok none) (some 2) : SD Nat Nat)
      [.append 1, .append 2, .append 3, .drop 1, .append 2, .append 9] []).2 = [1, 2, 3, 9] := by
  refine ⟨?_, by decide⟩
  simp only [NeverEmptied]
  decide

end examples
end S2P
