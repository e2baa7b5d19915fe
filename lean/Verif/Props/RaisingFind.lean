import Verif.Props.RaisingOk
/-
C105, what the searches raise: with key functions and comparisons that may raise or contradict each other (Model/Raising.lean).
-/
namespace S2P
namespace XD
variable {K V : Type} {e : PyEnv K V} {s : XD K V}

theorem bisect_raises {g : K → Py Bool} {a : List K} : ∀ (fuel lo hi : Nat) {x : PyErr}, bisectLoop g a fuel lo hi = .error x → hi ≤ a.length →
    ∃ y ∈ a, g y = .error x := by
  intro fuel
  induction fuel with
  | zero => intro lo hi x h _; simp [bisectLoop] at h
  | succ fuel ih =>
    intro lo hi x h h2
    unfold bisectLoop at h
    by_cases hlt : lo < hi
    · simp only [hlt, if_true] at h
      split at h
      · rename_i hn; rw [List.getElem?_eq_none_iff] at hn; omega
      · rename_i m hm
        split at h
        · rename_i hg; cases h; exact ⟨m, List.mem_of_getElem? hm, hg⟩
        · exact ih _ _ h h2
        · exact ih _ _ h (by omega)
    · simp [hlt] at h

theorem key_item (h : s.Ok) {y : K} (hy : y ∈ s.keys) : ∃ v ∈ s.items, s.key v = .ok y := by
  obtain ⟨i, hi⟩ := List.getElem?_of_mem hy
  obtain ⟨v, hv, hk⟩ := at_key h hi
  exact ⟨v, List.mem_of_getElem? hv, hk⟩

theorem dqGet_lt {l : List V} {i : Nat} (h : i < l.length) : ∃ v, dqGet l i = .ok v ∧ l[i]? = some v :=
  ⟨l[i], by simp [dqGet, h], by simp [h]⟩

/-- The comparison of `k` with the key of an item raised `x`. -/
def Compared (s : XD K V) (cmp : K → Py Bool) (x : PyErr) : Prop := ∃ v ∈ s.items, ∃ y, s.key v = .ok y ∧ cmp y = .error x

/-- The item `w` has a key of which `cmp` says `b`. -/
def Says (s : XD K V) (cmp : K → Py Bool) (b : Bool) (w : V) : Prop := ∃ y, s.key w = .ok y ∧ cmp y = .ok b

/-- **C105** and when a search raises, either that is what a comparison with one of the keys raised, or it is `ValueError` and the comparisons said that there
is nothing to be found: for `find_gt` and `find_ge` the last item compared too small, for `find_lt` and `find_le` the first one too large, for `find` the
items on both sides of the place of `k` (or of its end) compared smaller, and not smaller and not equal; `find_last_gt` looks at the last item only. -/
theorem C105_search_fails (hs : e.Sorts) (h : Reachable e s) (k : K) (x : PyErr) :
    (s.findGt e k = .error x → Compared s (fun y => e.ltK k y) x ∨
      (x = .valueError ∧ ∀ w, s.items.getLast? = some w → Says s (fun y => e.ltK k y) false w)) ∧
    (s.findGe e k = .error x → Compared s (fun y => e.ltK y k) x ∨
      (x = .valueError ∧ ∀ w, s.items.getLast? = some w → Says s (fun y => e.ltK y k) true w)) ∧
    (s.findLt e k = .error x → Compared s (fun y => e.ltK y k) x ∨
      (x = .valueError ∧ ∀ w, s.items.head? = some w → Says s (fun y => e.ltK y k) false w)) ∧
    (s.findLe e k = .error x → Compared s (fun y => e.ltK k y) x ∨
      (x = .valueError ∧ ∀ w, s.items.head? = some w → Says s (fun y => e.ltK k y) true w)) ∧
    (s.find e k = .error x → Compared s (fun y => e.ltK y k) x ∨ Compared s (fun y => e.eqK y k) x ∨
      (x = .valueError ∧ ∃ l r, s.items = l ++ r ∧ (∀ w, l.getLast? = some w → Says s (fun y => e.ltK y k) true w) ∧
        ∀ w, r.head? = some w → Says s (fun y => e.ltK y k) false w ∧ Says s (fun y => e.eqK y k) false w)) ∧
    (s.findLastGt e k = .error x → Compared s (fun y => e.ltK k y) x ∨
      (x = .valueError ∧ ∀ w, s.items.getLast? = some w → Says s (fun y => e.ltK k y) false w)) := by
  have ho := reach_ok hs h
  have hl := ho.len
  have raisedL : s.bisectL e k = .error x → Compared s (fun y => e.ltK y k) x := by
    intro hb
    obtain ⟨y, hy, hg⟩ := bisect_raises _ _ _ hb (Nat.le_refl _)
    obtain ⟨v, hv, hk⟩ := key_item ho hy
    exact ⟨v, hv, y, hk, hg⟩
  have raisedR : s.bisectR e k = .error x → Compared s (fun y => e.ltK k y) x := by
    intro hb
    obtain ⟨y, hy, hg⟩ := bisect_raises _ _ _ hb (Nat.le_refl _)
    obtain ⟨v, hv, hk⟩ := key_item ho hy
    refine ⟨v, hv, y, hk, ?_⟩
    cases hc : e.ltK k y <;> rw [hc] at hg <;> simp [Except.map] at hg
    simpa [hg] using hc
  have atItem : ∀ {i : Nat} {y : K} {w : V}, s.keys[i]? = some y → s.items[i]? = some w → s.key w = .ok y := by
    intro i y w hy hw
    obtain ⟨v, hv, hk⟩ := at_key ho hy
    rw [hw] at hv; cases hv; exact hk
  have lastAt : ∀ {w : V}, s.items.getLast? = some w → s.items ≠ [] ∧ s.items[s.items.length - 1]? = some w := by
    intro w hw
    refine ⟨by rintro e; rw [e] at hw; simp at hw, by rw [← List.getLast?_eq_getElem?]; exact hw⟩
  have ne_pos : s.items ≠ [] → 0 < s.items.length := List.length_pos_iff.2
  refine ⟨?_, ?_, ?_, ?_, ?_, ?_⟩
  · intro hf
    simp only [findGt, bind, Except.bind] at hf
    split at hf
    · rename_i hb; cases hf; exact .inl (raisedR hb)
    · rename_i i hi
      obtain ⟨h1, h2, -⟩ := bisectR_ends hi
      split at hf
      · obtain ⟨v, hv, -⟩ := dqGet_lt (l := s.items) (i := i) (by omega)
        rw [hv] at hf; cases hf
      · rename_i hn; cases hf
        refine .inr ⟨rfl, fun w hw => ?_⟩
        obtain ⟨a, b⟩ := lastAt hw
        have := ne_pos a
        obtain ⟨y, hy, hg⟩ := h2 (s.items.length - 1) (by omega)
        exact ⟨y, atItem hy b, hg⟩
  · intro hf
    simp only [findGe, bind, Except.bind] at hf
    split at hf
    · rename_i hb; cases hf; exact .inl (raisedL hb)
    · rename_i i hi
      obtain ⟨h1, h2, -⟩ := bisectL_ends hi
      split at hf
      · obtain ⟨v, hv, -⟩ := dqGet_lt (l := s.items) (i := i) (by omega)
        rw [hv] at hf; cases hf
      · rename_i hn; cases hf
        refine .inr ⟨rfl, fun w hw => ?_⟩
        obtain ⟨a, b⟩ := lastAt hw
        have := ne_pos a
        obtain ⟨y, hy, hg⟩ := h2 (s.items.length - 1) (by omega)
        exact ⟨y, atItem hy b, hg⟩
  · intro hf
    simp only [findLt, bind, Except.bind] at hf
    split at hf
    · rename_i hb; cases hf; exact .inl (raisedL hb)
    · rename_i i hi
      obtain ⟨h1, -, h2⟩ := bisectL_ends hi
      split at hf
      · obtain ⟨v, hv, -⟩ := dqGet_lt (l := s.items) (i := i - 1) (by omega)
        rw [hv] at hf; cases hf
      · rename_i hn; cases hf
        refine .inr ⟨rfl, fun w hw => ?_⟩
        rw [List.head?_eq_getElem?] at hw
        have hlt : 0 < s.items.length := (List.getElem?_eq_some_iff.1 hw).1
        have hi0 : i = 0 := by omega
        subst hi0
        obtain ⟨y, hy, hg⟩ := h2 (by omega)
        exact ⟨y, atItem hy hw, hg⟩
  · intro hf
    simp only [findLe, bind, Except.bind] at hf
    split at hf
    · rename_i hb; cases hf; exact .inl (raisedR hb)
    · rename_i i hi
      obtain ⟨h1, -, h2⟩ := bisectR_ends hi
      split at hf
      · obtain ⟨v, hv, -⟩ := dqGet_lt (l := s.items) (i := i - 1) (by omega)
        rw [hv] at hf; cases hf
      · rename_i hn; cases hf
        refine .inr ⟨rfl, fun w hw => ?_⟩
        rw [List.head?_eq_getElem?] at hw
        have hlt : 0 < s.items.length := (List.getElem?_eq_some_iff.1 hw).1
        have hi0 : i = 0 := by omega
        subst hi0
        obtain ⟨y, hy, hg⟩ := h2 (by omega)
        exact ⟨y, atItem hy hw, hg⟩
  · intro hf
    simp only [find, bind, Except.bind] at hf
    split at hf
    · rename_i hb; cases hf; exact .inl (raisedL hb)
    · rename_i i hi
      obtain ⟨h1, h2, h3⟩ := bisectL_ends hi
      have left : ∀ w, (s.items.take i).getLast? = some w → Says s (fun y => e.ltK y k) true w := by
        intro w hw
        rw [List.getLast?_eq_getElem?, List.length_take, List.getElem?_take] at hw
        split at hw
        · obtain ⟨y, hy, hg⟩ := h2 (i - 1) (by omega)
          rw [Nat.min_eq_left (by omega)] at hw
          exact ⟨y, atItem hy hw, hg⟩
        · cases hw
      have place := (List.take_append_drop i s.items).symm
      split at hf
      · rename_i hn
        obtain ⟨y, hy, hg⟩ := h3 (by omega)
        split at hf
        · rename_i hk; simp only [dqGet, hy] at hk; cases hk
        · rename_i ki hk
          simp only [dqGet, hy, Except.ok.injEq] at hk; subst hk
          obtain ⟨v, hv, hvi⟩ := dqGet_lt (l := s.items) (i := i) (by omega)
          have hkv := atItem hy hvi
          split at hf
          · rename_i hb; cases hf
            exact .inr (.inl ⟨v, List.mem_of_getElem? hvi, y, hkv, hb⟩)
          · rename_i b hb
            split at hf
            · rw [hv] at hf; cases hf
            · rename_i hbf; cases hf
              simp at hbf; subst hbf
              refine .inr (.inr ⟨rfl, _, _, place, left, fun w hw => ?_⟩)
              rw [List.head?_drop, hvi] at hw
              cases hw
              exact ⟨⟨y, hkv, hg⟩, ⟨y, hkv, hb⟩⟩
      · rename_i hn; cases hf
        have hi0 : i = s.items.length := by omega
        refine .inr (.inr ⟨rfl, _, _, place, left, fun w hw => ?_⟩)
        rw [hi0] at hw; simp at hw
  · intro hf
    unfold findLastGt at hf
    split at hf
    · rename_i hn; cases hf
      refine .inr ⟨rfl, fun w hw => ?_⟩
      have : s.keys = [] := by simpa using hn
      have a := ne_pos (lastAt hw).1
      rw [← hl, this] at a; simp at a
    · rename_i l hlast
      have hlast' : s.keys[s.keys.length - 1]? = some l := by rw [← List.getLast?_eq_getElem?]; exact hlast
      obtain ⟨w, hw, hk⟩ := at_key ho hlast'
      have hwl : s.items.getLast? = some w := by rw [List.getLast?_eq_getElem?, ← hl]; exact hw
      simp only [bind, Except.bind] at hf
      split at hf
      · rename_i hb; cases hf
        exact .inl ⟨w, List.mem_of_getLast? hwl, l, hk, hb⟩
      · rename_i b hb
        split at hf
        · rw [dqLast_eq, hwl] at hf; cases hf
        · rename_i hbf; cases hf
          simp at hbf; subst hbf
          refine .inr ⟨rfl, fun w' hw' => ?_⟩
          rw [hwl] at hw'; cases hw'
          exact ⟨l, hk, hb⟩

end XD

namespace XDW
open XD

/-- Meets C105's search clauses: nothing found, and a key that cannot be compared. -/
theorem C105_meets_fails : Reachable env d0 ∧ env.Sorts ∧ d0.findGt env (some 3) = .error .valueError ∧ d0.findGe env (some 4) = .error .valueError ∧
    d0.findLt env (some 1) = .error .valueError ∧ d0.findLe env (some 0) = .error .valueError ∧ d0.find env (some 2) = .error .valueError ∧
    d0.findLastGt env (some 3) = .error .valueError ∧ d0.findGt env none = .error .typeError ∧ d0.findLt env none = .error .typeError :=
  ⟨reach0, sorts, rfl, rfl, rfl, rfl, rfl, rfl, rfl, rfl⟩

end XDW
end S2P
