import Verif.Model.Raising
import Verif.Proofs.Py
import Verif.Spec.Sorted
import Mathlib.Data.List.Perm.Basic
import Mathlib.Data.List.Chain
import Mathlib.Order.Nat
/-
C104-C106: sorted deques with key functions and comparisons that raise (Model/Raising.lean). `XD.Reachable e` = obtained from the constructor by any
calls, also ones that raised; `e` says what comparisons, the identity key and `sorted` do.
-/
namespace S2P
namespace XD
variable {K V : Type} {e : PyEnv K V} {s : XD K V}

/-- Keys and items are in step, and the containers respect their bound. -/
structure Ok (s : XD K V) : Prop where
  aligned : s.items.map s.key = s.keys.map Except.ok
  bounded : ∀ m, s.cap = some m → s.items.length ≤ m

theorem Ok.len (h : s.Ok) : s.keys.length = s.items.length := by
  have := congrArg List.length h.aligned; simpa using this.symm

theorem dqOf_map {α β : Type} (f : α → β) (m : Option Nat) (l : List α) : (dqOf m l).map f = dqOf m (l.map f) := by
  rw [dqOf_eq, dqOf_eq]; cases m <;> simp [List.map_drop]

theorem dqOf_length {α : Type} (m : Nat) (l : List α) : (dqOf (some m) l).length ≤ m := by rw [dqOf_eq]; simp; omega

theorem mapM_ok {key : V → Py K} : ∀ {l : List V} {d : List (K × V)}, (l.mapM fun v => do let k ← key v; pure (k, v)) = (.ok d : Py _) →
    d.map (·.2) = l ∧ ∀ p ∈ d, key p.2 = .ok p.1 := by
  intro l
  induction l with
  | nil => intro d h; simp [List.mapM_nil, pure, Except.pure] at h; subst h; simp
  | cons v l ih =>
    intro d h
    rw [List.mapM_cons] at h
    cases hk : key v with
    | error x => rw [hk] at h; simp [bind, Except.bind] at h
    | ok k =>
      rw [hk] at h
      cases hl : (l.mapM fun v => do let k ← key v; pure (k, v) : Py (List (K × V))) with
      | error x => simp only [bind, Except.bind, pure, Except.pure] at h hl; rw [hl] at h; simp at h
      | ok d' =>
        have := ih hl
        simp only [bind, Except.bind, pure, Except.pure] at h hl; rw [hl] at h; simp at h; subst h
        simp [this.1, hk]; intro a b hab; exact this.2 _ hab

theorem decorated_ok (hs : e.Sorts) {key : V → Py K} {l : List V} {d : List (K × V)} (h : decorated e key l = .ok d) :
    (d.map (·.2)).Perm l ∧ d.map (fun p => key p.2) = d.map (fun p => .ok p.1) ∧
      d.IsChain fun x y => e.tupleLt y x = .ok false ∨ e.tupleLt x y = .ok true := by
  unfold decorated at h
  cases hm : (l.mapM fun v => do let k ← key v; pure (k, v) : Py (List (K × V))) with
  | error x => rw [hm] at h; simp [bind, Except.bind] at h
  | ok d' =>
    rw [hm] at h
    have h : e.sort d' = .ok d := h
    obtain ⟨h1, h2⟩ := mapM_ok hm
    have hp := hs.perm _ _ h
    refine ⟨h1 ▸ hp.map _, List.map_congr_left fun p hpd => h2 p (hp.subset hpd), hs.neighbours _ _ h⟩

theorem ok_init (hs : e.Sorts) (h : s.Ok) (l : List V) (g : Option (V → Py K)) (m : Py (Option Nat)) : (s.init e l g m).1.Ok := by
  unfold init
  cases hd : decorated e (g.getD e.ident) l with
  | error x => exact ⟨h.1, h.2⟩
  | ok d =>
    obtain ⟨-, ha, -⟩ := decorated_ok hs hd
    cases m with
    | error x => refine ⟨?_, ?_⟩ <;> simp [Function.comp_def, ha]
    | ok m =>
      refine ⟨?_, ?_⟩
      · simp [dqOf_map, Function.comp_def, ha]
      · rintro k hk; simp only at hk; subst hk; exact dqOf_length _ _

theorem ok_append (h : s.Ok) {v : V} {k : K} (hk : s.key v = .ok k) :
    ({ s with keys := dqAppend s.cap s.keys k, items := dqAppend s.cap s.items v } : XD K V).Ok := by
  refine ⟨?_, ?_⟩
  · simp only [dqAppend_map, h.aligned, hk]
  · intro m hm; exact dqAppend_length _ _ _ h.bounded m hm

theorem insertAt_cases (h : s.Ok) (i : Nat) (k : K) (v : V) :
    (∃ x, s.insertAt i k v = (s, .error x)) ∨
    (s.cap ≠ some s.items.length ∧ s.insertAt i k v = ({ s with keys := s.keys.take i ++ k :: s.keys.drop i, items := s.items.take i ++ v :: s.items.drop i }, .ok ())) := by
  unfold insertAt dqInsert
  rw [h.len]
  by_cases hc : s.cap = some s.items.length
  · exact .inl ⟨.indexError, by simp [hc]⟩
  · exact .inr ⟨hc, by simp [hc]⟩

theorem ok_insertAt (h : s.Ok) (i : Nat) {k : K} {v : V} (hk : s.key v = .ok k) : (s.insertAt i k v).1.Ok := by
  rcases insertAt_cases h i k v with ⟨x, hx⟩ | ⟨hc, hx⟩
  · rw [hx]; exact h
  · rw [hx]
    refine ⟨?_, ?_⟩
    · simp [List.map_take, List.map_drop, h.aligned, hk]
    · intro m hm
      have := h.bounded m hm
      have hn : m ≠ s.items.length := fun h => hc (h ▸ hm)
      simp; omega

theorem del_cases (h : s.Ok) (i : Nat) :
    (s.items.length ≤ i ∧ dqDel s.keys i = .error .indexError) ∨
    (i < s.items.length ∧ dqDel s.keys i = .ok (s.keys.eraseIdx i) ∧ dqDel s.items i = .ok (s.items.eraseIdx i) ∧
      ({ s with keys := s.keys.eraseIdx i, items := s.items.eraseIdx i } : XD K V).Ok) := by
  have hl := h.len
  by_cases hi : i < s.items.length
  · refine .inr ⟨hi, by simp [dqDel, hl, hi], by simp [dqDel, hi], ?_, ?_⟩
    · simp [← List.eraseIdx_map, h.aligned]
    · intro m hm; have := h.bounded m hm; simp [List.length_eraseIdx]; split <;> omega
  · exact .inl ⟨by omega, by simp [dqDel, hl, hi]⟩

theorem search_lt {v : V} : ∀ {l : List V} {i j : Nat}, search e v i l = .ok j → i ≤ j ∧ j < i + l.length := by
  intro l
  induction l with
  | nil => intro i j h; simp [search] at h
  | cons w l ih =>
    intro i j h
    simp only [search, bind, Except.bind] at h
    split at h
    · cases h
    · split at h
      · cases h; simp
      · have := ih h; simp; omega

theorem index_lt {v : V} {i : Nat} (h : s.index e v = .ok i) : i < s.items.length := by
  simp only [index, bind, Except.bind] at h
  split at h
  · cases h
  · split at h
    · cases h
    · split at h
      · cases h
      · have := search_lt h; simp at this; omega

theorem ok_drop : ∀ (n : Nat) {s : XD K V}, s.Ok → (dropLoop n s).1.Ok ∧ ((dropLoop n s).2 = .ok () → (dropLoop n s).1.items = s.items.drop n ∧ n ≤ s.items.length) ∧
    ((dropLoop n s).2 ≠ .ok () → (dropLoop n s).1.items = [] ∧ s.items.length < n) := by
  intro n
  induction n with
  | zero => intro s h; simp [dropLoop, h]
  | succ n ih =>
    intro s h
    unfold dropLoop
    rcases del_cases h 0 with ⟨hl, hd⟩ | ⟨hl, hd, hd', ho⟩
    · simp only [hd]
      have : s.items = [] := List.length_eq_zero_iff.1 (by omega)
      simp [h, this]
    · simp only [hd, hd']
      obtain ⟨h1, h2, h3⟩ := ih ho
      refine ⟨h1, fun h => ?_, fun h => ?_⟩
      · obtain ⟨a, b⟩ := h2 h
        rw [a]
        simp at b
        exact ⟨by simp, by omega⟩
      · obtain ⟨a, b⟩ := h3 h
        simp at b
        exact ⟨a, by omega⟩

theorem ok_apply (hs : e.Sorts) (h : s.Ok) (op : Op K V) : (s.apply e op).1.Ok := by
  cases op with
  | append v =>
    simp only [apply, append]
    split
    · exact h
    · rename_i k hk
      split
      · exact ok_append h hk
      · split
        · exact h
        · exact h
        · exact ok_append h hk
  | insert v =>
    simp only [apply, insert]
    split
    · exact h
    · rename_i k hk
      split
      · exact h
      · exact ok_insertAt h _ hk
  | insertRight v =>
    simp only [apply, insertRight]
    split
    · exact h
    · rename_i k hk
      split
      · exact h
      · exact ok_insertAt h _ hk
  | remove v =>
    simp only [apply, remove]
    split
    · exact h
    · rename_i i hi
      rcases del_cases h i with ⟨hl, hd⟩ | ⟨hl, hd, hd', ho⟩
      · simp only [hd]; exact h
      · simp only [hd, hd']; exact ho
  | drop n => exact (ok_drop _ h).1
  | clear => exact ok_init hs h _ _ _
  | setMaxlen m => exact ok_init hs h _ _ _
  | delMaxlen => simp only [apply]; split; exacts [h, ok_init hs h _ _ _]
  | setKey f => exact ok_init hs h _ _ _
  | delKey => exact ok_init hs h _ _ _

theorem ok_new (hs : e.Sorts) {l : List V} {g : Option (V → Py K)} {m : Py (Option Nat)} (h : new e l g m = .ok s) : s.Ok := by
  unfold new at h
  split at h
  · rename_i x _ hx
    cases h
    have := ok_init (s := ({ keys := [], items := [], key := e.ident, given := none, maxlen := none, cap := none } : XD K V)) hs ⟨by simp, by simp⟩ l g m
    rwa [hx] at this
  · cases h

theorem reach_ok (hs : e.Sorts) (h : Reachable e s) : s.Ok := by
  induction h with
  | new h => exact ok_new hs h
  | step op _ ih => exact ok_apply hs ih op

/-! ### C105 -/

/-- **C105** Whatever the key functions, the comparisons and the calls made so far raised: there is one key for each item, and it is what the current
key function gives for this item. -/
theorem C105_in_step (hs : e.Sorts) (h : Reachable e s) : s.items.map s.key = s.keys.map Except.ok := (reach_ok hs h).aligned

/-- Where a bisection ends it has looked at both neighbours, whatever the comparisons answer. -/
theorem bisect_ends {g : K → Py Bool} {a : List K} : ∀ (fuel lo hi : Nat) {i : Nat}, bisectLoop g a fuel lo hi = .ok i → hi - lo ≤ fuel → lo ≤ hi → hi ≤ a.length →
    (∀ j, lo = j + 1 → ∃ x, a[j]? = some x ∧ g x = .ok true) → (hi < a.length → ∃ x, a[hi]? = some x ∧ g x = .ok false) →
    i ≤ a.length ∧ (∀ j, i = j + 1 → ∃ x, a[j]? = some x ∧ g x = .ok true) ∧ (i < a.length → ∃ x, a[i]? = some x ∧ g x = .ok false) := by
  intro fuel
  induction fuel with
  | zero =>
    intro lo hi i h h1 h2 h3 h4 h5
    simp [bisectLoop] at h; subst h
    have : lo = hi := by omega
    subst this
    exact ⟨h3, h4, h5⟩
  | succ fuel ih =>
    intro lo hi i h h1 h2 h3 h4 h5
    unfold bisectLoop at h
    by_cases hlt : lo < hi
    · simp only [hlt, if_true] at h
      split at h
      · cases h
      · rename_i m hm
        split at h
        · cases h
        · rename_i hg
          refine ih _ _ h (by omega) (by omega) h3 ?_ h5
          intro j hj
          have : j = (lo + hi) / 2 := by omega
          subst this; exact ⟨m, hm, hg⟩
        · rename_i hg
          refine ih _ _ h (by omega) (by omega) (by omega) h4 ?_
          intro _; exact ⟨m, hm, hg⟩
    · simp only [hlt, if_false, Except.ok.injEq] at h; subst h
      have : lo = hi := by omega
      subst this
      exact ⟨h3, h4, h5⟩

theorem bisectL_ends {k : K} {i : Nat} (h : s.bisectL e k = .ok i) :
    i ≤ s.keys.length ∧ (∀ j, i = j + 1 → ∃ x, s.keys[j]? = some x ∧ e.ltK x k = .ok true) ∧ (i < s.keys.length → ∃ x, s.keys[i]? = some x ∧ e.ltK x k = .ok false) := by
  refine bisect_ends _ _ _ h (by omega) (by omega) (by omega) (by omega) (by omega)

theorem bisectR_ends {k : K} {i : Nat} (h : s.bisectR e k = .ok i) :
    i ≤ s.keys.length ∧ (∀ j, i = j + 1 → ∃ x, s.keys[j]? = some x ∧ e.ltK k x = .ok false) ∧ (i < s.keys.length → ∃ x, s.keys[i]? = some x ∧ e.ltK k x = .ok true) := by
  have h' := bisect_ends _ _ _ h (by omega) (by omega) (by omega) (by omega) (by omega)
  have neg : ∀ x b, (e.ltK k x).map (! ·) = .ok b → e.ltK k x = .ok (!b) := by
    intro x b; cases e.ltK k x <;> simp [Except.map]
  refine ⟨h'.1, fun j hj => ?_, fun hi => ?_⟩
  · obtain ⟨x, hx, hg⟩ := h'.2.1 j hj; exact ⟨x, hx, neg _ _ hg⟩
  · obtain ⟨x, hx, hg⟩ := h'.2.2 hi; exact ⟨x, hx, neg _ _ hg⟩

theorem at_key (h : s.Ok) {i : Nat} {x : K} (hx : s.keys[i]? = some x) : ∃ v, s.items[i]? = some v ∧ s.key v = .ok x := by
  have := congrArg (·[i]?) h.aligned
  simp only [List.getElem?_map, hx, Option.map_some] at this
  cases hv : s.items[i]? with
  | none => rw [hv] at this; cases this
  | some v => rw [hv] at this; simp at this; exact ⟨v, rfl, this⟩

/-- **C105** and so what a search returns is an item of the deque, and its key compared as asked: whatever comparisons raise or how they contradict each
other. -/
theorem C105_search_sound (hs : e.Sorts) (h : Reachable e s) (k : K) (v : V) :
    (s.find e k = .ok v → v ∈ s.items ∧ ∃ x, s.key v = .ok x ∧ e.eqK x k = .ok true) ∧
    (s.findGt e k = .ok v → v ∈ s.items ∧ ∃ x, s.key v = .ok x ∧ e.ltK k x = .ok true) ∧
    (s.findGe e k = .ok v → v ∈ s.items ∧ ∃ x, s.key v = .ok x ∧ e.ltK x k = .ok false) ∧
    (s.findLt e k = .ok v → v ∈ s.items ∧ ∃ x, s.key v = .ok x ∧ e.ltK x k = .ok true) ∧
    (s.findLe e k = .ok v → v ∈ s.items ∧ ∃ x, s.key v = .ok x ∧ e.ltK k x = .ok false) ∧
    (s.findLastGt e k = .ok v → s.items.getLast? = some v ∧ ∃ x, s.key v = .ok x ∧ e.ltK k x = .ok true) := by
  have ho := reach_ok hs h
  have hl := ho.len
  have got : ∀ {i : Nat} {x : K} {w : V}, s.keys[i]? = some x → dqGet s.items i = .ok w → w ∈ s.items ∧ s.key w = .ok x := by
    intro i x w hx hw
    obtain ⟨v, hv, hk⟩ := at_key ho hx
    simp only [dqGet, hv, Except.ok.injEq] at hw; subst hw
    exact ⟨List.mem_of_getElem? hv, hk⟩
  refine ⟨?_, ?_, ?_, ?_, ?_, ?_⟩
  · intro hf
    simp only [find, bind, Except.bind] at hf
    split at hf
    · cases hf
    · rename_i i _
      split at hf
      · split at hf
        · cases hf
        · rename_i ki hki
          split at hf
          · cases hf
          · rename_i b hb
            split at hf
            · rename_i hbt; cases hbt
              have hki' : s.keys[i]? = some ki := by
                unfold dqGet at hki; split at hki <;> simp_all
              obtain ⟨h1, h2⟩ := got hki' hf
              exact ⟨h1, ki, h2, hb⟩
            · cases hf
      · cases hf
  · intro hf
    simp only [findGt, bind, Except.bind] at hf
    split at hf
    · cases hf
    · rename_i i hi
      split at hf
      · obtain ⟨h1, -, h2⟩ := bisectR_ends hi
        obtain ⟨x, hx, hg⟩ := h2 (by omega)
        obtain ⟨h3, h4⟩ := got hx hf
        exact ⟨h3, x, h4, hg⟩
      · cases hf
  · intro hf
    simp only [findGe, bind, Except.bind] at hf
    split at hf
    · cases hf
    · rename_i i hi
      split at hf
      · obtain ⟨h1, -, h2⟩ := bisectL_ends hi
        obtain ⟨x, hx, hg⟩ := h2 (by omega)
        obtain ⟨h3, h4⟩ := got hx hf
        exact ⟨h3, x, h4, hg⟩
      · cases hf
  · intro hf
    simp only [findLt, bind, Except.bind] at hf
    split at hf
    · cases hf
    · rename_i i hi
      split at hf
      · rename_i hi0
        obtain ⟨-, h2, -⟩ := bisectL_ends hi
        obtain ⟨x, hx, hg⟩ := h2 (i - 1) (by omega)
        obtain ⟨h3, h4⟩ := got hx hf
        exact ⟨h3, x, h4, hg⟩
      · cases hf
  · intro hf
    simp only [findLe, bind, Except.bind] at hf
    split at hf
    · cases hf
    · rename_i i hi
      split at hf
      · rename_i hi0
        obtain ⟨-, h2, -⟩ := bisectR_ends hi
        obtain ⟨x, hx, hg⟩ := h2 (i - 1) (by omega)
        obtain ⟨h3, h4⟩ := got hx hf
        exact ⟨h3, x, h4, hg⟩
      · cases hf
  · intro hf
    unfold findLastGt at hf
    split at hf
    · cases hf
    · rename_i l hlast
      simp only [bind, Except.bind] at hf
      split at hf
      · cases hf
      · rename_i b hb
        split at hf
        · rename_i hbt; cases hbt
          rw [dqLast_eq] at hf
          have hlast' : s.keys[s.keys.length - 1]? = some l := by rw [← List.getLast?_eq_getElem?]; exact hlast
          obtain ⟨w, hw, hk⟩ := at_key ho hlast'
          have hwl : s.items.getLast? = some w := by rw [List.getLast?_eq_getElem?, ← hl]; exact hw
          rw [hwl] at hf; cases hf
          exact ⟨hwl, l, hk, hb⟩
        · cases hf

/-- **C105** An append is accepted only if the deque is empty or the new key compared greater than the last one; then the item is the last one (unless the
bound is 0) and nothing but the bound takes items away. -/
theorem C105_append (hs : e.Sorts) (h : Reachable e s) (v : V) (ha : (s.append e v).2 = .ok ()) :
    (∃ k, s.key v = .ok k ∧ (s.items = [] ∨ ∃ w l, s.items.getLast? = some w ∧ s.key w = .ok l ∧ e.ltK l k = .ok true)) ∧
    (s.append e v).1.items = Spec.newest s.cap (s.items ++ [v]) := by
  have ho := reach_ok hs h
  have hb : dqAppend s.cap s.items v = Spec.newest s.cap (s.items ++ [v]) := by
    have := ho.bounded
    revert this; generalize s.cap = c; intro this
    rw [dqAppend_newest _ _ _ this]; unfold Spec.newest; cases c <;> rfl
  unfold append at ha ⊢
  split at ha
  · cases ha
  · rename_i k hk
    split at ha
    · rename_i hlast
      have : s.items = [] := by
        have h0 : s.keys = [] := by simpa using hlast
        have := ho.len; rw [h0] at this; exact List.length_eq_zero_iff.1 this.symm
      simp only [hk, hlast]
      exact ⟨⟨k, rfl, .inl this⟩, hb⟩
    · rename_i l hlast
      split at ha
      · cases ha
      · cases ha
      · rename_i hlt
        have hlast' : s.keys[s.keys.length - 1]? = some l := by rw [← List.getLast?_eq_getElem?]; exact hlast
        obtain ⟨w, hw, hkw⟩ := at_key ho hlast'
        have hwl : s.items.getLast? = some w := by rw [List.getLast?_eq_getElem?, ← ho.len]; exact hw
        simp only [hk, hlast, hlt]
        exact ⟨⟨k, rfl, .inr ⟨w, l, hwl, hkw, hlt⟩⟩, hb⟩

/-! ### C104 -/

/-- **C104, proved part** `append`, `insert`, `insert_right` and `remove` change nothing if they raise, whatever raised. -/
theorem C104_unchanged_partial (hs : e.Sorts) (h : Reachable e s) (v : V) :
    ((s.append e v).2 ≠ .ok () → (s.append e v).1 = s) ∧ ((s.insert e v).2 ≠ .ok () → (s.insert e v).1 = s) ∧
    ((s.insertRight e v).2 ≠ .ok () → (s.insertRight e v).1 = s) ∧ ((s.remove e v).2 ≠ .ok () → (s.remove e v).1 = s) := by
  have ho := reach_ok hs h
  have ins : ∀ i k, (s.insertAt i k v).2 ≠ .ok () → (s.insertAt i k v).1 = s := by
    intro i k hx
    rcases insertAt_cases ho i k v with ⟨x, hy⟩ | ⟨-, hy⟩
    · rw [hy]
    · rw [hy] at hx; simp at hx
  refine ⟨?_, ?_, ?_, ?_⟩
  · unfold append
    split
    · simp
    · split
      · simp
      · split <;> simp
  · unfold insert
    split
    · simp
    · split
      · simp
      · exact ins _ _
  · unfold insertRight
    split
    · simp
    · split
      · simp
      · exact ins _ _
  · unfold remove
    split
    · simp
    · rename_i i hi
      have := index_lt hi
      rcases del_cases ho i with ⟨hl, -⟩ | ⟨hl, hd, hd', -⟩
      · omega
      · simp [hd, hd']

/-- What can be seen of a deque, except for what `copy.copy` and pickling make of it. -/
def Same (s s' : XD K V) : Prop := s'.keys = s.keys ∧ s'.items = s.items ∧ s'.key = s.key ∧ s'.maxlen = s.maxlen ∧ s'.cap = s.cap

theorem init_raises {l : List V} {g : Option (V → Py K)} {m : Option Nat} (h : (s.init e l g (.ok m)).2 ≠ .ok ()) : Same s (s.init e l g (.ok m)).1 := by
  unfold init at h ⊢
  split
  · exact ⟨rfl, rfl, rfl, rfl, rfl⟩
  · rename_i d hd; simp [hd] at h

/-- **C104, proved part** The same holds, but for `copy.copy` and pickling, of the assignment or deletion of a key function and of the assignment of a bound
that a deque can have; `clear` does not raise; and a `drop` that raises has dropped everything. -/
theorem C104_reassign_partial (hs : e.Sorts) (h : Reachable e s) :
    (∀ f, (s.apply e (.setKey f)).2 ≠ .ok () → Same s (s.apply e (.setKey f)).1) ∧
    ((s.apply e .delKey).2 ≠ .ok () → Same s (s.apply e .delKey).1) ∧
    (∀ m, (s.apply e (.setMaxlen (.ok m))).2 ≠ .ok () → Same s (s.apply e (.setMaxlen (.ok m))).1) ∧
    ((s.apply e .delMaxlen).2 ≠ .ok () → Same s (s.apply e .delMaxlen).1) ∧
    ((s.apply e .clear).2 = .ok () ∧ (s.apply e .clear).1.items = []) ∧
    (∀ n, (s.apply e (.drop n)).2 ≠ .ok () → (s.apply e (.drop n)).1.items = [] ∧ (s.items.length : Int) < n) := by
  refine ⟨fun f => init_raises, init_raises, fun m => init_raises, ?_, ?_, fun n hn => ?_⟩
  · simp only [apply]; split
    · simp
    · exact init_raises
  · have : decorated e s.key [] = .ok [] := by unfold decorated; simp [pure, Except.pure, bind, Except.bind, hs.nil]
    simp only [apply, init, Option.getD_some, this]
    simp [dqOf]
  · obtain ⟨-, -, h3⟩ := ok_drop n.toNat (reach_ok hs h)
    obtain ⟨a, b⟩ := h3 hn
    exact ⟨a, by omega⟩

/-! ### C106 -/

/-- Some keys can be compared with each other: those with a rank, as their ranks. Comparing any other key raises `TypeError` (think of `None`); such a key is
equal only to itself. -/
structure _root_.S2P.PyEnv.Ranked {L : Type} [LinearOrder L] (e : PyEnv K V) (rank : K → Option L) : Prop where
  lt : ∀ a b, e.ltK a b = match rank a, rank b with | some x, some y => .ok (decide (x < y)) | _, _ => .error .typeError
  eq : ∀ a b, e.eqK a b = .ok true → rank a = rank b ∧ (rank a = none → a = b)

section ranked
variable {L : Type} [LinearOrder L] {rank : K → Option L}

/-- `a` may come before `b`. -/
def Before (rank : K → Option L) (a b : K) : Prop := (∃ x y, rank a = some x ∧ rank b = some y ∧ x ≤ y) ∨ (rank a = none ∧ a = b)

theorem Before.trans {a b c : K} (h1 : Before rank a b) (h2 : Before rank b c) : Before rank a c := by
  rcases h1 with ⟨x, y, ha, hb, hxy⟩ | ⟨ha, rfl⟩
  · rcases h2 with ⟨y', z, hb', hc, hyz⟩ | ⟨hb', rfl⟩
    · rw [hb] at hb'; cases hb'; exact .inl ⟨x, z, ha, hc, hxy.trans hyz⟩
    · rw [hb] at hb'; cases hb'
  · exact h2

theorem before_true (hr : e.Ranked rank) {a b : K} (h : e.ltK a b = .ok true) : Before rank a b := by
  rw [hr.lt] at h
  split at h
  · rename_i x y ha hb; simp at h; exact .inl ⟨x, y, ha, hb, h.le⟩
  · cases h

theorem before_false (hr : e.Ranked rank) {a b : K} (h : e.ltK a b = .ok false) : Before rank b a := by
  rw [hr.lt] at h
  split at h
  · rename_i x y ha hb; simp at h; exact .inl ⟨y, x, hb, ha, h⟩
  · cases h

theorem before_eq (hr : e.Ranked rank) {a b : K} (h : e.eqK a b = .ok true) : Before rank a b ∧ Before rank b a := by
  obtain ⟨h1, h2⟩ := hr.eq _ _ h
  cases ha : rank a with
  | none => have := h2 ha; subst this; exact ⟨.inr ⟨ha, rfl⟩, .inr ⟨ha, rfl⟩⟩
  | some x => rw [ha] at h1; exact ⟨.inl ⟨x, x, ha, h1.symm, le_refl x⟩, .inl ⟨x, x, h1.symm, ha, le_refl x⟩⟩

theorem before_tuple (hr : e.Ranked rank) {p q : K × V} :
    (e.tupleLt q p = .ok false → Before rank p.1 q.1) ∧ (e.tupleLt p q = .ok true → Before rank p.1 q.1) := by
  constructor
  · intro h
    simp only [PyEnv.tupleLt, bind, Except.bind] at h
    split at h
    · cases h
    · rename_i b hb
      split at h
      · rename_i ht; cases ht; exact (before_eq hr hb).2
      · exact before_false hr h
  · intro h
    simp only [PyEnv.tupleLt, bind, Except.bind] at h
    split at h
    · cases h
    · rename_i b hb
      split at h
      · rename_i ht; cases ht; exact (before_eq hr hb).1
      · exact before_true hr h

theorem pairwise_put {l : List K} {k : K} {i : Nat} (h : l.Pairwise (Before rank)) (hi : i ≤ l.length)
    (h1 : ∀ j, i = j + 1 → ∃ x, l[j]? = some x ∧ Before rank x k) (h2 : i < l.length → ∃ x, l[i]? = some x ∧ Before rank k x) :
    (l.take i ++ k :: l.drop i).Pairwise (Before rank) := by
  have hsplit : (l.take i ++ l.drop i).Pairwise (Before rank) := by rw [List.take_append_drop]; exact h
  rw [List.pairwise_append] at hsplit
  obtain ⟨ht, hd, htd⟩ := hsplit
  have hle : ∀ x ∈ l.take i, Before rank x k := by
    intro x hx
    cases i with
    | zero => simp at hx
    | succ j =>
      obtain ⟨y, hy, hyk⟩ := h1 j rfl
      rw [List.take_add_one, hy] at hx ht
      simp at hx ht
      rcases hx with hx | rfl
      · have : Before rank x y := by rw [List.pairwise_append] at ht; exact ht.2.2 x hx y (by simp)
        exact this.trans hyk
      · exact hyk
  have hge : ∀ x ∈ l.drop i, Before rank k x := by
    intro x hx
    have hlt : i < l.length := by
      by_contra hn; rw [List.drop_eq_nil_of_le (by omega)] at hx; simp at hx
    obtain ⟨y, hy, hky⟩ := h2 hlt
    have hdrop : l.drop i = y :: l.drop (i + 1) := by
      rw [List.drop_eq_getElem_cons hlt]; rw [List.getElem?_eq_getElem hlt] at hy; cases hy; rfl
    rw [hdrop] at hx hd
    simp at hx hd
    rcases hx with rfl | hx
    · exact hky
    · exact hky.trans (hd.1 x hx)
  rw [List.pairwise_append, List.pairwise_cons]
  refine ⟨ht, ⟨hge, hd⟩, ?_⟩
  intro a ha b hb
  rcases List.mem_cons.1 hb with rfl | hb
  · exact hle a ha
  · exact htd a ha b hb

theorem pw_init (hs : e.Sorts) (hr : e.Ranked rank) (h : s.keys.Pairwise (Before rank)) (l : List V) (g : Option (V → Py K)) (m : Py (Option Nat)) :
    (s.init e l g m).1.keys.Pairwise (Before rank) := by
  unfold init
  split
  · exact h
  · rename_i d hd
    obtain ⟨-, -, hc⟩ := decorated_ok hs hd
    have hk : (d.map (·.1)).Pairwise (Before rank) := by
      have hch : (d.map (·.1)).IsChain (Before rank) := by
        rw [List.isChain_map]
        exact hc.imp fun p q hpq => hpq.elim (before_tuple hr).1 (before_tuple hr).2
      haveI : Trans (Before rank) (Before rank) (Before rank) := ⟨Before.trans⟩
      exact List.isChain_iff_pairwise.1 hch
    split
    · exact hk
    · rename_i m
      simp only [dqOf_eq]
      cases m with
      | none => exact hk
      | some m => exact hk.sublist (List.drop_sublist _ _)

theorem pw_append (h : s.keys.Pairwise (Before rank)) {k : K} (hl : ∀ l, s.keys.getLast? = some l → Before rank l k) :
    (dqAppend s.cap s.keys k).Pairwise (Before rank) := by
  have hp : (s.keys ++ [k]).Pairwise (Before rank) := by
    have := pairwise_put (k := k) (i := s.keys.length) h (le_refl _) ?_ (by simp)
    · simpa using this
    · intro j hj
      have hj' : s.keys.getLast? = s.keys[j]? := by rw [List.getLast?_eq_getElem?]; congr 1; omega
      cases hx : s.keys[j]? with
      | none => rw [List.getElem?_eq_none_iff] at hx; omega
      | some x => exact ⟨x, rfl, hl x (by rw [hj', hx])⟩
  rw [dqAppend_eq]
  split
  · exact hp
  · split
    · exact hp.sublist (List.tail_sublist _)
    · exact hp

theorem pw_insertAt (ho : s.Ok) {k : K} {v : V} {i : Nat} (h : s.keys.Pairwise (Before rank)) (hp : (s.keys.take i ++ k :: s.keys.drop i).Pairwise (Before rank)) :
    (s.insertAt i k v).1.keys.Pairwise (Before rank) := by
  rcases insertAt_cases ho i k v with ⟨x, hx⟩ | ⟨-, hx⟩
  · rw [hx]; exact h
  · rw [hx]; exact hp

theorem pw_drop : ∀ (n : Nat) {s : XD K V}, s.Ok → (dropLoop n s).1.keys.Sublist s.keys := by
  intro n
  induction n with
  | zero => intro s _; simp [dropLoop]
  | succ n ih =>
    intro s h
    unfold dropLoop
    rcases del_cases h 0 with ⟨hl, hd⟩ | ⟨hl, hd, hd', ho⟩
    · simp only [hd]; exact List.Sublist.refl _
    · simp only [hd, hd']
      exact (ih ho).trans (List.eraseIdx_sublist _ _)

theorem pw_apply (hs : e.Sorts) (hr : e.Ranked rank) (ho : s.Ok) (h : s.keys.Pairwise (Before rank)) (op : Op K V) :
    (s.apply e op).1.keys.Pairwise (Before rank) := by
  cases op with
  | append v =>
    simp only [apply, append]
    split
    · exact h
    · rename_i k hk
      split
      · rename_i hl; exact pw_append h (by intro l hl'; rw [hl] at hl'; cases hl')
      · rename_i l hl
        split
        · exact h
        · exact h
        · rename_i hlt
          exact pw_append h (by intro l' hl'; rw [hl] at hl'; cases hl'; exact before_true hr hlt)
  | insert v =>
    simp only [apply, insert]
    split
    · exact h
    · rename_i k hk
      split
      · exact h
      · rename_i i hi
        obtain ⟨h1, h2, h3⟩ := bisectL_ends hi
        refine pw_insertAt ho h (pairwise_put h h1 (fun j hj => ?_) fun hlt => ?_)
        · obtain ⟨x, hx, hg⟩ := h2 j hj; exact ⟨x, hx, before_true hr hg⟩
        · obtain ⟨x, hx, hg⟩ := h3 hlt; exact ⟨x, hx, before_false hr hg⟩
  | insertRight v =>
    simp only [apply, insertRight]
    split
    · exact h
    · rename_i k hk
      split
      · exact h
      · rename_i i hi
        obtain ⟨h1, h2, h3⟩ := bisectR_ends hi
        refine pw_insertAt ho h (pairwise_put h h1 (fun j hj => ?_) fun hlt => ?_)
        · obtain ⟨x, hx, hg⟩ := h2 j hj; exact ⟨x, hx, before_false hr hg⟩
        · obtain ⟨x, hx, hg⟩ := h3 hlt; exact ⟨x, hx, before_true hr hg⟩
  | remove v =>
    simp only [apply, remove]
    split
    · exact h
    · rename_i i hi
      rcases del_cases ho i with ⟨hl, hd⟩ | ⟨hl, hd, hd', -⟩
      · simp only [hd]; exact h
      · simp only [hd, hd']; exact h.sublist (List.eraseIdx_sublist _ _)
  | drop n => exact h.sublist (pw_drop _ ho)
  | clear => exact pw_init hs hr h _ _ _
  | setMaxlen m => exact pw_init hs hr h _ _ _
  | delMaxlen => simp only [apply]; split; exacts [h, pw_init hs hr h _ _ _]
  | setKey f => exact pw_init hs hr h _ _ _
  | delKey => exact pw_init hs hr h _ _ _

theorem pw_reach (hs : e.Sorts) (hr : e.Ranked rank) (h : Reachable e s) : s.keys.Pairwise (Before rank) := by
  induction h with
  | new h =>
    rename_i l g m s
    unfold new at h
    split at h
    · rename_i x _ hx
      cases h
      have := pw_init (s := ({ keys := [], items := [], key := e.ident, given := none, maxlen := none, cap := none } : XD K V)) hs hr List.Pairwise.nil l g m
      rwa [hx] at this
    · cases h
  | step op h ih => exact pw_apply hs hr (reach_ok hs h) ih op

/-- **C106** After any calls, whatever was raised: either all keys in the deque can be compared, and the items are sorted by them; or all items have the same
key, one that cannot be compared. -/
theorem C106_never_mixed (hs : e.Sorts) (hr : e.Ranked rank) (h : Reachable e s) :
    ((∀ v ∈ s.items, ∃ k x, s.key v = .ok k ∧ rank k = some x) ∧
      s.items.Pairwise fun v w => ∀ a b x y, s.key v = .ok a → s.key w = .ok b → rank a = some x → rank b = some y → x ≤ y) ∨
    ∃ k, rank k = none ∧ ∀ v ∈ s.items, s.key v = .ok k := by
  have ho := reach_ok hs h
  have hp := pw_reach hs hr h
  have mem : ∀ v ∈ s.items, ∃ k ∈ s.keys, s.key v = .ok k := by
    intro v hv
    have : s.key v ∈ s.items.map s.key := List.mem_map_of_mem hv
    rw [ho.aligned] at this
    obtain ⟨k, hk, hkv⟩ := List.mem_map.1 this
    exact ⟨k, hk, hkv.symm⟩
  have srt : s.items.Pairwise fun v w => ∀ a b x y, s.key v = .ok a → s.key w = .ok b → rank a = some x → rank b = some y → x ≤ y := by
    have h1 : (s.items.map s.key).Pairwise fun a b => ∀ k l x y, a = .ok k → b = .ok l → rank k = some x → rank l = some y → x ≤ y := by
      rw [ho.aligned, List.pairwise_map]
      refine hp.imp ?_
      rintro a b hab k l x y hk hl hx hy
      cases hk; cases hl
      rcases hab with ⟨x', y', ha, hb, hxy⟩ | ⟨ha, -⟩
      · rw [ha] at hx; rw [hb] at hy; cases hx; cases hy; exact hxy
      · rw [ha] at hx; cases hx
    rw [List.pairwise_map] at h1
    exact h1.imp fun h a b x y => h a b x y
  cases hk : s.keys with
  | nil => left; refine ⟨fun v hv => ?_, srt⟩; obtain ⟨k, hk', -⟩ := mem v hv; rw [hk] at hk'; cases hk'
  | cons k0 ks =>
    rw [hk, List.pairwise_cons] at hp
    cases h0 : rank k0 with
    | none =>
      right
      refine ⟨k0, h0, fun v hv => ?_⟩
      obtain ⟨k, hk', hv'⟩ := mem v hv
      rw [hk] at hk'
      rcases List.mem_cons.1 hk' with rfl | hk'
      · exact hv'
      · rcases hp.1 k hk' with ⟨x, y, ha, -, -⟩ | ⟨-, rfl⟩
        · rw [h0] at ha; cases ha
        · exact hv'
    | some x0 =>
      left
      refine ⟨fun v hv => ?_, srt⟩
      obtain ⟨k, hk', hv'⟩ := mem v hv
      rw [hk] at hk'
      rcases List.mem_cons.1 hk' with rfl | hk'
      · exact ⟨k, x0, hv', h0⟩
      · rcases hp.1 k hk' with ⟨x, y, -, hb, -⟩ | ⟨ha, -⟩
        · exact ⟨k, y, hv', hb⟩
        · rw [h0] at ha; cases ha

/-- **C106** and as long as one with a key that cannot be compared is in the deque, or if it is its own key that cannot be compared and the deque is not empty,
no item can be added: `append`, `insert` and `insert_right` raise and change nothing. -/
theorem C106_blocks (hs : e.Sorts) (hr : e.Ranked rank) (h : Reachable e s) (v : V) (hne : s.items ≠ [])
    (hb : (∃ w ∈ s.items, ∃ k, s.key w = .ok k ∧ rank k = none) ∨ ∃ k, s.key v = .ok k ∧ rank k = none) :
    (∃ x, s.append e v = (s, .error x)) ∧ (∃ x, s.insert e v = (s, .error x)) ∧ ∃ x, s.insertRight e v = (s, .error x) := by
  have ho := reach_ok hs h
  have hlen := ho.len
  have hkn : s.keys ≠ [] := by intro h0; rw [h0] at hlen; exact hne (List.length_eq_zero_iff.1 hlen.symm)
  cases hk : s.key v with
  | error x => exact ⟨⟨x, by simp [append, hk]⟩, ⟨x, by simp [insert, hk]⟩, ⟨x, by simp [insertRight, hk]⟩⟩
  | ok k =>
    have bad : ∀ x ∈ s.keys, e.ltK x k = .error .typeError ∧ e.ltK k x = .error .typeError := by
      intro x hx
      have : rank x = none ∨ rank k = none := by
        rcases hb with ⟨w, hw, k', hk', hn⟩ | ⟨k', hk', hn⟩
        · left
          rcases C106_never_mixed hs hr h with ⟨h1, -⟩ | ⟨k0, h0, hall⟩
          · obtain ⟨a, b, c, d⟩ := h1 w hw; rw [hk'] at c; cases c; rw [hn] at d; cases d
          · obtain ⟨i, hi⟩ := List.mem_iff_getElem?.1 hx
            obtain ⟨v', hv', hkv⟩ := at_key ho hi
            have := hall v' (List.mem_of_getElem? hv')
            rw [hkv] at this; cases this; exact h0
        · right; rw [hk] at hk'; cases hk'; exact hn
      rw [hr.lt, hr.lt]
      rcases this with h | h <;> rw [h] <;> constructor
      all_goals first | rfl | (split <;> first | rfl | simp_all)
    have noL : ∀ g : K → Py Bool, (∀ x ∈ s.keys, g x = .error .typeError) → bisectLoop g s.keys s.keys.length 0 s.keys.length = .error .typeError := by
      intro g hg
      have hpos : 0 < s.keys.length := List.length_pos_iff.2 hkn
      obtain ⟨n, hn⟩ : ∃ n, s.keys.length = n + 1 := ⟨s.keys.length - 1, by omega⟩
      have hm : (0 + s.keys.length) / 2 < s.keys.length := by omega
      have hgx := hg _ (List.getElem_mem hm)
      have hmm : s.keys[(0 + s.keys.length) / 2]? = some s.keys[(0 + s.keys.length) / 2] := List.getElem?_eq_getElem hm
      have : bisectLoop g s.keys (n + 1) 0 s.keys.length = .error .typeError := by
        unfold bisectLoop
        simp only [hpos, if_true, hmm, hgx]
      rw [← hn] at this; exact this
    refine ⟨⟨.typeError, ?_⟩, ⟨.typeError, ?_⟩, ⟨.typeError, ?_⟩⟩
    · unfold append
      simp only [hk]
      obtain ⟨l, hl⟩ : ∃ l, s.keys.getLast? = some l := by
        cases hl : s.keys.getLast? with
        | none => simp at hl; exact absurd hl hkn
        | some l => exact ⟨l, rfl⟩
      simp only [hl, (bad l (List.mem_of_getLast? hl)).1]
    · unfold insert bisectL
      simp only [hk, noL _ fun x hx => (bad x hx).1]
    · unfold insertRight bisectR
      simp only [hk, noL (fun x => (e.ltK k x).map (! ·)) fun x hx => by simp only [(bad x hx).2]; rfl]

end ranked

end XD
end S2P
