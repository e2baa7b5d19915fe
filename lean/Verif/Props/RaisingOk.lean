import Verif.Props.RaisingWitness
/-
C120: what the calls on a sorted deque do when they do not raise, with key functions and comparisons that may raise or contradict each other
(Model/Raising.lean), after any calls, also ones that raised. `maxlen` is what the attribute shows, `cap` what the bound in force is.
-/
namespace S2P
namespace XD
variable {K V : Type} {e : PyEnv K V} {s : XD K V}

/-- The bound that is shown, the one in force and the key function are as before. -/
def Keeps (s s' : XD K V) : Prop := s'.key = s.key ∧ s'.maxlen = s.maxlen ∧ s'.cap = s.cap

/-- `v` has been put between two items of `s` that `before` and `after` hold of (if there are such items): nothing else has changed, and no bound is
exceeded. -/
def PutBetween (s s' : XD K V) (v : V) (before after : V → Prop) : Prop :=
  Keeps s s' ∧ s.cap ≠ some s.items.length ∧
  ∃ l r, s.items = l ++ r ∧ s'.items = l ++ v :: r ∧ (∀ w, l.getLast? = some w → before w) ∧ (∀ w, r.head? = some w → after w)

theorem put_between (ho : s.Ok) {i : Nat} {k : K} {v : V} {P Q : K → Prop} (hi : i ≤ s.keys.length)
    (hP : ∀ j, i = j + 1 → ∃ x, s.keys[j]? = some x ∧ P x) (hQ : i < s.keys.length → ∃ x, s.keys[i]? = some x ∧ Q x)
    (h : (s.insertAt i k v).2 = .ok ()) :
    PutBetween s (s.insertAt i k v).1 v (fun w => ∃ x, s.key w = .ok x ∧ P x) (fun w => ∃ x, s.key w = .ok x ∧ Q x) := by
  rcases insertAt_cases ho i k v with ⟨x, hx⟩ | ⟨hc, hx⟩
  · rw [hx] at h; cases h
  · rw [hx]
    have hl := ho.len
    refine ⟨⟨rfl, rfl, rfl⟩, hc, s.items.take i, s.items.drop i, (List.take_append_drop _ _).symm, rfl, ?_, ?_⟩
    · intro w hw
      rw [List.getLast?_eq_getElem?, List.length_take] at hw
      cases i with
      | zero => simp at hw
      | succ j =>
        have e1 : min (j + 1) s.items.length - 1 = j := by omega
        rw [e1, List.getElem?_take_of_lt (by omega)] at hw
        obtain ⟨x, hx, hp⟩ := hP j rfl
        obtain ⟨w', hw', hk⟩ := at_key ho hx
        rw [hw] at hw'; cases hw'
        exact ⟨x, hk, hp⟩
    · intro w hw
      rw [List.head?_drop] at hw
      have hlt : i < s.items.length := (List.getElem?_eq_some_iff.1 hw).1
      obtain ⟨x, hx, hp⟩ := hQ (by omega)
      obtain ⟨w', hw', hk⟩ := at_key ho hx
      rw [hw] at hw'; cases hw'
      exact ⟨x, hk, hp⟩

/-- **C120** an `insert` that returns has put the item between two items of which the first compared less than it and the second did not, and an
`insert_right` between two of which it compared not less than the first and less than the second. Neither takes anything away or exceeds the bound. -/
theorem C120_insert (hs : e.Sorts) (h : Reachable e s) (v : V) :
    ((s.insert e v).2 = .ok () → ∃ k, s.key v = .ok k ∧
      PutBetween s (s.insert e v).1 v (fun w => ∃ x, s.key w = .ok x ∧ e.ltK x k = .ok true) (fun w => ∃ x, s.key w = .ok x ∧ e.ltK x k = .ok false)) ∧
    ((s.insertRight e v).2 = .ok () → ∃ k, s.key v = .ok k ∧
      PutBetween s (s.insertRight e v).1 v (fun w => ∃ x, s.key w = .ok x ∧ e.ltK k x = .ok false) (fun w => ∃ x, s.key w = .ok x ∧ e.ltK k x = .ok true)) := by
  have ho := reach_ok hs h
  constructor
  · intro hr
    unfold insert at hr ⊢
    split at hr
    · cases hr
    · rename_i k hk
      simp only [hk] at hr ⊢
      split at hr
      · cases hr
      · rename_i i hi
        obtain ⟨h1, h2, h3⟩ := bisectL_ends hi
        exact ⟨k, rfl, put_between ho h1 h2 h3 hr⟩
  · intro hr
    unfold insertRight at hr ⊢
    split at hr
    · cases hr
    · rename_i k hk
      simp only [hk] at hr ⊢
      split at hr
      · cases hr
      · rename_i i hi
        obtain ⟨h1, h2, h3⟩ := bisectR_ends hi
        exact ⟨k, rfl, put_between ho h1 h2 h3 hr⟩

theorem search_eq {v : V} : ∀ {l : List V} {i j : Nat}, search e v i l = .ok j → ∃ w, l[j - i]? = some w ∧ i ≤ j ∧ e.eqV w v = .ok true := by
  intro l
  induction l with
  | nil => intro i j h; simp [search] at h
  | cons w l ih =>
    intro i j h
    simp only [search, bind, Except.bind] at h
    split at h
    · cases h
    · rename_i b hb
      split at h
      · rename_i hbt; cases h; exact ⟨w, by simp, Nat.le_refl _, by rw [hb, hbt]⟩
      · obtain ⟨x, h1, h2, h3⟩ := ih h
        refine ⟨x, ?_, by omega, h3⟩
        have : j - i = (j - (i + 1)) + 1 := by omega
        rw [this]; simpa using h1

/-- **C120** a `remove` that returns has removed one item, which compared equal to the one it was given. -/
theorem C120_remove (hs : e.Sorts) (h : Reachable e s) (v : V) (hr : (s.remove e v).2 = .ok ()) :
    Keeps s (s.remove e v).1 ∧ ∃ l w r, s.items = l ++ w :: r ∧ (s.remove e v).1.items = l ++ r ∧ e.eqV w v = .ok true := by
  have ho := reach_ok hs h
  unfold remove at hr ⊢
  split at hr
  · cases hr
  · rename_i i hi
    rcases del_cases ho i with ⟨hl, hd⟩ | ⟨hl, hd, hd', -⟩
    · have := index_lt hi; omega
    · simp only [hd, hd']
      refine ⟨⟨rfl, rfl, rfl⟩, ?_⟩
      have hi' : ∃ w, s.items[i]? = some w ∧ e.eqV w v = .ok true := by
        simp only [index, bind, Except.bind] at hi
        split at hi
        · cases hi
        · split at hi
          · cases hi
          · split at hi
            · cases hi
            · obtain ⟨w, h1, h2, h3⟩ := search_eq hi
              refine ⟨w, ?_, h3⟩
              rw [List.getElem?_drop, List.getElem?_take] at h1
              split at h1
              · rw [← h1]; congr 1; omega
              · cases h1
      obtain ⟨w, hw, he⟩ := hi'
      obtain ⟨hlt, hw⟩ := List.getElem?_eq_some_iff.1 hw
      refine ⟨s.items.take i, w, s.items.drop (i + 1), ?_, List.eraseIdx_eq_take_drop_succ _ _, he⟩
      rw [← hw, ← List.drop_eq_getElem_cons hlt, List.take_append_drop]

theorem drop_keeps : ∀ (n : Nat) {s : XD K V}, Keeps s (dropLoop n s).1 := by
  intro n
  induction n with
  | zero => intro s; exact ⟨rfl, rfl, rfl⟩
  | succ n ih =>
    intro s
    unfold dropLoop
    split
    · exact ⟨rfl, rfl, rfl⟩
    · split
      · exact ⟨rfl, rfl, rfl⟩
      · exact ih

/-- **C120** a `drop(n)` that returns has removed the first `n` items (none if `n` is negative), and there were that many; `clear()` returns and has removed
all. -/
theorem C120_drop (hs : e.Sorts) (h : Reachable e s) :
    (∀ n, (s.apply e (.drop n)).2 = .ok () →
      Keeps s (s.apply e (.drop n)).1 ∧ (s.apply e (.drop n)).1.items = s.items.drop n.toNat ∧ n ≤ s.items.length) ∧
    (s.apply e .clear).2 = .ok () ∧ (s.apply e .clear).1.items = [] ∧ (s.apply e .clear).1.key = s.key ∧ (s.apply e .clear).1.maxlen = s.maxlen ∧
    (s.apply e .clear).1.cap = s.maxlen := by
  refine ⟨fun n hn => ?_, ?_⟩
  · obtain ⟨-, h2, -⟩ := ok_drop n.toNat (reach_ok hs h)
    obtain ⟨a, b⟩ := h2 hn
    exact ⟨drop_keeps _, a, by omega⟩
  · have : decorated e s.key [] = .ok [] := by unfold decorated; simp [pure, Except.pure, bind, Except.bind, hs.nil]
    simp only [apply, init, Option.getD_some, this]
    simp [dqOf]

/-- The deque has been made anew from its items, with the key function `f` and the bound `m`: the items, rearranged so that neighbours (by `f`, then by
themselves) compared the right way, but only the last `m` of them. -/
def Anew (e : PyEnv K V) (s s' : XD K V) (f : V → Py K) (m : Option Nat) : Prop :=
  s'.key = f ∧ s'.maxlen = m ∧ s'.cap = m ∧ ∃ p : List V, p.Perm s.items ∧ s'.items = Spec.newest m p ∧
    p.IsChain fun v w => ∃ x y, f v = .ok x ∧ f w = .ok y ∧ (e.tupleLt (y, w) (x, v) = .ok false ∨ e.tupleLt (x, v) (y, w) = .ok true)

theorem init_anew (hs : e.Sorts) {g : Option (V → Py K)} {m : Option Nat} (h : (s.init e s.items g (.ok m)).2 = .ok ()) :
    Anew e s (s.init e s.items g (.ok m)).1 (g.getD e.ident) m := by
  unfold init at h ⊢
  split at h
  · cases h
  · rename_i d hd
    simp only [hd]
    obtain ⟨h1, h2, h3⟩ := decorated_ok hs hd
    refine ⟨rfl, rfl, rfl, d.map (·.2), h1, ?_, ?_⟩
    · show dqOf m (d.map (·.2)) = _
      rw [dqOf_eq]; unfold Spec.newest; cases m <;> rfl
    · rw [List.isChain_map]
      have hk : ∀ p ∈ d, (g.getD e.ident) p.2 = .ok p.1 := fun p hp => by
        obtain ⟨i, hi, rfl⟩ := List.getElem_of_mem hp
        have := congrArg (·[i]?) h2
        simpa [hi] using this
      refine List.IsChain.imp_of_mem_imp (fun a b ha hb hab => ⟨a.1, b.1, hk a ha, hk b hb, hab⟩) h3

theorem bounds (h : Reachable e s) : s.cap = s.maxlen ∨ s.cap = none := by
  have hinit : ∀ (s : XD K V) l g m, s.cap = s.maxlen ∨ s.cap = none → (s.init e l g m).1.cap = (s.init e l g m).1.maxlen ∨ (s.init e l g m).1.cap = none := by
    intro s l g m hb
    unfold init
    split
    · exact hb
    · split
      · exact .inr rfl
      · exact .inl rfl
  have hat : ∀ (s : XD K V) i k v, Keeps s (s.insertAt i k v).1 := by
    intro s i k v
    unfold insertAt
    split
    · exact ⟨rfl, rfl, rfl⟩
    · split <;> exact ⟨rfl, rfl, rfl⟩
  have hk : ∀ {s s' : XD K V}, Keeps s s' → s.cap = s.maxlen ∨ s.cap = none → s'.cap = s'.maxlen ∨ s'.cap = none := by
    rintro s s' ⟨-, h1, h2⟩ hb; rw [h1, h2]; exact hb
  induction h with
  | new h =>
    unfold new at h
    split at h
    · rename_i x _ hx
      cases h
      have := hinit ({ keys := [], items := [], key := e.ident, given := none, maxlen := none, cap := none } : XD K V) ‹List V› ‹Option (V → Py K)› ‹Py (Option Nat)› (.inr rfl)
      rw [hx] at this; exact this
    · cases h
  | @step s op hr ih =>
    cases op with
    | append v =>
      refine hk ?_ ih
      simp only [apply, append]
      split
      · exact ⟨rfl, rfl, rfl⟩
      · split
        · exact ⟨rfl, rfl, rfl⟩
        · split <;> exact ⟨rfl, rfl, rfl⟩
    | insert v =>
      refine hk ?_ ih
      simp only [apply, insert]
      split
      · exact ⟨rfl, rfl, rfl⟩
      · split
        · exact ⟨rfl, rfl, rfl⟩
        · exact hat _ _ _ _
    | insertRight v =>
      refine hk ?_ ih
      simp only [apply, insertRight]
      split
      · exact ⟨rfl, rfl, rfl⟩
      · split
        · exact ⟨rfl, rfl, rfl⟩
        · exact hat _ _ _ _
    | remove v =>
      refine hk ?_ ih
      simp only [apply, remove]
      split
      · exact ⟨rfl, rfl, rfl⟩
      · split
        · exact ⟨rfl, rfl, rfl⟩
        · split <;> exact ⟨rfl, rfl, rfl⟩
    | drop n => exact hk (drop_keeps _) ih
    | delMaxlen => simp only [apply]; split; exacts [ih, hinit _ _ _ _ ih]
    | _ => exact hinit _ _ _ _ ih

/-- **C120** what the assignments do when they return: `d.maxlen = m` makes the deque anew with this bound, `d.key = f` with this key function and without a
bound (C72), `del d.key` with the items as their keys and the bound that was shown; `del d.maxlen` makes it anew without a bound if a bound was shown, and
does nothing if not: there was none in force then. -/
theorem C120_reassign (hs : e.Sorts) (h : Reachable e s) :
    (∀ m, (s.apply e (.setMaxlen (.ok m))).2 = .ok () → Anew e s (s.apply e (.setMaxlen (.ok m))).1 s.key m) ∧
    (∀ f, (s.apply e (.setKey f)).2 = .ok () → Anew e s (s.apply e (.setKey f)).1 f none) ∧
    ((s.apply e .delKey).2 = .ok () → Anew e s (s.apply e .delKey).1 e.ident s.maxlen) ∧
    (s.maxlen ≠ none → (s.apply e .delMaxlen).2 = .ok () → Anew e s (s.apply e .delMaxlen).1 s.key none) ∧
    (s.maxlen = none → s.apply e .delMaxlen = (s, .ok ()) ∧ s.cap = none) := by
  refine ⟨fun m => init_anew hs, fun f => init_anew hs, init_anew hs, fun hm => ?_, fun hm => ⟨by simp [apply, hm], ?_⟩⟩
  · simp only [apply, hm, if_false]; exact init_anew hs
  · rcases bounds h with h' | h'
    · rw [h', hm]
    · exact h'

end XD

namespace XDW
open XD

/-- Meets C120: after an `append` that raised, every call returns. -/
theorem C120_meets : ∃ s, Reachable env s ∧ env.Sorts ∧ s = (d0.apply env (.append 9)).1 ∧ s.items = [1, 3] ∧ s.maxlen = some 3 ∧
    (s.insert env 2).2 = .ok () ∧ (s.insert env 2).1.items = [1, 2, 3] ∧ (s.insertRight env 1).2 = .ok () ∧ (s.insertRight env 1).1.items = [1, 1, 3] ∧
    (s.remove env 1).2 = .ok () ∧ (s.apply env (.drop 1)).2 = .ok () ∧
    (s.apply env (.setMaxlen (.ok (some 1)))).2 = .ok () ∧ (s.apply env (.setMaxlen (.ok (some 1)))).1.items = [3] ∧
    (s.apply env (.setKey fun v => .ok (some (9 - v)))).2 = .ok () ∧ (s.apply env (.setKey fun v => .ok (some (9 - v)))).1.items = [3, 1] ∧
    (s.apply env .delKey).2 = .ok () ∧ (s.apply env .delMaxlen).2 = .ok () ∧ (s.apply env .delMaxlen).1.maxlen = none :=
  ⟨_, .step (.append 9) reach0, sorts, rfl, rfl, rfl, rfl, rfl, rfl, rfl, rfl, rfl, rfl, rfl, rfl, rfl, rfl, rfl, rfl⟩

end XDW
end S2P
