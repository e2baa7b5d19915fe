import Verif.Props.Raising
/-
Concrete cases for C104-C106, and the refutations of C104. Keys are numbers or `None` (`none`), the key function raises on 9 and gives `None` for 7 and 8.
`sorted` is insertion sort, shown to meet `PyEnv.Sorts` whatever the comparisons do.
-/
namespace S2P
namespace XDW
open XD

section sort
variable {α : Type}

/-- Insertion sort with comparisons that may raise. -/
def put (lt : α → α → Py Bool) (x : α) : List α → Py (List α)
  | [] => .ok [x]
  | y :: ys => match lt y x with
    | .error e => .error e
    | .ok true => match put lt x ys with
      | .error e => .error e
      | .ok l => .ok (y :: l)
    | .ok false => .ok (x :: y :: ys)

def insSort (lt : α → α → Py Bool) : List α → Py (List α)
  | [] => .ok []
  | x :: xs => match insSort lt xs with
    | .error e => .error e
    | .ok l => put lt x l

theorem put_ok {lt : α → α → Py Bool} {x : α} : ∀ {l l' : List α}, put lt x l = .ok l' → l'.Perm (x :: l) ∧
    (l.IsChain (fun a b => lt b a = .ok false ∨ lt a b = .ok true) → l'.IsChain (fun a b => lt b a = .ok false ∨ lt a b = .ok true)) ∧
    ∀ z ∈ l'.head?, z = x ∨ z ∈ l.head? := by
  intro l
  induction l with
  | nil => intro l' h; simp [put] at h; subst h; simp
  | cons y ys ih =>
    intro l' h
    unfold put at h
    split at h
    · cases h
    · rename_i hlt
      split at h
      · cases h
      · rename_i m hm
        cases h
        obtain ⟨h1, h2, h3⟩ := ih hm
        refine ⟨(h1.cons y).trans (List.Perm.swap x y ys), fun hc => ?_, by simp⟩
        rw [List.isChain_cons] at hc ⊢
        refine ⟨fun z hz => ?_, h2 hc.2⟩
        rcases h3 z hz with rfl | hz
        · exact .inr hlt
        · exact hc.1 z hz
    · rename_i hlt
      cases h
      exact ⟨List.Perm.refl _, fun hc => by rw [List.isChain_cons]; exact ⟨by simp [hlt], hc⟩, by simp⟩

theorem insSort_ok {lt : α → α → Py Bool} : ∀ {l l' : List α}, insSort lt l = .ok l' → l'.Perm l ∧
    l'.IsChain (fun a b => lt b a = .ok false ∨ lt a b = .ok true) := by
  intro l
  induction l with
  | nil => intro l' h; simp [insSort] at h; subst h; simp
  | cons x xs ih =>
    intro l' h
    unfold insSort at h
    split at h
    · cases h
    · rename_i m hm
      obtain ⟨h1, h2⟩ := ih hm
      obtain ⟨h3, h4, -⟩ := put_ok h
      exact ⟨h3.trans (h1.cons x), h4 h2⟩

end sort

/-- Numbers and `None` as keys, numbers as items. -/
def base : PyEnv (Option Nat) Nat where
  ltK a b := match a, b with | some x, some y => .ok (decide (x < y)) | _, _ => .error .typeError
  eqK a b := .ok (a == b)
  ltV a b := .ok (decide (a < b))
  eqV a b := .ok (a == b)
  ident v := .ok (some v)
  sort _ := .ok []

def env : PyEnv (Option Nat) Nat := { base with sort := insSort base.tupleLt }

theorem sorts : env.Sorts where
  perm _ _ h := (insSort_ok h).1
  neighbours _ _ h := (insSort_ok h).2
  nil := rfl

theorem ranked : env.Ranked (id : Option Nat → Option Nat) where
  lt a b := by cases a <;> cases b <;> simp [env, base]
  eq a b h := by
    have : (a == b) = true := by injection h
    have : a = b := by simpa using this
    exact ⟨this, fun _ => this⟩

/-- Raises on 9, `None` for 7 and 8. -/
def key (v : Nat) : Py (Option Nat) := if v = 9 then .error .valueError else if v = 7 ∨ v = 8 then .ok none else .ok (some v)

/-- `SortedDeque([3, 1], key, 3)`. -/
def d0 : XD (Option Nat) Nat := ⟨[some 1, some 3], [1, 3], key, some key, some 3, some 3⟩

theorem d0_new : new env [3, 1] (some key) (.ok (some 3)) = .ok d0 := rfl

theorem reach0 : Reachable env d0 := .new d0_new

/-- Meets C105 and C106: calls that raise in between. -/
theorem C105_meets : ∃ s, Reachable env s ∧ env.Sorts ∧ env.Ranked (id : Option Nat → Option Nat) ∧ (d0.apply env (.append 9)).2 = .error .valueError ∧
    (d0.apply env (.append 7)).2 = .error .typeError ∧
    s = ((((d0.apply env (.append 9)).1.apply env (.append 7)).1.apply env (.insert 2)).1.apply env (.append 5)).1 ∧ s.items = [2, 3, 5] ∧
    s.findGt env (some 3) = .ok 5 ∧ s.findLe env (some 4) = .ok 3 ∧ s.find env (some 2) = .ok 2 ∧ s.findGt env none = .error .typeError ∧ (s.append env 6).2 = .ok () :=
  ⟨_, .step (.append 5) (.step (.insert 2) (.step (.append 7) (.step (.append 9) reach0))), sorts, ranked, rfl, rfl, rfl, rfl, rfl, rfl, rfl, rfl, rfl⟩

/-- Meets C106 the other way: two items whose key is `None`; nothing can be added, until they are gone. -/
theorem C106_meets : ∃ s, new env [8, 7] (some key) (.ok none) = .ok s ∧ Reachable env s ∧ s.items = [7, 8] ∧ s.append env 1 = (s, .error .typeError) ∧
    s.insert env 1 = (s, .error .typeError) ∧ (((s.apply env (.drop 2)).1.apply env (.append 1)).1.apply env (.append 2)).1.items = [1, 2] :=
  ⟨_, rfl, .new (iterable := [8, 7]) (given := some key) (m := .ok none) rfl, rfl, rfl, rfl, rfl⟩

/-- **C104 refuted** `d.drop(3)` on two items raises `IndexError` and has dropped both. -/
theorem C104_refuted_drop : Reachable env d0 ∧ (d0.apply env (.drop 3)).2 = .error .indexError ∧ (d0.apply env (.drop 3)).1.items = [] ∧ d0.items = [1, 3] :=
  ⟨reach0, rfl, rfl, rfl⟩

/-- **C104 refuted** `d.maxlen = -1` raises `ValueError`; then `d.maxlen` is still 3, but the deque grows beyond that. -/
theorem C104_refuted_maxlen : Reachable env d0 ∧ (d0.apply env (.setMaxlen (.error .valueError))).2 = .error .valueError ∧
    ∃ s, Reachable env s ∧ s = (((d0.apply env (.setMaxlen (.error .valueError))).1.apply env (.append 4)).1.apply env (.append 5)).1 ∧
      s.maxlen = some 3 ∧ s.items = [1, 3, 4, 5] ∧ ((d0.apply env (.append 4)).1.apply env (.append 5)).1.items = [3, 4, 5] :=
  ⟨reach0, rfl, _, .step (.append 5) (.step (.append 4) (.step (.setMaxlen (.error .valueError)) reach0)), rfl, rfl, rfl, rfl⟩

/-- A key function that raises on 3. -/
def bad (v : Nat) : Py (Option Nat) := if v = 3 then .error .attributeError else .ok (some v)

/-- **C104 refuted** `d.key = bad` raises; then `copy.copy(d)` (or pickling and unpickling) raises, too, which it did not before. -/
theorem C104_refuted_key : Reachable env d0 ∧ (d0.apply env (.setKey bad)).2 = .error .attributeError ∧ d0.rebuilt env = .ok d0 ∧
    (d0.apply env (.setKey bad)).1.rebuilt env = .error .attributeError :=
  ⟨reach0, rfl, rfl, rfl⟩

/-- Meets C104: each of the four calls raises in some way (a key too small, a key that cannot be compared, a key function that raises, an item that is not
there, a full deque), and so do the assignment of a key function and a `drop`. -/
theorem C104_meets : (d0.append env 2).2 = .error .valueError ∧ (d0.insert env 7).2 = .error .typeError ∧ (d0.insertRight env 9).2 = .error .valueError ∧
    (d0.remove env 2).2 = .error .valueError ∧ (d0.remove env 7).2 = .error .typeError ∧ (d0.apply env (.setKey bad)).2 = .error .attributeError ∧
    ((d0.apply env (.append 5)).1.insert env 4).2 = .error .indexError ∧ (d0.apply env (.drop 3)).2 ≠ .ok () :=
  ⟨rfl, rfl, rfl, rfl, rfl, rfl, rfl, by decide⟩

end XDW

/-- **C104 refuted** for every deque that could be sorted anew: the assignment of an invalid bound raises, `maxlen` stays, and there is no bound any more. -/
theorem XD.C104_refuted_maxlen_always {K V : Type} {e : PyEnv K V} {s : XD K V} {d : List (K × V)} (hd : XD.decorated e s.key s.items = .ok d) (x : PyErr) :
    (s.apply e (.setMaxlen (.error x))).2 = .error x ∧ (s.apply e (.setMaxlen (.error x))).1.maxlen = s.maxlen ∧ (s.apply e (.setMaxlen (.error x))).1.cap = none ∧
    ∀ v, ((s.apply e (.setMaxlen (.error x))).1.append e v).2 = .ok () →
      ((s.apply e (.setMaxlen (.error x))).1.append e v).1.items = (s.apply e (.setMaxlen (.error x))).1.items ++ [v] := by
  have h : s.apply e (.setMaxlen (.error x)) =
      ({ s with given := some s.key, keys := d.map (·.1), items := d.map (·.2), key := s.key, cap := none }, .error x) := by
    simp [XD.apply, XD.init, hd]
  rw [h]
  refine ⟨rfl, rfl, rfl, fun v hv => ?_⟩
  simp only [XD.append] at hv ⊢
  split
  · rename_i y hy; simp [hy] at hv
  · rename_i k hk
    simp only [hk] at hv
    split
    · rfl
    · rename_i l hl
      simp only [hl] at hv
      split
      · rename_i y hy; simp [hy] at hv
      · rename_i hy; simp [hy] at hv
      · rfl

end S2P
