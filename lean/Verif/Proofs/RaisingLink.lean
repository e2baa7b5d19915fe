import Verif.Model.Raising
import Verif.Model.SortedDeque
import Verif.Proofs.Py
/-
The two models of the sorted deque (Model/SortedDeque.lean, Model/Raising.lean) agree where nothing raises: a total key function, comparisons that never
raise, valid bounds. So the results about the first one (C01-C10) are results about the second one in that case.
-/
namespace S2P
namespace XD
variable {K V : Type} [DecidableEq K] [LT K] [DecidableLT K] [BEq V] [LT V] [DecidableLT V]

/-- Comparisons that never raise; `sorted` is the stable sort. -/
def calmEnv (ident : V → K) : PyEnv K V where
  ltK a b := .ok (decide (a < b))
  eqK a b := .ok (decide (a = b))
  ltV a b := .ok (decide (a < b))
  eqV a b := .ok (a == b)
  ident v := .ok (ident v)
  sort l := .ok (pySorted tupleLt l)

/-- The tuples are compared in the same way. -/
theorem calm_tuple (ident : V → K) (a b : K × V) : (calmEnv ident).tupleLt a b = .ok (tupleLt a b) := by
  simp only [PyEnv.tupleLt, calmEnv, tupleLt, bind, Except.bind]
  by_cases h : a.1 = b.1 <;> simp [h]
  cases a.2 == b.2 <;> simp

/-- The same deque. -/
def Agrees (s : SD K V) (x : XD K V) : Prop :=
  x.keys = s.keys ∧ x.items = s.items ∧ x.maxlen = s.maxlen ∧ x.cap = s.maxlen ∧ x.key = fun v => .ok (s.key v)

theorem agrees_bisectL {s : SD K V} {x : XD K V} (ident : V → K) (h : Agrees s x) (k : K) : x.bisectL (calmEnv ident) k = bisectLeft s.keys (some k) := by
  unfold bisectL bisectLeft; rw [h.1]; rfl

theorem agrees_bisectR {s : SD K V} {x : XD K V} (ident : V → K) (h : Agrees s x) (k : K) : x.bisectR (calmEnv ident) k = bisectRight s.keys (some k) := by
  unfold bisectR bisectRight; rw [h.1]; rfl

theorem agrees_mapM (key : V → K) (l : List V) : (l.mapM fun v => do let k ← (Except.ok (key v) : Py K); pure (k, v)) = (.ok (l.map fun v => (key v, v)) : Py _) := by
  induction l with
  | nil => rfl
  | cons v l ih => rw [List.mapM_cons]; simp only [bind, Except.bind, pure, Except.pure] at ih ⊢; rw [ih]; rfl

theorem agrees_init (ident : V → K) (kn : Py (Option K)) (x : XD K V) (l : List V) (key : V → K) (given : Option (V → Py K))
    (hg : given.getD (calmEnv ident).ident = fun v => .ok (key v)) (m : Option Nat) :
    (x.init (calmEnv ident) l given (.ok m)).2 = .ok () ∧ Agrees (SD.new l key kn m) (x.init (calmEnv ident) l given (.ok m)).1 := by
  have : decorated (calmEnv ident) (given.getD (calmEnv ident).ident) l = .ok (pySorted tupleLt (l.map fun v => (key v, v))) := by
    unfold decorated
    rw [hg]
    have := agrees_mapM key l
    simp only [bind, Except.bind, pure, Except.pure] at this ⊢; rw [this]; rfl
  simp only [init, this]
  exact ⟨trivial, rfl, rfl, rfl, rfl, hg⟩

theorem agrees_insertAt {s : SD K V} {x : XD K V} (h : Agrees s x) (i : Nat) (v : V) :
    (x.insertAt i (s.key v) v).2 = (s.insertAt i v).2 ∧ Agrees (s.insertAt i v).1 (x.insertAt i (s.key v) v).1 := by
  obtain ⟨h1, h2, h3, h4, h5⟩ := h
  unfold insertAt SD.insertAt
  rw [h1, h2, h4]
  cases dqInsert s.maxlen s.keys i (s.key v) with
  | error e => exact ⟨rfl, h1, h2, h3, h4, h5⟩
  | ok ks =>
    cases dqInsert s.maxlen s.items i v with
    | error e => exact ⟨rfl, rfl, rfl, h3, rfl, h5⟩
    | ok is => exact ⟨rfl, rfl, rfl, h3, rfl, h5⟩

theorem agrees_search (ident : V → K) (v : V) : ∀ (l : List V) (i : Nat),
    search (calmEnv ident) v i l = match l.findIdx? (· == v) with | some j => .ok (j + i) | none => .error .valueError := by
  intro l
  induction l with
  | nil => intro i; rfl
  | cons w l ih =>
    intro i
    simp only [search, bind, Except.bind, calmEnv]
    cases hw : w == v with
    | true => simp [List.findIdx?_cons, hw]
    | false =>
      have ih' := ih (i + 1)
      simp only [calmEnv] at ih'
      simp [hw, List.findIdx?_cons, ih']
      cases l.findIdx? (· == v) with
      | none => rfl
      | some j => simp; omega

theorem agrees_index {s : SD K V} {x : XD K V} (ident : V → K) (h : Agrees s x) (v : V) : x.index (calmEnv ident) v = s.index v := by
  simp only [index, SD.index, h.2.2.2.2, bind, Except.bind, agrees_bisectL ident h, agrees_bisectR ident h, h.2.1]
  cases bisectLeft s.keys (some (s.key v)) with
  | error e => rfl
  | ok i =>
    cases bisectRight s.keys (some (s.key v)) with
    | error e => rfl
    | ok j => exact agrees_search ident v _ _

theorem agrees_dropLoop : ∀ (n : Nat) {s : SD K V} {x : XD K V}, Agrees s x → (dropLoop n x).2 = (SD.dropLoop n s).2 ∧ Agrees (SD.dropLoop n s).1 (dropLoop n x).1 := by
  intro n
  induction n with
  | zero => intro s x h; exact ⟨rfl, h⟩
  | succ n ih =>
    rintro s x ⟨h1, h2, h3, h4, h5⟩
    unfold dropLoop SD.dropLoop
    rw [h1, h2]
    cases dqDel s.keys 0 with
    | error e => exact ⟨rfl, h1, h2, h3, h4, h5⟩
    | ok ks =>
      cases dqDel s.items 0 with
      | error e => exact ⟨rfl, rfl, rfl, h3, h4, h5⟩
      | ok is => exact ih ⟨rfl, rfl, h3, h4, h5⟩

/-- The calls of the first model, as calls of the second one. -/
def ofOp : SD.Op K V → Option (Op K V)
  | .append v => some (.append v) | .insert v => some (.insert v) | .insertRight v => some (.insertRight v) | .remove v => some (.remove v)
  | .drop n => some (.drop n) | .clear => some .clear | .setMaxlen m => some (.setMaxlen (.ok m))
  | .setKey f _ => some (.setKey fun v => .ok (f v)) | .delKey _ _ => some .delKey
  | .copy | .roundTrip => none

/-- **Link** One call in both models: the same outcome, the same deque. (`ident`: the identity key, which `del d.key` goes back to. The assignment of a bound
that is the same object as the old one does nothing in either.) -/
theorem models_agree (ident : V → K) {s : SD K V} {x : XD K V} (h : Agrees s x) (op : SD.Op K V) (y : Op K V) (hy : ofOp op = some y)
    (hi : ∀ f kn, op = .delKey f kn → f = ident) (hm : ∀ m, op = .setMaxlen m → m ≠ s.maxlen) :
    (x.apply (calmEnv ident) y).2 = (s.apply op).2 ∧ Agrees (s.apply op).1 (x.apply (calmEnv ident) y).1 := by
  have h' := h
  obtain ⟨h1, h2, h3, h4, h5⟩ := h'
  cases op with
  | append v =>
    cases hy
    simp only [apply, SD.apply, append, SD.append, h5, h1, h2, h4, dqLast_eq]
    cases hl : s.keys.getLast? with
    | none =>
      have : s.keys = [] := by simpa using hl
      simp [this]; exact ⟨rfl, rfl, h3, rfl, rfl⟩
    | some l =>
      by_cases hlt : l < s.key v
      · simp [calmEnv, hlt]; exact ⟨rfl, rfl, h3, rfl, rfl⟩
      · simp [calmEnv, hlt]; exact h
  | insert v =>
    cases hy
    simp only [apply, SD.apply, insert, SD.insert, h5, agrees_bisectL ident h]
    cases bisectLeft s.keys (some (s.key v)) with
    | error e => exact ⟨rfl, h⟩
    | ok i => exact agrees_insertAt h i v
  | insertRight v =>
    cases hy
    simp only [apply, SD.apply, insertRight, SD.insertRight, h5, agrees_bisectR ident h]
    cases bisectRight s.keys (some (s.key v)) with
    | error e => exact ⟨rfl, h⟩
    | ok i => exact agrees_insertAt h i v
  | remove v =>
    cases hy
    simp only [apply, SD.apply, remove, SD.remove, agrees_index ident h]
    cases s.index v with
    | error e => exact ⟨rfl, h⟩
    | ok i =>
      simp only [h1, h2]
      cases dqDel s.keys i with
      | error e => exact ⟨rfl, h⟩
      | ok ks =>
        cases dqDel s.items i with
        | error e => exact ⟨rfl, rfl, rfl, h3, h4, h5⟩
        | ok is => exact ⟨rfl, rfl, rfl, h3, h4, h5⟩
  | drop n => cases hy; exact agrees_dropLoop _ h
  | clear =>
    cases hy
    have := agrees_init ident s.keyNone x [] s.key (some x.key) (by simp [h5]) x.maxlen
    rw [h3] at this
    simp only [apply, SD.apply, SD.clear, h3]
    exact this
  | setMaxlen m =>
    cases hy
    have := agrees_init ident s.keyNone x x.items s.key (some x.key) (by simp [h5]) m
    rw [h2] at this
    simp only [apply, SD.apply, SD.setMaxlen, h2, if_pos (hm m rfl)]
    exact this
  | setKey f kn =>
    cases hy
    have := agrees_init ident kn x x.items f (some fun v => .ok (f v)) rfl none
    rw [h2] at this
    simp only [apply, SD.apply, SD.setKey, h2]
    exact this
  | delKey f kn =>
    cases hy
    have hf := hi f kn rfl
    subst hf
    have := agrees_init f kn x x.items f none rfl x.maxlen
    rw [h2, h3] at this
    simp only [apply, SD.apply, SD.delKey, h2, h3]
    exact this
  | copy => cases hy
  | roundTrip => cases hy

end XD
end S2P
