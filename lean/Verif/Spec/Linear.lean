/-
Linearizability (Herlihy and Wing): what it means for the calls of concurrent threads to behave as if each took effect at one moment between its
invocation and its return. Imports no model file.
-/
namespace S2P.Spec

/-- Invocation of call number `id`; return of call number `id` with result `r`. -/
inductive HEv (C R : Type) where
  | inv (id : Nat) (c : C)
  | ret (id : Nat) (r : R)

variable {C R : Type}

/-- In the history, call `a` has returned before call `b` is invoked. -/
def Precedes (h : List (HEv C R)) (a b : Nat) : Prop := ∃ h1 h2 h3 r c, h = h1 ++ HEv.ret a r :: h2 ++ HEv.inv b c :: h3

/-- Of two calls that satisfy `on`, the one made first has returned before the other is made. -/
def NonOverlapping (on : C → Prop) (h : List (HEv C R)) : Prop :=
  ∀ h1 h2 h3 a c b c', h = h1 ++ HEv.inv a c :: h2 ++ HEv.inv b c' :: h3 → on c → on c' → ∃ r, HEv.ret a r ∈ h2

/-- `S` puts calls of the history `h` in a sequential order, with results: the order is a sequential execution (`legal`), contains each call at most
once and only invoked ones, contains every call that has returned, with the result it returned, and keeps the order of calls of which
one returned before the other was invoked. -/
structure Linearizes (legal : List (C × R) → Prop) (h : List (HEv C R)) (S : List (Nat × C × R)) : Prop where
  legal : legal (S.map (·.2))
  once : (S.map (·.1)).Nodup
  invoked : ∀ x ∈ S, HEv.inv x.1 x.2.1 ∈ h
  returned : ∀ id r, HEv.ret id r ∈ h → ∃ c, (id, c, r) ∈ S
  order : S.Pairwise fun x y => ¬ Precedes h y.1 x.1

end S2P.Spec
