import Verif.Py
/- The calls a sorted container makes of its user's code: key functions and comparisons. Imports no model file. -/
namespace S2P

/-- One call of user code: `a < b` on keys (or `b > a`, the same question), `a == b` on keys, `a == b` on items, `key(v)`. -/
inductive UCall (K V : Type) where
  | lt (a b : K)
  | eqK (a b : K)
  | eqV (a b : V)
  | key (v : V)
  deriving DecidableEq, Repr

namespace Spec
variable {K V : Type}

/-- The comparisons of keys by order / of keys for equality / of items for equality, among some calls: how many. -/
def orderings (l : List (UCall K V)) : Nat := l.countP fun | .lt _ _ => true | _ => false
def keyTests (l : List (UCall K V)) : Nat := l.countP fun | .eqK _ _ => true | _ => false
def itemTests (l : List (UCall K V)) : Nat := l.countP fun | .eqV _ _ => true | _ => false

/-- The items the key function was called with, in order. -/
def keyed (l : List (UCall K V)) : List V := l.filterMap fun | .key v => some v | _ => none

/-- The items that were compared with `v`, in order (all of them, if `v` is the only item compared with). -/
def tested (l : List (UCall K V)) : List V := l.filterMap fun | .eqV w _ => some w | _ => none

/-- Those of some items that have the key `k`. -/
def tied [DecidableEq K] (key : V → Py K) (k : K) (items : List V) : List V := items.filter fun w => match key w with | .ok x => decide (x = k) | .error _ => false

end Spec
end S2P
