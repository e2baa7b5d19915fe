import Verif.Spec.Deliver
/-
Vocabulary for readers that also use `range` and `tail` with `only_new_items=True`. Imports no model file.
-/
namespace S2P.Spec
variable {K V : Type}

/-- The non-peeking calls that ask for new items: `read`, `next`, and `range` / `tail` with `only_new_items=True`. -/
def takesNew (cfg : Cfg) : RdOp K V → Bool
  | .range _ _ _ peek _ onlyNew _ _ => !peek && onlyNew
  | .tail peek _ onlyNew => !peek && onlyNew
  | o => consumes cfg o

/-- Reader `i` only asks for new items, or peeks. -/
def OnlyNew (cfg : Nat → Cfg) (i : Nat) (ops : List (ChOp K V)) : Prop :=
  ∀ o, .rd i o ∈ ops → takesNew (cfg i) o ∨ peeks (cfg i) o

/-- What one such call hands to reader `i`. -/
def newHanded (cfg : Nat → Cfg) (i : Nat) (op : ChOp K V) (out : Py (Ret V)) : List V :=
  match op with
  | .rd j o => if j = i ∧ takesNew (cfg i) o then outItems out else []
  | _ => []

/-- Everything handed to reader `i` by such calls, in order. -/
def newDelivered (cfg : Nat → Cfg) (i : Nat) : List (ChOp K V) → List (Py (Ret V)) → List V
  | op :: ops, out :: outs => newHanded cfg i op out ++ newDelivered cfg i ops outs
  | _, _ => []

/-- The calls that leave nothing out: `read`, `next`, and `range(start, stop, only_new_items=True)` without step and with `start` at or below every key. -/
def skipsNothing [LE K] (cfg : Cfg) (all : K → Prop) : RdOp K V → Prop
  | .range start _ step peek _ onlyNew _ _ => peek = false ∧ onlyNew = true ∧ step = none ∧ ∀ k, all k → start ≤ k
  | .tail .. => False
  | o => consumes cfg o

end S2P.Spec
