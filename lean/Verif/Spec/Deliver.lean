import Verif.Api
/-
Vocabulary for histories: what was appended, what a reader was handed. Imports no model file.
-/
namespace S2P.Spec
variable {K V : Type}

/-- The items of an outcome; none for an exception. -/
def outItems (r : Py (Ret V)) : List V := match r with | .ok x => x.items | .error _ => []

/-- The non-peeking `read` / `next` calls. (`read` with `peek` left unspecified does consume, whatever the settings: C16.) -/
def consumes (cfg : Cfg) : RdOp K V → Bool
  | .read _ peek _ _ => !peek.getD false
  | .nextMethod _ peek _ _ => !peek
  | .readForNext => !cfg.peek
  | _ => false

/-- The calls that only peek. -/
def peeks (cfg : Cfg) : RdOp K V → Bool
  | .read _ peek _ _ => peek.getD false
  | .nextMethod _ peek _ _ => peek
  | .readForNext => cfg.peek
  | .range _ _ _ peek _ _ _ _ => peek
  | .tail peek _ _ => peek
  | .head peek => peek
  | _ => false

/-- Reader `i` only reads (consuming or peeking): it does not jump with `range`, `head`, `tail` or `last_item = ...`. -/
def OnlyReads (cfg : Nat → Cfg) (i : Nat) (ops : List (ChOp K V)) : Prop :=
  ∀ o, .rd i o ∈ ops → consumes (cfg i) o ∨ peeks (cfg i) o

/-- What one call hands to reader `i`. -/
def handed (cfg : Nat → Cfg) (i : Nat) (op : ChOp K V) (out : Py (Ret V)) : List V :=
  match op with
  | .rd j o => if j = i ∧ consumes (cfg i) o then outItems out else []
  | _ => []

/-- Everything handed to reader `i` by its consuming calls, in order, given the calls and their outcomes. -/
def delivered (cfg : Nat → Cfg) (i : Nat) : List (ChOp K V) → List (Py (Ret V)) → List V
  | op :: ops, out :: outs => handed cfg i op out ++ delivered cfg i ops outs
  | _, _ => []

/-- The items a history appends, in order. -/
def appended : List (ChOp K V) → List V
  | [] => []
  | .append v :: ops => v :: appended ops
  | _ :: ops => appended ops

/-- What one call added to the buffer: the item of an `append` that did not raise. -/
def taken (op : ChOp K V) (out : Py (Ret V)) : List V :=
  match op, out with
  | .append v, .ok _ => [v]
  | _, _ => []

/-- The items whose `append` did not raise, in order, given the calls and their outcomes. -/
def takenAll : List (ChOp K V) → List (Py (Ret V)) → List V
  | op :: ops, out :: outs => taken op out ++ takenAll ops outs
  | _, _ => []

/-- Keep only the calls on the buffer and on the readers selected by `keep`. -/
def restrict (keep : Nat → Bool) : List (ChOp K V) → List (ChOp K V)
  | [] => []
  | .rd j o :: ops => if keep j then .rd j o :: restrict keep ops else restrict keep ops
  | op :: ops => op :: restrict keep ops

/-- Keep only the outcomes of those calls. -/
def restrictOuts (keep : Nat → Bool) : List (ChOp K V) → List (Py (Ret V)) → List (Py (Ret V))
  | .rd j _ :: ops, out :: outs => if keep j then out :: restrictOuts keep ops outs else restrictOuts keep ops outs
  | _ :: ops, out :: outs => out :: restrictOuts keep ops outs
  | _, _ => []

end S2P.Spec
