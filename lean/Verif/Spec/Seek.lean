import Verif.Spec.Deliver
/-
Vocabulary for moving a reader's cursor. Imports no model file.
-/
namespace S2P.Spec
variable {K V : Type}

/-- The calls that may move the cursor: everything that does not peek. -/
def movesCursor (cfg : Cfg) (o : RdOp K V) : Bool := !peeks cfg o

/-- The same history with reader `j` making the calls of reader `i`. -/
def takeOver (i j : Nat) : ChOp K V → ChOp K V
  | .rd k o => if k = i then .rd j o else .rd k o
  | op => op

end S2P.Spec
