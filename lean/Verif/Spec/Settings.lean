import Verif.Spec.Window
/-
Vocabulary for C176: histories in which the attributes read_size, peek, ignore_no_item_found and strict_n of readers are assigned and looked up. Imports no model file.
-/
namespace S2P

/-- The public attributes of a reader that its constructor sets from the arguments of the same names. -/
inductive Setting where
  | readSize (n : Int)
  | peek (b : Bool)
  | ignoreNoItemFound (b : Bool)
  | strictN (b : Bool)

/-- A call on the buffer or a reader; an assignment to an attribute of reader `i`; a look at all four attributes of reader `i`. -/
inductive SetOp (K V : Type) where
  | call (op : ChOp K V)
  | assign (i : Nat) (a : Setting)
  | look (i : Nat)

/-- What a call answers; what is seen of the attributes. -/
inductive SetOut (V : Type) where
  | ret (r : Py (Ret V))
  | assigned
  | seen (c : Cfg)

namespace Spec
variable {K V : Type}

/-- The settings with the assigned one. -/
def assignTo (c : Cfg) : Setting → Cfg
  | .readSize n => { c with n := n }
  | .peek b => { c with peek := b }
  | .ignoreNoItemFound b => { c with ignore := b }
  | .strictN b => { c with strict := b }

/-- The calls of the history, without assignments and looks. -/
def onlyCalls : List (SetOp K V) → List (ChOp K V)
  | [] => []
  | .call op :: os => op :: onlyCalls os
  | _ :: os => onlyCalls os

/-- The answers to calls. -/
def callAnswers : List (SetOut V) → List (Py (Ret V))
  | [] => []
  | .ret r :: os => r :: callAnswers os
  | _ :: os => callAnswers os

/-- What the looks should see: what was assigned last, at first the arguments of the constructor. -/
def looks (cfg : Nat → Cfg) : List (SetOp K V) → List Cfg
  | [] => []
  | .call _ :: os => looks cfg os
  | .assign i a :: os => looks (fun j => if j = i then assignTo (cfg i) a else cfg j) os
  | .look i :: os => cfg i :: looks cfg os

/-- What the looks see. -/
def lookedAt : List (SetOut V) → List Cfg
  | [] => []
  | .seen c :: os => c :: lookedAt os
  | _ :: os => lookedAt os

/-- The semantics one may expect of the assignments: a reader that is assigned to answers as one that was made with these settings. Here for the reference of C11. -/
def expectedRun [LT K] [DecidableLT K] [LE K] [DecidableLE K] (key : V → K) (onNone : Py (Option K)) (maxlen : Option Nat) :
    (Nat → Cfg) → Window V → List (SetOp K V) → List (Py (Ret V))
  | _, _, [] => []
  | cfg, w, .call op :: os => (w.step key onNone maxlen cfg op).2 :: expectedRun key onNone maxlen cfg (w.step key onNone maxlen cfg op).1 os
  | cfg, w, .assign i a :: os => expectedRun key onNone maxlen (fun j => if j = i then assignTo (cfg i) a else cfg j) w os
  | cfg, w, .look _ :: os => expectedRun key onNone maxlen cfg w os

end Spec
end S2P
