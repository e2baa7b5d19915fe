import Verif.Spec.NotedReader
/-
Vocabulary for C175: every call of a history as one on notes. Imports no model file.
-/
namespace S2P
namespace Spec
variable {K V : Type}

/-- The call on a reader of notes; an item that is assigned to `last_item` is noted with the key it has at that moment. -/
def noteOp (key : V → K) : RdOp K V → RdOp K (K × V)
  | .read n p i s => .read n p i s
  | .nextMethod n p i s => .nextMethod n p i s
  | .readForNext => .readForNext
  | .range a b st p i o le ge => .range a b st p i o le ge
  | .tail p i o => .tail p i o
  | .head p => .head p
  | .setLast v => .setLast (key v, v)
  | .delLast => .delLast

/-- The history as one of notes, which do not change: an item is stored with the key it has at that moment. -/
def notedAll (key : V → K) : List (Happening K V) → List (ChOp K (K × V))
  | [] => []
  | .change k _ :: hs => notedAll k hs
  | .call (.append v) :: hs => .append (key v, v) :: notedAll key hs
  | .call (.drop n) :: hs => .drop n :: notedAll key hs
  | .call (.rd i op) :: hs => .rd i (noteOp key op) :: notedAll key hs

section
variable [LT K] [DecidableLT K] [LE K] [DecidableLE K]

/-- Whenever a call is made on a reader, the items in the buffer have the keys they were stored with. (They may have changed otherwise, and may have had
other keys in between; items that are not in the buffer any more may have changed in every way.) -/
def RetainedKept (key : V → K) (kn : Py (Option K)) (maxlen : Option Nat) (cfg : Nat → Cfg) (hs : List (Happening K V)) : Prop :=
  ∀ hs1 i op hs2, hs = hs1 ++ .call (.rd i op) :: hs2 →
    ∀ n ∈ (Window.run (fun n : K × V => n.1) kn maxlen cfg Window.init (notedAll key hs1)).1.items, keyAfter key hs1 n.2 = n.1

end
end Spec
end S2P
