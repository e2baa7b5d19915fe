import Verif.Spec.Window
import Verif.Spec.Deliver
/-
Vocabulary for histories of a session buffer whose items change while they are in it. An item is an object; what it contains, and so its key, may change.
Imports no model file.
-/
namespace S2P

/-- What happens: objects change, so that the key function now gives other keys and `==` other answers; or a call is made on the buffer or a reader. -/
inductive Happening (K V : Type) where
  | change (key : V → K) (eq : V → V → Bool)
  | call (op : ChOp K V)

/-- `Ret` with the items mapped. -/
def Ret.map {V W : Type} (f : V → W) : Ret V → Ret W
  | .none => .none
  | .one v => .one (f v)
  | .many vs => .many (vs.map f)

namespace Spec
variable {K V : Type}

/-- The calls made. -/
def callsOf : List (Happening K V) → List (ChOp K V)
  | [] => []
  | .change _ _ :: hs => callsOf hs
  | .call op :: hs => op :: callsOf hs

/-- The key function in the end, if it was `key` at first. -/
def keyAfter (key : V → K) : List (Happening K V) → V → K
  | [] => key
  | .change k _ :: hs => keyAfter k hs
  | .call _ :: hs => keyAfter key hs

/-- `read`, `next` with whatever arguments; the same call on a reader of notes, where a note is an item together with the key it had when it was stored. -/
def asNoted : RdOp K V → Option (RdOp K (K × V))
  | .read n p i s => some (.read n p i s)
  | .nextMethod n p i s => some (.nextMethod n p i s)
  | .readForNext => some .readForNext
  | _ => none

/-- The history of the buffer and of reader `i` as one of notes, which do not change: an item is stored with the key it has at that moment. -/
def noted (i : Nat) (key : V → K) : List (Happening K V) → List (ChOp K (K × V))
  | [] => []
  | .change k _ :: hs => noted i k hs
  | .call (.append v) :: hs => .append (key v, v) :: noted i key hs
  | .call (.drop n) :: hs => .drop n :: noted i key hs
  | .call (.rd j op) :: hs =>
    if j = i then match asNoted op with | some op' => .rd i op' :: noted i key hs | none => noted i key hs
    else noted i key hs

/-- The outcome with the notes replaced by their items. -/
def plain (r : Py (Ret (K × V))) : Py (Ret V) := r.map (Ret.map Prod.snd)

section
variable [LT K] [DecidableLT K] [LE K] [DecidableLE K]

/-- The notes and the cursor of reader `i` after a history, by the reference semantics. -/
def notesAfter (i : Nat) (key : V → K) (maxlen : Option Nat) (cfg : Nat → Cfg) (hs : List (Happening K V)) : Window (K × V) :=
  (Window.run (fun n : K × V => n.1) (.error .typeError) maxlen cfg Window.init (noted i key hs)).1

/-- Whenever reader `i` reads, the items that it has not read yet have the keys they were stored with. (They may have changed otherwise; items that it has
read may have changed in every way.) -/
def UnreadKept (i : Nat) (key : V → K) (maxlen : Option Nat) (cfg : Nat → Cfg) (hs : List (Happening K V)) : Prop :=
  ∀ hs1 op hs2, hs = hs1 ++ .call (.rd i op) :: hs2 →
    ∀ n ∈ unread (fun n : K × V => n.1) (notesAfter i key maxlen cfg hs1).items ((notesAfter i key maxlen cfg hs1).cur i), keyAfter key hs1 n.2 = n.1

/-- The exact answer of `read` of `n` items when items have changed. `cur`: the key the item read last had when it was read, and the item. The first
unread note is found by the keys of storing; but with `n` above 1, its place is looked up by the key its item has now. -/
def agedRead [DecidableEq K] (key : V → K) (eq : V → V → Bool) (notes : List (K × V)) (cur : Option (K × V)) (n : Int) (ignore strict : Bool) :
    Py (Ret (K × V)) :=
  match unread (fun n : K × V => n.1) notes cur with
  | [] => noItem ignore
  | x :: _ =>
    if n ≤ 1 then .ok (.one x)
    else match notes.findIdx? (fun m => decide (m.1 = key x.2) && eq m.2 x.2) with
      | none => .error .valueError
      | some j => if strict = true ∧ (notes.length : Int) ≤ j + n then .error .valueError else .ok (.many ((notes.drop j).take n.toNat))

/-- The cursor after a read that gave `r`: the last item handed out, with the key it has now. -/
def agedMove (key : V → K) (peek : Bool) (cur : Option (K × V)) (r : Py (Ret (K × V))) : Option (K × V) :=
  if peek then cur else match r with
    | .ok (.one x) => some (key x.2, x.2)
    | .ok (.many xs) => match xs.getLast? with | some x => some (key x.2, x.2) | none => cur
    | _ => cur

/-- With settings `c`, what a call reads: how many items, peeking or not, ignoring emptiness or not, strictly or not. -/
def readArgs (c : Cfg) : RdOp K V → Option (Int × Bool × Bool × Bool)
  | .read n p i s => some (n.getD c.n, p.getD false, i.getD c.ignore, s.getD c.strict)
  | .nextMethod n p i s => some (n, p, i, s)
  | .readForNext => some (c.n, c.peek, true, c.strict)
  | _ => none

/-- A buffer as notes, the key function and `==` as the items are at present, and the cursor of one reader. -/
structure AgedWin (K V : Type) where
  notes : List (K × V)
  key : V → K
  eq : V → V → Bool
  cur : Option (K × V)

/-- What happens, for the buffer and reader `i`: the new state and the outcome, if it is a call on the buffer or a read by reader `i`. -/
def AgedWin.step [DecidableEq K] (i : Nat) (maxlen : Option Nat) (c : Cfg) (w : AgedWin K V) : Happening K V → AgedWin K V × List (Py (Ret (K × V)))
  | .change k e => ({ w with key := k, eq := e }, [])
  | .call (.append v) =>
    if mayAppend (fun n : K × V => n.1) w.notes (w.key v, v) then ({ w with notes := newest maxlen (w.notes ++ [(w.key v, v)]) }, [.ok .none])
    else (w, [.error .valueError])
  | .call (.drop n) => ({ w with notes := w.notes.drop n.toNat }, [if n ≤ w.notes.length then .ok .none else .error .indexError])
  | .call (.rd j op) =>
    if j = i then match readArgs c op with
      | none => (w, [])
      | some (n, peek, ignore, strict) =>
        ({ w with cur := agedMove w.key peek w.cur (agedRead w.key w.eq w.notes w.cur n ignore strict) }, [agedRead w.key w.eq w.notes w.cur n ignore strict])
    else (w, [])

/-- A history. -/
def AgedWin.run [DecidableEq K] (i : Nat) (maxlen : Option Nat) (c : Cfg) (w : AgedWin K V) : List (Happening K V) → AgedWin K V × List (Py (Ret (K × V)))
  | [] => (w, [])
  | h :: hs => ((AgedWin.run i maxlen c (w.step i maxlen c h).1 hs).1, (w.step i maxlen c h).2 ++ (AgedWin.run i maxlen c (w.step i maxlen c h).1 hs).2)

end
end Spec
end S2P
