import Verif.Spec.Sorted
import Verif.Api
/-
Reference semantics of a buffer with readers: the buffer is the plain list of retained items, oldest first; a reader is the
item it saw last. Every operation is a linear scan. Imports no model file.
-/
namespace S2P.Spec

section
variable {K V : Type} [LT K] [DecidableLT K] [LE K] [DecidableLE K]

/-- Retained items the reader has not passed yet. -/
def unread (key : V → K) (items : List V) : Option V → List V
  | .none => items
  | some c => items.filter (fun v => decide (key c < key v))

/-- `none` with `ignore`, `ValueError` without. -/
def noItem (ignore : Bool) : Py (Ret V) := if ignore then .ok .none else .error .valueError

/-- `read`: result of reading `n` items. (`strict` rejects already when exactly `n` items are unread, as the code does.) -/
def read (key : V → K) (items : List V) (cur : Option V) (n : Int) (ignore strict : Bool) : Py (Ret V) :=
  match unread key items cur with
  | [] => noItem ignore
  | v :: vs =>
    if n ≤ 1 then .ok (.one v)
    else if strict ∧ ((v :: vs).length : Int) ≤ n then .error .valueError
    else .ok (.many ((v :: vs).take n.toNat))

/-- Lower bound of `range(only_new_items=True)`: `onNone` is the key function's answer for `None`. -/
def lowerBound (key : V → K) (onNone : Py (Option K)) (items : List V) (cur : Option V) (start : K)
    (ignore onlyNew : Bool) : Py (Option K) :=
  if onlyNew = false ∨ cur.isNone then .ok (some start)
  else match unread key items cur with
    | v :: _ => .ok (some (if key v < start then start else key v))
    | [] =>
      if ignore = false then .error .valueError
      else match onNone with
        | .error .typeError => .ok .none
        | .error e => .error e
        | .ok .none => .error .typeError
        | .ok (some k) => .ok (some (if k < start then start else k))

/-- How `range` answers with the selected items `l`: an empty result is an error unless peeking. -/
def finish (peek ignore : Bool) (l : List V) : Py (Ret V) :=
  if l = [] ∧ peek = false then (if ignore then .ok .none else .error .indexError) else .ok (.many l)

/-- The same with a step: every `step`-th selected item; the step must be positive. -/
def answer (step : Option Int) (peek ignore : Bool) (sel : List V) : Py (Ret V) :=
  match step with
  | .none => finish peek ignore sel
  | some st => if st ≤ 0 then .error .valueError else finish peek ignore (stride st.toNat sel)

/-- `range`. -/
def range (key : V → K) (onNone : Py (Option K)) (items : List V) (cur : Option V) (start stop : K) (step : Option Int)
    (peek ignore onlyNew startLe stopGe : Bool) : Py (Ret V) :=
  match lowerBound key onNone items cur start ignore onlyNew with
  | .error e => .error e
  | .ok .none => .ok .none
  | .ok (some lo) =>
    -- with `startLe`: the greatest retained key at or below `lo`, if any
    let lo := if startLe then (match last (fun v => decide (key v ≤ lo)) items with | .ok v => key v | .error _ => lo) else lo
    -- with `stopGe`: the smallest retained key at or above `stop`, which must exist
    match (if stopGe then (first (fun v => decide (stop ≤ key v)) items).map key else .ok stop) with
    | .error _ => noItem ignore
    | .ok hi => answer step peek ignore (between key lo hi items)

/-- `tail`. -/
def tail (key : V → K) (items : List V) (cur : Option V) (ignore onlyNew : Bool) : Py (Ret V) :=
  match items.getLast? with
  | .none => if ignore then .ok .none else .error (if onlyNew then .valueError else .indexError)
  | some v =>
    match onlyNew, cur with
    | true, some c => if key c < key v then .ok (.one v) else noItem ignore
    | _, _ => .ok (.one v)

/-- `head`. -/
def head (items : List V) : Py (Ret V) :=
  match items.head? with
  | .none => .error .indexError
  | some v => .ok (.one v)

/-- Where the cursor is after a non-peeking call that gave `r`: on the last item handed out, else unchanged. -/
def cursorAfter (cur : Option V) : Py (Ret V) → Option V
  | .ok (.one v) => some v
  | .ok (.many vs) => match vs.getLast? with | some v => some v | .none => cur
  | _ => cur

/-- Keep the cursor when peeking. -/
def move (peek : Bool) (cur : Option V) (r : Py (Ret V)) : Option V := if peek then cur else cursorAfter cur r

/-- The outcome of a call on a reader with settings `cfg` that saw `cur` last, and its new last-seen item. -/
def rdStep (key : V → K) (onNone : Py (Option K)) (items : List V) (cfg : Cfg) (cur : Option V) :
    RdOp K V → Py (Ret V) × Option V
  | .read n peek ignore strict =>
    let r := read key items cur (n.getD cfg.n) (ignore.getD cfg.ignore) (strict.getD cfg.strict)
    (r, move (peek.getD false) cur r)
  | .nextMethod n peek ignore strict =>
    let r := read key items cur n ignore strict
    (r, move peek cur r)
  | .readForNext =>
    let r := read key items cur cfg.n true cfg.strict
    (r, move cfg.peek cur r)
  | .range start stop step peek ignore onlyNew startLe stopGe =>
    let r := range key onNone items cur start stop step peek (ignore.getD cfg.ignore) onlyNew startLe stopGe
    (r, move peek cur r)
  | .tail peek ignore onlyNew =>
    let r := tail key items cur ignore onlyNew
    (r, move peek cur r)
  | .head peek =>
    let r := head items
    (r, move peek cur r)
  | .setLast v => (.ok .none, some v)
  | .delLast => (.ok .none, .none)

/-- Retained items and last-seen items. -/
structure Window (V : Type) where
  items : List V
  cur : Nat → Option V

/-- One call on the reference. -/
def Window.step (key : V → K) (onNone : Py (Option K)) (maxlen : Option Nat) (cfg : Nat → Cfg) (w : Window V) :
    ChOp K V → Window V × Py (Ret V)
  | .append v =>
    if mayAppend key w.items v then ({ w with items := newest maxlen (w.items ++ [v]) }, .ok .none)
    else (w, .error .valueError)
  | .drop n =>
    ({ w with items := w.items.drop n.toNat }, if n ≤ w.items.length then .ok .none else .error .indexError)
  | .rd i op =>
    let (out, c) := rdStep key onNone w.items (cfg i) (w.cur i) op
    ({ w with cur := fun j => if j = i then c else w.cur j }, out)

/-- A whole history on the reference. -/
def Window.run (key : V → K) (onNone : Py (Option K)) (maxlen : Option Nat) (cfg : Nat → Cfg) :
    Window V → List (ChOp K V) → Window V × List (Py (Ret V))
  | w, [] => (w, [])
  | w, op :: ops =>
    let (w', out) := w.step key onNone maxlen cfg op
    let (w'', outs) := Window.run key onNone maxlen cfg w' ops
    (w'', out :: outs)

/-- The reference before anything happened. -/
def Window.init : Window V := ⟨[], fun _ => .none⟩

end
end S2P.Spec
