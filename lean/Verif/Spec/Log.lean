import Verif.Spec.Sorted
import Verif.Api
/-
Reference semantics by position: all items ever accepted in one append-only log, the number of items that left the buffer, and for
every reader the position after the item it saw last. No keys are involved. Imports no model file.
-/
namespace S2P.Spec
variable {K V : Type}

/-- `log`: everything ever accepted; `evicted`: how many of them left the buffer (oldest first); `pos i`: position of
reader `i`, i.e. one more than the position of the item it saw last (0 if it saw none). -/
structure Log (V : Type) where
  log : List V
  evicted : Nat
  pos : Nat → Nat

namespace Log

/-- Next position reader `i` reads from: its own, or the oldest retained item if it has been overtaken. -/
def at_ (l : Log V) (i : Nat) : Nat := max l.evicted (l.pos i)

/-- Outcome of reading `n` items for reader `i`, and how many are handed out. -/
def read (l : Log V) (i : Nat) (n : Int) (ignore strict : Bool) : Py (Ret V) × Nat :=
  let avail := l.log.length - l.at_ i
  match l.log[l.at_ i]? with
  | none => (if ignore then .ok .none else .error .valueError, 0)
  | some v =>
    if n ≤ 1 then (.ok (.one v), 1)
    else if strict ∧ (avail : Int) ≤ n then (.error .valueError, 0)
    else (.ok (.many ((l.log.drop (l.at_ i)).take n.toNat)), min avail n.toNat)

/-- Move reader `i` to position `p`. -/
def goto (l : Log V) (i p : Nat) : Log V := { l with pos := fun j => if j = i then p else l.pos j }

/-- A reader call. `none` for the calls this reference does not describe (`range`, assigning `last_item`). -/
def rdStep (cfg : Cfg) (l : Log V) (i : Nat) : RdOp K V → Option (Log V × Py (Ret V))
  | .read n peek ignore strict =>
    let (out, k) := l.read i (n.getD cfg.n) (ignore.getD cfg.ignore) (strict.getD cfg.strict)
    some (if peek.getD false ∨ k = 0 then l else l.goto i (l.at_ i + k), out)
  | .nextMethod n peek ignore strict =>
    let (out, k) := l.read i n ignore strict
    some (if peek ∨ k = 0 then l else l.goto i (l.at_ i + k), out)
  | .readForNext =>
    let (out, k) := l.read i cfg.n true cfg.strict
    some (if cfg.peek ∨ k = 0 then l else l.goto i (l.at_ i + k), out)
  | .head peek =>
    match l.log[l.evicted]? with
    | none => some (l, .error .indexError)
    | some v => some (if peek then l else l.goto i (l.evicted + 1), .ok (.one v))
  | .tail peek ignore onlyNew =>
    match (l.log.drop l.evicted).getLast? with
    | none => some (l, if ignore then .ok .none else .error (if onlyNew then .valueError else .indexError))
    | some v =>
      if onlyNew ∧ l.pos i = l.log.length then some (l, if ignore then .ok .none else .error .valueError)
      else some (if peek then l else l.goto i l.log.length, .ok (.one v))
  | .delLast => some (l.goto i 0, .ok .none)
  | .range .. => none
  | .setLast _ => none

/-- One call. -/
def step (maxlen : Option Nat) (cfg : Nat → Cfg) (l : Log V) : ChOp K V → Option (Log V × Py (Ret V))
  | .append v => some ({ l with
      log := l.log ++ [v]
      evicted := match maxlen with
        | none => l.evicted
        | some m => max l.evicted (l.log.length + 1 - m) }, .ok .none)
  | .drop n => some ({ l with evicted := min l.log.length (l.evicted + n.toNat) },
      if n ≤ (l.log.length - l.evicted : Nat) then .ok .none else .error .indexError)
  | .rd i op => l.rdStep (cfg i) i op

/-- A history; `none` if it contains a call outside this reference. -/
def run (maxlen : Option Nat) (cfg : Nat → Cfg) : Log V → List (ChOp K V) → Option (Log V × List (Py (Ret V)))
  | l, [] => some (l, [])
  | l, op :: ops =>
    match l.step maxlen cfg op with
    | none => none
    | some (l', out) =>
      match run maxlen cfg l' ops with
      | none => none
      | some (l'', outs) => some (l'', out :: outs)

/-- Nothing happened yet. -/
def init : Log V := ⟨[], 0, fun _ => 0⟩

end Log
end S2P.Spec
