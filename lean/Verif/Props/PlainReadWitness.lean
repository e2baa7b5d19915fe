import Verif.Props.PlainRead
import Verif.Props.LoopWitness
/-
Concrete executions for C118, C119.
-/
namespace S2P
open Spec
namespace SB

/-- `reader.read()` of reader 0, session 0. -/
def rRead : A := .rd 0 (.call (.rd 0 (.read none none none none)))
/-- `reader.range(0, 9, only_new_items=True, ignore_no_item_found=True)`. -/
def rRange : A := .rd 0 (.call (.rd 0 (.range 0 9 none false (some true) true false false)))

/-- A `read()` before there is anything; `read()`, a peek, `read(n=2)` when there is one item more, `next(reader)`; one item stays unread. Another reader
does what it likes. -/
def wPlain : List A := wStart 7 ++ [rRead] ++ wItem 0 1 ++ [rRead, .rd 0 (.call (.rd 0 (.read none (some true) none none)))] ++ wItem 0 2 ++
  [.rd 0 (.call (.rd 0 (.read (some 2) none none none))), .rd 0 (.call (.rd 1 (.tail false false false)))] ++ wItem 0 3 ++
  [.rd 0 (.callNext 0), .rd 0 (.go 0)] ++ wItem 0 4

theorem onlyReads_of_check {cfg : Nat → Cfg} {i : Nat} {ops : List (ChOp Nat Nat)}
    (h : ops.all (fun | .rd j o => !(j == i) || consumes (cfg i) o || peeks (cfg i) o | _ => true) = true) : OnlyReads cfg i ops := by
  intro o ho
  have := List.all_eq_true.1 h _ ho
  simpa using this

theorem onlyNew_of_check {cfg : Nat → Cfg} {i : Nat} {ops : List (ChOp Nat Nat)}
    (h : ops.all (fun | .rd j o => !(j == i) || takesNew (cfg i) o || peeks (cfg i) o | _ => true) = true) : OnlyNew cfg i ops := by
  intro o ho
  have := List.all_eq_true.1 h _ ho
  simpa using this

/-- Meets C118: four items stored with room for four. -/
theorem C118_meets : ∃ (s : S) (c : Cons Nat Nat), SB.init.exec (mkCfg (some 4) true) wPlain = some s ∧ s.view 0 = some c ∧
    OnlyReads (mkCfg (some 4) true).rdCfg 0 c.ops ∧ storedIn 0 s.log = [1, 2, 3, 4] ∧ s.items 0 = [1, 2, 3, 4] ∧
    delivered (mkCfg (some 4) true).rdCfg 0 c.ops c.outs = [1, 2, 3] ∧ unreadOf c.ch 0 = [4] :=
  ⟨_, _, rfl, rfl, onlyReads_of_check rfl, rfl, rfl, rfl, rfl⟩

/-- Four items, polled with `range(0, 9, only_new_items=True, ignore_no_item_found=True)` and read with `read()`. -/
def wPolled : List A := wStart 7 ++ [rRange] ++ wItem 0 1 ++ wItem 0 2 ++ [rRange, rRange] ++ wItem 0 3 ++ [rRead] ++ wItem 0 4

/-- Checks, without looking at the keys, that a call leaves nothing out. -/
def takesAll (c : Cfg) : RdOp Nat Nat → Bool
  | .range start _ step peek _ onlyNew _ _ => start == 0 && step.isNone && !peek && onlyNew
  | .tail .. => false
  | o => consumes c o

theorem takesAll_skips {c : Cfg} (Q : Nat → Prop) (o : RdOp Nat Nat) (h : takesAll c o = true) : skipsNothing c Q o := by
  cases o with
  | range a _ st p _ n _ _ =>
    simp only [takesAll, Bool.and_eq_true, beq_iff_eq, Option.isNone_iff_eq_none, Bool.not_eq_true'] at h
    exact ⟨h.1.2, h.2, h.1.1.2, fun k _ => by omega⟩
  | tail => cases h
  | _ => exact h

theorem skips_of_check {cfg : Nat → Cfg} {i : Nat} {ops : List (ChOp Nat Nat)} (Q : Nat → Prop)
    (h : ops.all (fun | .rd j o => !(j == i) || takesAll (cfg i) o || peeks (cfg i) o | _ => true) = true) :
    ∀ o, .rd i o ∈ ops → skipsNothing (cfg i) Q o ∨ peeks (cfg i) o := by
  intro o ho
  have := List.all_eq_true.1 h _ ho
  simp only [BEq.rfl, Bool.not_true, Bool.false_or, Bool.or_eq_true] at this
  exact this.imp (takesAll_skips Q o) id

/-- Meets C119. -/
theorem C119_meets : ∃ (s : S) (c : Cons Nat Nat), SB.init.exec (mkCfg none true) wPolled = some s ∧ s.view 0 = some c ∧
    (∀ k, (mkCfg none true).keyNone ≠ .ok (some k)) ∧ OnlyNew (mkCfg none true).rdCfg 0 c.ops ∧
    (∀ o, .rd 0 o ∈ c.ops → skipsNothing ((mkCfg none true).rdCfg 0) (fun k => ∃ v ∈ storedIn 0 s.log, (mkCfg none true).key v = k) o ∨
      peeks ((mkCfg none true).rdCfg 0) o) ∧
    storedIn 0 s.log = [1, 2, 3, 4] ∧ s.items 0 = [1, 2, 3, 4] ∧
    newDelivered (mkCfg none true).rdCfg 0 c.ops c.outs = [1, 2, 3] ∧ unreadOf c.ch 0 = [4] := by
  have hk : ∀ k, (mkCfg none true).keyNone ≠ .ok (some k) := by intro k h; cases h
  exact ⟨_, _, rfl, rfl, hk, onlyNew_of_check rfl, skips_of_check _ rfl, rfl, rfl, rfl, rfl⟩

end SB
end S2P
