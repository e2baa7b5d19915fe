import Verif.Props.HttpWitness
import Verif.Props.Broken
/- Concrete executions for C110 and C111. -/
namespace S2P
open Spec
namespace HttpSrc

/-- The connection breaks after two pieces of three. -/
def torn : Web Nat Nat := { responses := fun _ => .ok [.ok [4], .ok [5, 6], .error .runtimeError, .ok [7]], clock := fun n => n }

/-- A session that ends with the connection, a consumer that has got the first piece, and a second session. -/
def tFlow : List A := hStart ++ hItem 0 ++ [.other (.rd 0 (.callNext 0)), .other (.rd 0 (.go 0))] ++ hItem 0 ++
  [.other (.thr 0), .other (.thr 0), .read 0] ++ hEnd 0 ++ hStart ++ hItem 1

theorem tOne : ∀ a, .other a ∈ tFlow → SB.OneUser 0 0 a := by
  intro a ha
  simp only [tFlow, hStart, hItem, hEnd, go, List.cons_append, List.nil_append, List.mem_cons, List.not_mem_nil, ObjAct.other.injEq, reduceCtorEq,
    or_false, false_or] at ha
  repeat' first | (rcases ha with h | ha; rw [h]; first | trivial | (intro _; trivial)) | (rw [ha]; first | trivial | (intro _; trivial))

theorem C111_meets : ∃ (s : S) (c : Cons (Nat ×ₗ List Nat) (Nat × List Nat)),
    (ObjSB.init new).exec (http torn bytes) (hCfg none) tFlow = some s ∧ (ObjSB.init new : S).Calm (http torn bytes) (hCfg none) tFlow ∧ Ticks torn ∧
    (∀ a, .other a ∈ tFlow → SB.OneUser 0 0 a) ∧ Ev.launched 0 ∈ s.sb.log ∧ s.sb.view 0 = some c ∧
    received c 0 = [(0, [4])] ∧ unreadOf c.ch 0 = [(1, [5, 6])] ∧ Ev.readRaised 0 .runtimeError ∈ s.sb.log ∧
    (List.range 2).map (outcome bytes [.ok [4], .ok [5, 6], .error .runtimeError, .ok [7]]) = [.ok [4], .ok [5, 6]] ∧
    outcome bytes [.ok [4], .ok [5, 6], .error .runtimeError, .ok [7]] 2 = .error .runtimeError ∧ storedIn 1 s.sb.log = [(2, [4])] :=
  ⟨_, _, rfl, calm_of_check _ _ SB.Inv.init rfl, fun n => Nat.lt_succ_self n, tOne, by decide, rfl, rfl, rfl, by decide, rfl, rfl, rfl⟩

/-- The same with `auto_drop=False` and room for two pieces. -/
def nCfg : SBCfg (Nat ×ₗ List Nat) (Nat × List Nat) := { hCfg (some 2) with autoDrop := false }

/-- With `auto_drop=False` a thread looks at the length of its buffer before it reads. -/
def nItem (t : Nat) : List A := .other (.thr t) :: hItem t

theorem C111_meets_no_auto_drop : ∃ (s : S) (c : Cons (Nat ×ₗ List Nat) (Nat × List Nat)),
    (ObjSB.init new).exec (http torn bytes) nCfg (hStart ++ nItem 0 ++ nItem 0 ++ [.other (.thr 0), .other (.thr 0), .other (.thr 0)]) = some s ∧
    (ObjSB.init new : S).Calm (http torn bytes) nCfg (hStart ++ nItem 0 ++ nItem 0 ++ [.other (.thr 0), .other (.thr 0), .other (.thr 0)]) ∧
    droppedFrom 0 s.sb.log = [] ∧ s.sb.view 0 = some c ∧ unreadOf c.ch 0 = [(0, [4]), (1, [5, 6])] ∧ s.sb.thr 0 ≠ .reading :=
  ⟨_, _, rfl, calm_of_check _ _ SB.Inv.init rfl, rfl, rfl, rfl, by decide⟩

/-- **C110** on the same run. -/
theorem C110_meets : ObjSB.Rising (http torn bytes) ∧ ObjSB.Fits (http torn bytes) (hCfg none) ∧ ¬ ObjSB.Orderly (http torn bytes) ∧
    ∃ s : S, (ObjSB.init new).exec (http torn bytes) (hCfg none) tFlow = some s ∧ (ObjSB.init new : S).Calm (http torn bytes) (hCfg none) tFlow ∧
      Ev.launched 0 ∈ s.sb.log ∧ Ev.readRaised 0 .runtimeError ∈ s.sb.log ∧ storedIn 0 s.sb.log = [(0, [4]), (1, [5, 6])] := by
  refine ⟨rising fun n => Nat.lt_succ_self n, hFits _ _ _, fun h => ?_, _, rfl, calm_of_check _ _ SB.Inv.init rfl, by decide, by decide, rfl⟩
  exact h.noRaise new _ 3 .runtimeError rfl (by simp [answers, http, read, piece, torn, open', bytes, new])

end HttpSrc
end S2P
