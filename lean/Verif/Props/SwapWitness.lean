import Verif.Props.Swap
import Verif.Props.EndToEndWitness
/-
C177: witnesses.
-/
namespace S2P.WSB
open Spec SB

abbrev SwA := WAct Nat Nat Nat

def swActs (l : List A) : List SwA := l.map .act

/-- `start()` with the source that is assigned. -/
def swStart : List SwA := swActs [.start, .startGo, .startGo, .startGo, .startGo, .startGo] ++ [.lookOpen] ++ swActs [.openOk, .bufOk 7, .startGo]

/-- The thread looks up the source and calls `read`. -/
def swCall : List SwA := [.act (.thr 0), .act (.thr 0), .look 0]

/-- The call returns `v`, which is stored. -/
def swItem (v : Nat) : List SwA := swActs [.readOk 0 (some v), .thr 0, .thr 0]

/-- A consumer calls `next(reader)`. -/
def swNext : List SwA := swActs [.rd 0 (.callNext 0), .rd 0 (.go 0)]

/-- Source 0 is opened and gives 1; while `read` is called on it again, source 1 is assigned. -/
def swBefore : List SwA := swStart ++ swCall ++ swItem 1 ++ swNext ++ swCall ++ [.assign 1]

/-- The call in progress gives 2; source 1, never opened, gives 5; `stop()`: the thread closes source 1. -/
def swAfter : List SwA := swItem 2 ++ swCall ++ swItem 5 ++ swNext ++ swActs [.stop, .thr 0, .thr 0] ++ [.look 0] ++ swActs [.close 0 true, .stopEnd]

/-- **C177** meets: the second source is read and closed and was never opened; the first one is never closed; the consumer has got 1 and 2 and can read 5. -/
theorem C177_meets : ∃ (s1 s2 : WSB Nat Nat Nat) (c : Cons Nat Nat), (init 0).exec (mkCfg (some 5) true) swBefore = some s1 ∧ s1.src = 1 ∧ s1.held 0 = some 0 ∧
    s1.sb.start = none ∧ s1.exec (mkCfg (some 5) true) swAfter = some s2 ∧
    callsOn 0 s2.calls = [.opened 0, .bufferMade 0 7, .read 0 (some 1), .read 0 (some 2)] ∧
    callsOn 1 s2.calls = [.read 0 (some 5), .closed 0 true] ∧
    elsewhere 0 1 s2.calls = elsewhere 0 1 s1.calls ++ [(0, .read 0 (some 2))] ∧
    SB.init.Settled (mkCfg (some 5) true) (others (swBefore ++ swAfter)) ∧
    s2.sb.view 0 = some c ∧ received c 0 = [1, 2] ∧ unreadOf c.ch 0 = [5] :=
  ⟨_, _, _, rfl, rfl, rfl, rfl, rfl, rfl, rfl, rfl, settled_of_check rfl, rfl, rfl, rfl⟩

theorem C177_meets_user : ∀ a ∈ others (swBefore ++ swAfter), SB.OneUser 0 0 a := by
  intro a ha
  simp only [others, swBefore, swAfter, swStart, swCall, swItem, swNext, swActs, List.map_cons, List.map_nil, List.cons_append, List.nil_append, List.append_assoc,
    List.filterMap_cons, List.filterMap_nil, List.mem_cons, List.not_mem_nil, or_false] at ha
  repeat' (first | (rcases ha with rfl | ha) | (subst ha))
  all_goals first | trivial | exact (fun _ => rfl) | decide | simp [SB.OneUser, S2P.OneUser, CAct.isReaders]

/-- Meets C177_left_alone: source 0 is open, not assigned any more, and no call on it is in progress. -/
theorem C177_meets_left_alone : ∃ s1 s2 : WSB Nat Nat Nat, (init 0).exec (mkCfg (some 5) true) (swStart ++ swCall ++ swItem 1 ++ [.assign 1]) = some s1 ∧
    s1.src ≠ 0 ∧ (∀ t, s1.held t ≠ some 0) ∧ s1.heldOpen ≠ some 0 ∧
    s1.exec (mkCfg (some 5) true) (swCall ++ swItem 5 ++ swActs [.stop, .thr 0, .thr 0] ++ [.look 0] ++ swActs [.close 0 true, .stopEnd]) = some s2 ∧
    s2.sb.thr 0 = .done ∧ callsOn 0 s2.calls = [.opened 0, .bufferMade 0 7, .read 0 (some 1)] := by
  refine ⟨_, _, rfl, by decide, ?_, by decide, rfl, rfl, rfl⟩
  intro t
  by_cases ht : t = 0 <;> simp [ht, release, init]

end S2P.WSB
