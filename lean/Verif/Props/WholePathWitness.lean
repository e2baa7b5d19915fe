import Verif.Props.WholePath
import Verif.Props.SimplyWitness
/- Cases for Props/WholePath.lean. -/
namespace S2P
open Spec
namespace Simp

/-- A loop is begun; `read_stream` returns 9, `None`, 3; the loop is given the first and lags behind; a fourth datum is in the thread's hands. -/
def xLag : List XA := xEnter ++ [.sb (.rd 0 (.callIter 0))] ++ xRead 0 (some 9) ++ [.sb (.rd 0 (.go 0))] ++ xRead 0 none ++ xRead 0 (some 3) ++
  [.sb (.thr 0), .sb (.thr 0), .read 0 (some 4)]

/-- The loop goes on, the thread stores the fourth, the body ends. -/
def xCatch : List XA := [.sb (.rd 0 (.go 0)), .sb (.rd 0 (.go 0)), .sb (.thr 0), .sb (.thr 0), .leave none, .leftStop, .sb (.rd 0 (.go 0)), .sb (.rd 0 (.go 0))]

theorem xOne : ∀ a, .sb a ∈ xLag ++ xCatch → SB.OneUser 0 0 a ∧ a.isKeyRaise = false ∧ a ≠ SBAct.start ∧ SB.isLeave 0 0 a = false := by
  intro a ha
  simp only [xLag, xCatch, xEnter, xRead, List.cons_append, List.nil_append, List.mem_cons, List.not_mem_nil,
    SimpAct.sb.injEq, reduceCtorEq, or_false, false_or] at ha
  repeat' first
    | (rcases ha with h | ha; rw [h]; refine ⟨?_, rfl, by simp, rfl⟩; first | trivial | (intro _; trivial))
    | (rw [ha]; refine ⟨?_, rfl, by simp, rfl⟩; first | trivial | (intro _; trivial))

/-- Meets C100. -/
theorem C100_meets : ∃ (s s' : XS) (c c' : Cons Nat (SItem Nat)), init.exec true (xCfg none true) xLag = some s ∧ s.exec true (xCfg none true) xCatch = some s' ∧
    (∀ a, .sb a ∈ xLag ++ xCatch → SB.OneUser 0 0 a ∧ a.isKeyRaise = false ∧ a ≠ SBAct.start ∧ SB.isLeave 0 0 a = false) ∧
    (∀ i j (d d' : Option Nat), i < j → (xCfg none true).key (.pair i d) < (xCfg none true).key (.pair j d')) ∧
    s.sb.view 0 = some c ∧ BetweenReads (c.pc 0) ∧ unreadOf c.ch 0 = [.pair 1 none, .pair 2 (some 3)] ∧ (s.sb.thr 0).inHand = [.pair 3 (some 4)] ∧
    s.raw 0 = [some 9, none, some 3, some 4] ∧ 2 * (unreadOf c.ch 0).length ≤ (userActs xCatch).countP (SB.isGo 0 0) ∧
    s'.sb.view 0 = some c' ∧ received c' 0 = [.pair 0 (some 9), .pair 1 none, .pair 2 (some 3)] ∧ unreadOf c'.ch 0 = [.pair 3 (some 4)] ∧ s'.pc = .done none :=
  ⟨_, _, _, _, rfl, rfl, xOne, fun _ _ _ _ h => h, rfl, trivial, rfl, rfl, rfl, by decide +kernel, rfl, rfl, rfl, rfl⟩

end Simp
end S2P
