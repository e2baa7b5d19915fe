import Verif.Props.Drain
import Verif.Props.JoinWitness
/- Concrete execution for C98. -/
namespace S2P
open Spec
namespace JSB

/-- Start, `for` loop begun, two items, `stop()` during `read()`, which returns one more; the thread ends; `join()` returns. -/
def wJoined : List (JAct Nat Nat Nat) :=
  lift (SB.wStart 7 ++ [.rd 0 (.callIter 0)] ++ SB.wItem 0 1 ++ SB.wItem 0 2 ++ [.thr 0, .thr 0, .stop, .stopEnd]) ++ [.look 0] ++
  lift [.readOk 0 (some 3), .thr 0, .thr 0, .thr 0, .thr 0, .close 0 true] ++ [.wait 0]

/-- The loop goes on, a new session is started meanwhile. -/
def wDrain : List (JAct Nat Nat Nat) :=
  lift ([.rd 0 (.go 0), .rd 0 (.go 0)] ++ SB.wStart 8 ++ [.rd 0 (.go 0), .rd 0 (.go 0)] ++ SB.wItem 1 5 ++
    [.rd 0 (.go 0), .rd 0 (.go 0), .rd 0 (.go 0), .rd 0 (.go 0)])

theorem mem_sbActs (a : SB.A) (xs : List (JAct Nat Nat Nat)) (h : .sb a ∈ xs) : a ∈ sbActs xs := by
  induction xs with
  | nil => simp at h
  | cons x xs ih => cases x <;> simp [sbActs] <;> grind

/-- Meets C98: three items are unread when `join()` returns, the loop gives 1, 2, 3 and ends; the new session is not disturbed. -/
theorem C98_meets : ∃ (s s' : J) (c c' : Cons Nat Nat), JSB.init.exec (SB.mkCfg none true) wJoined = some s ∧ JEv.joined 0 ∈ s.joins ∧
    s.exec (SB.mkCfg none true) wDrain = some s' ∧ (JSB.init : J).Careful (SB.mkCfg none true) (wJoined ++ wDrain) ∧
    (∀ a, .sb a ∈ wJoined ++ wDrain → SB.OneUser 0 0 a) ∧ (∀ a, .sb a ∈ wDrain → SB.isLeave 0 0 a = false) ∧ s.sb.view 0 = some c ∧ BetweenReads (c.pc 0) ∧ unreadOf c.ch 0 = [1, 2, 3] ∧
    (sbActs wDrain).countP (SB.isGo 0 0) = 8 ∧ s'.sb.view 0 = some c' ∧
    c'.evtsOf 0 = [.yielded (.one 1), .yielded (.one 2), .yielded (.one 3), .loopDone] ∧ s'.sb.items 1 = [5] :=
  ⟨_, _, _, _, rfl, by decide +kernel, rfl, careful_of_check _ _ rfl,
    fun a ha => SB.oneUser_of_check (as := sbActs (wJoined ++ wDrain)) rfl a (mem_sbActs a _ ha),
    fun a ha => SB.stay_of_check (as := sbActs wDrain) rfl a (mem_sbActs a _ ha), rfl, trivial, rfl, by decide +kernel, rfl, rfl, rfl⟩

end JSB
end S2P
