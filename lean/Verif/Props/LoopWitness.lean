import Verif.Props.CounterLoop
import Verif.Props.CarefulWitness
import Verif.Props.DropWitness
/- Cases for Props/LoopLive.lean and Props/CounterLoop.lean. -/
namespace S2P
open Spec
namespace SB

/-- A loop that has been given 1, and lags behind: 2 and 3 are stored, unread. -/
def wLag : List A := wStart 7 ++ [.rd 0 (.callIter 0)] ++ wItem 0 1 ++ [.rd 0 (.go 0)] ++ wItem 0 2 ++ wItem 0 3

/-- It catches up while 4 is stored. -/
def wCatch : List A := [.rd 0 (.go 0), .rd 0 (.go 0)] ++ wItem 0 4 ++ [.rd 0 (.go 0), .rd 0 (.go 0)]

/-- Meets C92 (unbounded): two unread items, four steps. -/
theorem C92_meets : ∃ (s s' : S) (c c' : Cons Nat Nat), SB.init.exec (mkCfg none true) wLag = some s ∧ s.view 0 = some c ∧
    s.exec (mkCfg none true) wCatch = some s' ∧ (∀ a ∈ wLag ++ wCatch, OneUser 0 0 a) ∧ (∀ a ∈ wCatch, isLeave 0 0 a = false) ∧
    BetweenReads (c.pc 0) ∧
    2 * (unreadOf c.ch 0).length ≤ wCatch.countP (isGo 0 0) ∧ unreadOf c.ch 0 = [2, 3] ∧ s'.view 0 = some c' ∧ received c' 0 = [1, 2, 3] ∧
    storedIn 0 s'.log = [1, 2, 3, 4] :=
  ⟨_, _, _, _, rfl, rfl, rfl, oneUser_of_check rfl, stay_of_check rfl, trivial, by decide +kernel, rfl, rfl, rfl, rfl⟩

/-- Meets C92 (`auto_drop=False`, `maxlen=1`): after `wLoop` 3 is stored and unread; two steps and a drop. -/
theorem C92_drop_meets : ∃ (s s' : S) (c c' : Cons Nat Nat), SB.init.exec (mkCfg (some 1) false) wLoop = some s ∧ s.view 0 = some c ∧
    s.exec (mkCfg (some 1) false) ([.rd 0 (.go 0), .rd 0 (.go 0)] ++ wDrop ++ wItemM 0 4) = some s' ∧
    (∀ a ∈ wLoop ++ ([.rd 0 (.go 0), .rd 0 (.go 0)] ++ wDrop ++ wItemM 0 4), OneUser 0 0 a) ∧
    (∀ a ∈ ([.rd 0 (.go 0), .rd 0 (.go 0)] ++ wDrop ++ wItemM 0 4 : List A), isLeave 0 0 a = false) ∧
    (SB.init : S).Settled (mkCfg (some 1) false) (wLoop ++ ([.rd 0 (.go 0), .rd 0 (.go 0)] ++ wDrop ++ wItemM 0 4)) ∧
    DropsReceived (mkCfg (some 1) false) 0 0 (wLoop ++ ([.rd 0 (.go 0), .rd 0 (.go 0)] ++ wDrop ++ wItemM 0 4)) ∧
    (dataRead 0 s'.log).Pairwise (fun v w => v < w) ∧ BetweenReads (c.pc 0) ∧ (unreadOf c.ch 0).length = 1 ∧ s'.view 0 = some c' ∧
    received c' 0 = [1, 2, 3] :=
  ⟨_, _, _, _, rfl, rfl, rfl, oneUser_of_check rfl, stay_of_check rfl, settled_of_check rfl, drop_of_check rfl, by decide +kernel, trivial, rfl, rfl, rfl⟩

end SB

namespace Counter

/-- A session of `SimpleCounterString(-1, 1)` in which the thread does 28 steps; a loop was begun, and has found nothing yet. -/
def cLoop1 : List A := cStart ++ [.other (.rd 0 (.callIter 0)), .other (.rd 0 (.go 0))] ++ cItem 0 ++ cItem 0 ++ cNone 0 ++ cNone 0 ++ cNone 0

/-- Six steps of the loop. -/
def cLoop2 : List A := List.replicate 6 (.other (.rd 0 (.go 0)))

theorem cLoopOne : ∀ a, .other a ∈ cLoop1 ++ cLoop2 → SB.OneUser 0 0 a := by
  intro a ha
  simp only [cLoop1, cLoop2, List.replicate, cStart, cItem, cNone, go, List.cons_append, List.nil_append, List.mem_cons, List.not_mem_nil,
    ObjAct.other.injEq, reduceCtorEq, or_false, false_or] at ha
  repeat' first | (rcases ha with h | ha; rw [h]; first | trivial | (intro _; trivial)) | (rw [ha]; first | trivial | (intro _; trivial))

/-- Meets C93. -/
theorem C93_meets : ∃ (s s' : S) (c c' : Cons Int (List Char)), (ObjSB.init new).exec (counter (-1) 1) (cCfg none (-1) 1) cLoop1 = some s ∧
    s.exec (counter (-1) 1) (cCfg none (-1) 1) cLoop2 = some s' ∧
    (ObjSB.init new : S).Calm (counter (-1) 1) (cCfg none (-1) 1) (cLoop1 ++ cLoop2) ∧ (∀ a, .other a ∈ cLoop1 ++ cLoop2 → SB.OneUser 0 0 a) ∧
    (∀ a, .other a ∈ cLoop2 → SB.isLeave 0 0 a = false) ∧
    s.sb.view 0 = some c ∧ 6 * ((1 : Int) - -1).toNat + 10 ≤ cLoop1.countP (·.ofThread 0) ∧
    2 * (unreadOf c.ch 0).length + 2 ≤ cLoop2.countP (·.isGo 0 0) ∧ c.pc 0 = .iterCheck ∧ received c 0 = [] ∧ s'.sb.view 0 = some c' ∧
    c'.stopped = false ∧ received c' 0 = [['s', '-', '1'], ['s', '0']] :=
  ⟨_, _, _, _, rfl, rfl, calm_of_check _ _ SB.Inv.init rfl, cLoopOne,
    fun a ha => by cases List.eq_of_mem_replicate ha; rfl, rfl, by decide, by decide, rfl, rfl, rfl, rfl, rfl⟩

end Counter
end S2P
