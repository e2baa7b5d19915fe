import Verif.Props.ObjSource
import Verif.Props.CounterWitness
import Verif.Props.FairWitness
/- Concrete executions for C148 and C149. -/
namespace S2P
open Spec
namespace Counter

abbrev SA := OSAct Int (List Char) Info
abbrev SS := ObjSrc St Int (List Char) Info

/-- `SimpleCounterString(start, stop)` as a StreamSource. -/
def sCfg (start stop : Int) : SrcCfg Int (List Char) :=
  { key := (counter start stop).keyOr 0, keyNone := .error .typeError,
    rdCfg := fun _ => { n := 1, peek := false, ignore := true, strict := false } }

theorem sFits (start stop : Int) : ∀ v k, (counter start stop).key v = .ok k → (sCfg start stop).key v = k := by
  intro v k h; simp [sCfg, SrcObj.keyOr, h]

/-- A reader is opened: the first, the others. -/
def sOpen : List SA := [.user .openReader] ++ [go, go, go, go, go, .open', .buf, go].map .obj ++ [.user .openGo, .user .openGo]
def sMore : List SA := [.user .openReader, .user .openGo]

/-- Something the stream buffer, its thread or a consumer does. -/
def sBg (l : List A) : List SA := l.map .obj

/-- Two readers are opened, one of them closed, the consumer of the other starts a loop, and the thread reads all. -/
def sRun1 : List SA := [.user (.configure (none, true))] ++ sOpen ++ sMore ++ [.user (.close 1)] ++
  sBg ([.other (.rd 0 (.callIter 0)), .other (.rd 0 (.go 0))] ++ cItem 0 ++ cItem 0 ++ cNone 0 ++ cNone 0 ++ cNone 0)
/-- The loop goes on, a third reader is opened, and all are closed. -/
def sRun2 : List SA := sBg (List.replicate 7 (.other (.rd 0 (.go 0)))) ++ sMore ++ [.user (.close 0), .user (.close 2)]

/-- Check of `OneUser 0 0`. -/
def sOne : SA → Bool
  | .obj x => oneOk x
  | _ => true

theorem sOne_of_check {xs : List SA} (h : xs.all sOne = true) (a : SBAct Int (List Char) Info) (ha : .obj (.other a) ∈ xs) : SB.OneUser 0 0 a := by
  refine one_of_check (as := [.other a]) ?_ a (by simp)
  have := List.all_eq_true.1 h _ ha
  simpa [sOne] using this

/-- Check that consumer 0 does not leave its loop. -/
def sStay : SA → Bool
  | .obj (.other a) => !SB.isLeave 0 0 a
  | _ => true

theorem sStay_of_check {xs : List SA} (h : xs.all sStay = true) (a : SBAct Int (List Char) Info) (ha : .obj (.other a) ∈ xs) : SB.isLeave 0 0 a = false := by
  have := List.all_eq_true.1 h _ ha
  simpa [sStay] using this

theorem C148_meets_before : ∃ s : SS, (ObjSrc.init new).exec (counter (-1) 1) (sCfg (-1) 1) [.user (.configure (some 3, false))] = some s ∧ s.src.sb = none :=
  ⟨_, rfl, rfl⟩

theorem C149_meets : ∃ (s s' : SS) (y y' : SB Int (List Char) Info) (k k' : Cons Int (List Char)),
    (ObjSrc.init new).exec (counter (-1) 1) (sCfg (-1) 1) sRun1 = some s ∧ s.src.sb = some ((none, true), y) ∧
    s.exec (counter (-1) 1) (sCfg (-1) 1) sRun2 = some s' ∧ s'.src.sb = some ((none, true), y') ∧
    (∀ a, .obj (.other a) ∈ sRun1 ++ sRun2 → SB.OneUser 0 0 a) ∧ (∀ a, .obj (.other a) ∈ sRun2 → SB.isLeave 0 0 a = false) ∧ y.view 0 = some k ∧
    6 * ((1 : Int) - -1).toNat + 10 ≤ (ObjSrc.objActs sRun1).countP (·.ofThread 0) ∧
    2 * (unreadOf k.ch 0).length + 2 ≤ (ObjSrc.objActs sRun2).countP (·.isGo 0 0) ∧ k.pc 0 = .iterCheck ∧ received k 0 = [] ∧
    unreadOf k.ch 0 = [['s', '-', '1'], ['s', '0']] ∧ y'.view 0 = some k' ∧ received k' 0 = [['s', '-', '1'], ['s', '0']] ∧
    Ev.bufferMade 0 { start := -1, stop := 1, openCount := 1 } ∈ y.log ∧ (answered 0 y.log).length = 5 :=
  ⟨_, _, _, _, _, _, rfl, rfl, rfl, rfl, sOne_of_check rfl, sStay_of_check rfl, rfl, by decide, by decide, rfl, rfl, rfl, rfl, rfl, by decide, rfl⟩

end Counter
end S2P
