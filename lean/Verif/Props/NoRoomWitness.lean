import Verif.Props.NoRoom
import Verif.Props.SBWitness
/- Cases for Props/NoRoom.lean. -/
namespace S2P
open Spec
namespace SB

/-- `maxlen=0`, `auto_drop=True`: items 1 and 2 are read from the source and stored; a `next` and a `read` in between get nothing. -/
def wLost : List A := wStart 7 ++ wItem 0 1 ++ [.rd 0 (.callNext 0), .rd 0 (.go 0), .rd 0 (.go 0)] ++ wItem 0 2 ++
  [.rd 0 (.call (.rd 1 (.range 0 9 none false (some true) false false false))), .info 0, .infoGo 0] ++ wStop 0

/-- The hypotheses of C170_nothing_retained and C170_nothing_refused are met by an execution in which items are read, stored, and asked for. -/
theorem C170_meets_auto : ∃ s : S, SB.init.exec (mkCfg (some 0) true) wLost = some s ∧ (mkCfg (some 0) true).maxlen = some 0 ∧
    (∀ a ∈ wLost, ∀ t e, a ≠ .keyRaise t e) ∧ dataRead 0 s.log = [1, 2] ∧ storedIn 0 s.log = [1, 2] ∧ s.items 0 = [] ∧
    ∃ c, s.view 0 = some c ∧ c.ops.length = 4 ∧ c.evts = [(0, .next .none)] := by
  refine ⟨_, rfl, rfl, ?_, by decide +kernel, by decide +kernel, by decide +kernel, _, rfl, by decide +kernel, by decide +kernel⟩
  intro a ha t e h
  subst h
  simp [wLost, wStart, wItem, wStop] at ha

/-- `maxlen=0`, `auto_drop=False`: the thread looks at the length three times, sleeps, is stopped and closes the source. -/
def wIdle : List A := wStart 7 ++ [.thr 0, .thr 0, .thr 0, .thr 0] ++ [.thr 0, .thr 0, .thr 0, .thr 0] ++ [.thr 0, .thr 0, .thr 0, .thr 0] ++ wStop 0

theorem C170_meets_manual : ∃ s : S, SB.init.exec (mkCfg (some 0) false) wIdle = some s ∧ (mkCfg (some 0) false).maxlen = some 0 ∧
    (mkCfg (some 0) false).autoDrop = false ∧ Ev.closed 0 true ∈ s.log :=
  ⟨_, rfl, rfl, rfl, by decide +kernel⟩

/-- A `start()` in which the `_SourceBuffer` cannot be made; `stop()`; another such `start()`; `mk_reader()`, `stop()`. -/
def wNever : List A := [.start, .startGo, .startGo, .startGo, .startGo, .startGo, .openOk, .bufRaise, .stop, .stopEnd,
  .start, .startGo, .startGo, .startGo, .startGo, .startGo, .openOk, .bufRaise, .mkReader, .next 0, .nextGo 0, .stop, .stopEnd]

/-- The source is opened twice and never closed. -/
theorem C170_meets_never : ∃ s : S, SB.init.exec (mkCfg (some 5) true) wNever = some s ∧ (∀ a ∈ wNever, ∀ info, a ≠ .bufOk info) ∧
    s.log.countP (fun | .opened _ => true | _ => false) = 2 ∧ Ev.madeReader (.error .streamNotStarted) ∈ s.log ∧
    Ev.nextOn (.error .streamNotStarted) ∈ s.log := by
  refine ⟨_, rfl, ?_, by decide +kernel, by decide +kernel, by decide +kernel⟩
  intro a ha info h
  subst h
  simp [wNever] at ha

end SB
end S2P
