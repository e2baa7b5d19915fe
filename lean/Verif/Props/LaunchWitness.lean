import Verif.Props.Launch
/- Concrete executions for C159. -/
namespace S2P
open Spec
namespace LSB

abbrev L := LSB Nat Nat Nat

/-- Actions of the stream buffer. -/
def up (as : List SB.A) : List (LchAct Nat Nat Nat) := as.map fun a => .j (.sb a)

/-- A first `start()` up to the launch of its thread, which raises. -/
def wFails : List (LchAct Nat Nat Nat) := up ((SB.wStart 7).dropLast) ++ [.launchRaise]

/-- Callers afterwards: `is_running`, `mk_reader()`, `join()` looked up and called. -/
def wUse : List (LchAct Nat Nat Nat) := up [.isRunning, .mkReader] ++ [.j (.look 0), .j (.wait 0)] ++ up [.isRunning]

/-- Meets the theorems of C159: nothing runs and nothing was stored; `is_running` is `True` before and after, `mk_reader()` returns, `join()` raises. -/
theorem C159_meets : ∃ s s' : L, LSB.init.exec (SB.mkCfg none true) wFails = some s ∧ s.failed = [0] ∧ s.j.sb.start = none ∧ (∀ t, (s.j.sb.thr t).idle = true) ∧
    latest s.j.sb.log 0 ∧ storedIn 0 s.j.sb.log = [] ∧
    s.exec (SB.mkCfg none true) wUse = some s' ∧ NoStart wUse ∧ NoStop wUse ∧ s'.j.joins = [.raised .runtimeError] ∧
    s'.j.sb.log = s.j.sb.log ++ [.isRunning true, .madeReader (.ok 0), .isRunning true] := by
  refine ⟨_, _, rfl, rfl, rfl, ?_, ?_, rfl, rfl, ?_, ?_, rfl, rfl⟩
  · intro t
    match t with
    | 0 => rfl
    | t + 1 => rfl
  · intro k h
    have : ∀ e ∈ ([.opened 0, .bufferMade 0 7] : List (Ev Nat Nat)), (e = .opened k ∨ e = .openRaised k) → k ≤ 0 := by
      intro e he h; simp at he; rcases he with rfl | rfl <;> simp_all
    rcases h with h | h
    · exact this _ h (.inl rfl)
    · exact this _ h (.inr rfl)
  · intro h; simp [NoStart, wUse, up] at h
  · intro h; simp [NoStop, wUse, up] at h

/-- Then `stop()` and a second `start()` that succeeds, and an item. -/
def wAgain : List (LchAct Nat Nat Nat) := up ([.stop, .stopEnd] ++ SB.wStart 8 ++ SB.wItem 1 5)

/-- The source is opened a second time without having been closed; the second session works. -/
theorem C159_opened_twice : ∃ s : L, LSB.init.exec (SB.mkCfg none true) (wFails ++ wAgain) = some s ∧ s.failed = [0] ∧ ¬ protocolOk false s.j.sb.log ∧
    s.j.sb.log.countP isOpen = 2 ∧ s.j.sb.log.countP isClose = 0 ∧ s.j.sb.items 0 = [] ∧ s.j.sb.items 1 = [5] := by
  refine ⟨_, rfl, rfl, ?_, rfl, rfl, rfl, rfl⟩
  intro h
  revert h
  decide

end LSB
end S2P
