import Verif.Props.ReaderNap
/-
Concrete executions for C174.
-/
namespace S2P
open Spec
namespace NCons

abbrev W := NCons Nat Nat
def W0 : W := NCons.init id (.error .typeError) (some 2) (fun _ => Cfg.default)
def acts (l : List (CAct Nat Nat)) : List (ZAct Nat Nat) := l.map .act

/-- Three items go into a buffer for two; reader 0 gets a sleep time that is rejected; a loop is begun. -/
def wLoop : List (ZAct Nat Nat) := acts [.call (.append 1), .call (.append 2), .call (.append 3)] ++ [.setSleep 0 (some .valueError)] ++ acts [.callIter 0]

/-- Meets C174_loop (and C174_in_order): the loop hands out 2 and 3 and ends with the exception; another loop goes on from there once there is more. -/
theorem C174_meets_loop : ∃ s s' s'' : W, W0.exec (fun _ => Cfg.default) wLoop = some s ∧ s.bad 0 = some .valueError ∧ s.c.pc 0 = .iterRead ∧
    unreadOf s.c.ch 0 = [2, 3] ∧ s.c.stopped = false ∧ s.exec (fun _ => Cfg.default) (turns 0 8) = some s' ∧ s'.c.pc 0 = .idle ∧
    s'.c.evtsOf 0 = [.yielded (.one 2), .yielded (.one 3), .raised .valueError] ∧
    s'.exec (fun _ => Cfg.default) (acts [.call (.append 4), .callIter 0] ++ turns 0 2 ++ acts [.setStop] ++ turns 0 2) = some s'' ∧
    s''.c.evtsOf 0 = [.yielded (.one 2), .yielded (.one 3), .raised .valueError, .yielded (.one 4), .loopDone] ∧ received s''.c 0 = [2, 3, 4] ∧
    takenAll s''.c.ops s''.c.outs = [1, 2, 3, 4] :=
  ⟨_, _, _, rfl, rfl, rfl, rfl, rfl, rfl, rfl, rfl, rfl, rfl, rfl, rfl⟩

theorem C174_meets_user : (Cfg.default).peek = false ∧ (Cfg.default).strict = false ∧ ∀ a ∈ steps wLoop, OneUser 0 a := by
  refine ⟨rfl, rfl, ?_⟩
  simp [wLoop, acts, steps, OneUser]

/-- Meets both parts of C174_own: reader 0 was given a rejected sleep time and has it, reader 1 has its own. -/
theorem C174_meets_own : lastSleep 0 wLoop = some .valueError ∧ lastSleep 1 wLoop = none ∧ lastSleep 0 (wLoop ++ [.setSleep 0 none]) = none ∧
    ∃ s : W, W0.exec (fun _ => Cfg.default) (wLoop ++ acts [.callIter 1] ++ turns 0 7 ++ turns 1 7) = some s ∧ asleep (s.c.pc 0) = true ∧ asleep (s.c.pc 1) = true :=
  ⟨rfl, rfl, rfl, _, rfl, rfl, rfl⟩

/-- Meets C174_read: nothing there, the stream runs, the call raises; had the sleep time been accepted, it would wait. -/
theorem C174_meets_read : ∃ s s' : W, W0.exec (fun _ => Cfg.default) ([.setSleep 0 (some .valueError)] ++ acts [.callRead 0 none none none]) = some s ∧
    s.c.pc 0 = .blkRead 1 none false ∧ s.exec (fun _ => Cfg.default) (turns 0 3) = some s' ∧ s'.c.pc 0 = .idle ∧ s'.c.evtsOf 0 = [.raised .valueError] :=
  ⟨_, _, rfl, rfl, rfl, rfl, rfl⟩

/-- The sleep time is only looked at when the reader is to sleep: set back in time, the call waits. -/
theorem C174_meets_reset : ∃ s : W, W0.exec (fun _ => Cfg.default) ([.setSleep 0 (some .valueError)] ++ acts [.callRead 0 none none none] ++ turns 0 2 ++
    [.setSleep 0 none] ++ turns 0 1 ++ acts [.call (.append 7)] ++ turns 0 1) = some s ∧ s.c.evtsOf 0 = [.readRet (.one 7)] :=
  ⟨_, rfl, rfl⟩

end NCons
end S2P
