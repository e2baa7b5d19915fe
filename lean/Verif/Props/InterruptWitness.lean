import Verif.Props.Interrupt
import Verif.Props.SBWitness
/- Concrete executions for C165. -/
namespace S2P
open Spec
namespace ISB

abbrev T := ISB Nat Nat Nat

/-- Actions of the stream buffer. -/
def up (as : List SB.A) : List (IAct Nat Nat Nat) := as.map .sb

/-- A session that stored an item; a second `start()` is called and sleeps in `stop()` (189) when the interruption comes. -/
def wSleep : List (IAct Nat Nat Nat) := up (SB.wStart 7 ++ SB.wNext1 ++ SB.wItem 0 1 ++ [.start, .startGo, .startGo])

/-- Meets C165_as_if, C165_consumer, C165_after, C165_early: `is_running` is `False`, `mk_reader()` still returns a reader of the earlier buffer, which still has its item. -/
theorem C165_meets_sleep : ∃ s s' s'' : T, ISB.init.exec (SB.mkCfg none true) wSleep = some s ∧ s.sb.start = some .clr1 ∧ s.step (SB.mkCfg none true) .interrupt = some s' ∧
    s'.cuts = [(0, .clr1)] ∧ s'.sb.items 0 = [1] ∧
    s'.exec (SB.mkCfg none true) (up [.isRunning, .mkReader, .thr 0, .thr 0, .close 0 true]) = some s'' ∧
    s''.sb.log = s.sb.log ++ [.isRunning false, .madeReader (.ok 0), .closed 0 true] :=
  ⟨_, _, _, rfl, rfl, rfl, rfl, rfl, rfl, rfl⟩

/-- After that `start()` is called again and goes through; `next(stream_buffer)` goes on reading from the earlier session, since the `start()` that stopped it did not get
to resetting `self._next_reader` (190) and the next one finds nothing to stop. -/
theorem C165_stale_next : ∃ s : T, ISB.init.exec (SB.mkCfg none true)
      (wSleep ++ [.interrupt] ++ up ([.thr 0, .thr 0, .close 0 true] ++ SB.wStart 8 ++ SB.wItem 1 5 ++ SB.wNext2)) = some s ∧
    s.sb.sourceBuffer = some 1 ∧ s.sb.running = true ∧ s.sb.items 1 = [5] ∧ s.sb.log.getLast? = some (.nextOn (.ok 0)) :=
  ⟨_, rfl, rfl, rfl, rfl, rfl⟩

/-- Meets C165_after, C165_left_open: a first `start()` interrupted in `source.open()`: `is_running` is `True` and `mk_reader()` raises; `open()` did not return. -/
theorem C165_meets_open : ∃ s s' s'' : T, ISB.init.exec (SB.mkCfg none true) (up [.start, .startGo, .startGo, .startGo, .startGo, .startGo]) = some s ∧ s.sb.start = some .opening ∧
    s.step (SB.mkCfg none true) .interrupt = some s' ∧ s'.cuts = [(0, .opening)] ∧ s'.exec (SB.mkCfg none true) (up [.isRunning, .mkReader]) = some s'' ∧
    s''.sb.log = [.isRunning true, .madeReader (.error .streamNotStarted)] :=
  ⟨_, _, _, rfl, rfl, rfl, rfl, rfl, rfl⟩

/-- Meets C165_left_open, C165_next_start: interrupted while `source.info` is asked for, the next `start()` stops the session without thread, opens the source a second time
without its having been closed, and works. -/
theorem C165_opened_twice : ∃ s s' : T, ISB.init.exec (SB.mkCfg none true) (up [.start, .startGo, .startGo, .startGo, .startGo, .startGo, .openOk] ++ [.interrupt]) = some s ∧
    s.cuts = [(0, .mkBuf)] ∧ s.sb.start = none ∧ s.sb.running = true ∧ s.exec (SB.mkCfg none true) (up (wholeStart true 8 ++ SB.wItem 1 5)) = some s' ∧
    ¬ protocolOk false s'.sb.log ∧ s'.sb.log.countP isOpen = 2 ∧ s'.sb.log.countP isClose = 0 ∧ s'.sb.items 1 = [5] := by
  refine ⟨_, _, rfl, rfl, rfl, rfl, rfl, ?_, rfl, rfl, rfl⟩
  intro h
  revert h
  decide

/-- Meets C165_after, C165_next_start with an interruption before the thread is made (279) and one before it is launched (184): the first leaves nothing, the second an
empty buffer that readers wait on. -/
theorem C165_meets_both : ∃ s s' : T, ISB.init.exec (SB.mkCfg none true)
      (up [.start, .startGo, .startGo, .startGo] ++ [.interrupt] ++ up [.isRunning, .mkReader] ++ up (SB.wStart 7).dropLast ++ [.interrupt] ++ up [.isRunning, .mkReader]) = some s ∧
    s.cuts = [(0, .mkThr), (1, .launch)] ∧ s.sb.items 1 = [] ∧ s.sb.start = none ∧
    s.sb.log = [.isRunning false, .madeReader (.error .streamNotStarted), .opened 1, .bufferMade 1 7, .isRunning true, .madeReader (.ok 1)] ∧
    s.exec (SB.mkCfg none true) (up (wholeStart true 8)) = some s' ∧ s'.sb.thr 2 = .check ∧ s'.sb.running = true :=
  ⟨_, _, rfl, rfl, rfl, rfl, rfl, rfl, rfl, rfl⟩

end ISB
end S2P
