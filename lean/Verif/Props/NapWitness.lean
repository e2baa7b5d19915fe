import Verif.Props.Nap
import Verif.Props.AutoDropWitness
/-
Concrete executions for C173.
-/
namespace S2P
open Spec
namespace ASB
open SB (mkCfg wStart wItem wItemM wNext wNone A)

/-- `StreamBuffer(src, maxlen=2, sleep_time_on_read_none_s=-1)`: 1 is read and stored and read back, the source returns `None`; the thread is to sleep. -/
def wNap : List (AAct Nat Nat Nat) := acts (wStart 7 ++ wItem 0 1 ++ wNext 0 ++ [.thr 0, .thr 0, .readOk 0 none])

/-- Meets C173 (first_none, dies, data): `time.sleep(-1)` raises `ValueError`, the thread sets the stop event and closes the source; an item is retained and read. -/
theorem C173_meets : ∃ (s s' : T) (c : Cons Nat Nat), (init (mkCfg (some 2) true)).napExec .valueError (mkCfg (some 2) true) wNap = some s ∧
    s.sb.thr 0 = .sleeping ∧ s.sb.running = true ∧ s.sb.items 0 = [1] ∧
    s.napExec .valueError (mkCfg (some 2) true) (acts [.thr 0, .thr 0, .thr 0, .close 0 true]) = some s' ∧ s'.sb.thr 0 = .done ∧ s'.sb.running = false ∧
    s'.sb.log = s.sb.log ++ [.crashed 0 .valueError, .eventSet 0, .closed 0 true] ∧ (.read 0 none : Ev Nat Nat) ∈ s.sb.log ∧
    storedIn 0 s'.sb.log = [1] ∧ s'.sb.items 0 = [1] ∧ s'.sb.view 0 = some c ∧ received c 0 = [1] :=
  ⟨_, _, _, rfl, rfl, rfl, rfl, rfl, rfl, rfl, rfl, by decide +kernel, rfl, rfl, rfl, rfl⟩

/-- Nothing else in that execution touches reader 0 of session 0, which does not peek. -/
theorem C173_meets_user : ((mkCfg (some 2) true).rdCfg 0).peek = false ∧ ∀ a ∈ wNap, OneUser (V := Nat) 0 0 a := by
  refine ⟨rfl, fun a ha => ?_⟩
  obtain ⟨x, hx, rfl⟩ := List.mem_map.1 ha
  simp only [wStart, wItem, wNext, List.mem_append, List.mem_cons, List.not_mem_nil, or_false] at hx
  simp only [OneUser]
  rcases hx with ((hx | hx) | hx) | hx <;> (repeat' rcases hx with rfl | hx) <;> (try subst hx) <;> simp [SB.OneUser, S2P.OneUser]

/-- Had the same stream buffer an accepted sleep time, the thread would only be asleep: it goes on. -/
theorem C173_meets_accepted : ∃ s s' : T, (init (mkCfg (some 2) true)).exec (mkCfg (some 2) true) wNap = some s ∧
    s.exec (mkCfg (some 2) true) (acts ([.thr 0] ++ wItem 0 2)) = some s' ∧ s'.sb.running = true ∧ s'.sb.items 0 = [1, 2] :=
  ⟨_, _, rfl, rfl, rfl, rfl⟩

/-- With `auto_drop=False` it is the full buffer that ends the session, though the source never returned `None` (`other 34`: `OverflowError`, the sleep time being too large). -/
theorem C173_meets_full : ∃ s s' : T, (init (mkCfg (some 1) false)).napExec (.other 34) (mkCfg (some 1) false)
    (acts (wStart 7 ++ wItemM 0 1 ++ [.thr 0, .thr 0, .thr 0])) = some s ∧ s.sb.thr 0 = .sleeping ∧ s.sb.running = true ∧
    s.napExec (.other 34) (mkCfg (some 1) false) (acts [.thr 0, .thr 0, .thr 0, .close 0 true]) = some s' ∧ s'.sb.running = false ∧
    s'.sb.log = s.sb.log ++ [.crashed 0 (.other 34), .eventSet 0, .closed 0 true] ∧ s'.sb.log.all (fun x => x ≠ (.read 0 none : Ev Nat Nat)) = true ∧ s'.sb.items 0 = [1] :=
  ⟨_, _, rfl, rfl, rfl, rfl, rfl, rfl, rfl, rfl⟩

/-- Stopped while it is to sleep: the thread ends as it would anyway, but for the exception. -/
theorem C173_meets_stopped : ∃ s : T, (init (mkCfg (some 2) true)).napExec .valueError (mkCfg (some 2) true)
    (wNap ++ acts [.stop, .thr 0, .thr 0, .close 0 true, .stopEnd]) = some s ∧ s.sb.thr 0 = .done :=
  ⟨_, rfl, rfl⟩

end ASB
end S2P
