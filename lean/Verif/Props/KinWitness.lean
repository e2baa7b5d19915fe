import Verif.Props.Kin2
import Verif.Props.SBWitness
/-
Concrete executions for C123, C126 and C127.
-/
namespace S2P
open Spec

/-- Meets C123: a writer has written, two readers are inside. -/
theorem RW.C123_meets : RW.Flat exTwo ∧ (RW.init 3 (0, 0) : RW.M (Nat × Nat) Nat).exec exBody exTwo = some exTwoState ∧ ∃ t ∈ exTwoState.th, t.pc ≠ .idle := by
  refine ⟨?_, rfl, ⟨.rCS, 0, none, [], [(5, 5)]⟩, by simp [exTwoState], by simp⟩
  intro i h
  simp [exTwo, List.mem_replicate] at h

namespace SB
/-- One item is stored; then somebody asks for the info, while two more items come (the first is evicted) and the stream is stopped. -/
theorem C126_meets : ∃ s s2 s' : S, SB.init.exec (mkCfg (some 2) true) (wStart 7 ++ wItem 0 1) = some s ∧ s.start = none ∧ current s.log = some 0 ∧
    storedIn 0 s.log ≠ [] ∧ s.infos 3 = .idle ∧
    s.exec (mkCfg (some 2) true) ([.info 3] ++ wItem 0 2 ++ wItem 0 3 ++ [.infoGo 3] ++ wStop 0) = some s2 ∧
    s2.step (mkCfg (some 2) true) (.infoGo 3) = some s' ∧ s'.log = s2.log ++ [.info (.ok (some 7))] ∧ Ev.bufferMade 0 7 ∈ s.log :=
  ⟨_, _, _, rfl, rfl, rfl, by decide +kernel, rfl, rfl, rfl, rfl, List.mem_of_getElem? (i := 1) rfl⟩
end SB

namespace Src
/-- Meets C127: three readers, one of them from `mk_reader()`; the two of the source are closed one after the other. -/
theorem C127_meets : ∃ s : Src Nat Nat Nat, Src.init.exec wcfg (wOpen ++ [.mkReader] ++ wMore ++ [.close 2, .close 0]) = some s ∧ closedOnce s.log ∧
    (∀ r f, SrcEv.assigned r f ∉ s.log) ∧ handedOut s.log = [0, 1, 2] ∧
    s.log = [.bufferMade (some 100, true), .opened 0 0 true, .made 1, .opened 2 0 true, .closed 2 (.ok ()), .closed 0 (.ok ()), .stopped] := by
  have hlog : ∃ s, Src.init.exec wcfg (wOpen ++ [.mkReader] ++ wMore ++ [.close 2, .close 0]) = some s ∧
      s.log = [.bufferMade (some 100, true), .opened 0 0 true, .made 1, .opened 2 0 true, .closed 2 (.ok ()), .closed 0 (.ok ()), .stopped] := ⟨_, rfl, rfl⟩
  obtain ⟨s, h1, h3⟩ := hlog
  refine ⟨s, h1, ?_, ?_, ?_, h3⟩ <;> simp [h3, closedOnce, handedOut]
  omega
end Src
end S2P
