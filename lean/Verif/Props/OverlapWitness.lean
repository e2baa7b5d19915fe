import Verif.Props.Overlap
import Verif.Props.PlainReadWitness
/-
Concrete executions for C166: a restart while the first thread is about to store an item.
-/
namespace S2P
open Spec
namespace SB

/-- Thread 0 stores 1 and is about to store 2 in session 0 when the stream is restarted. -/
def wHeld : List A := wStart 7 ++ wItem 0 1 ++ [.thr 0, .thr 0, .readOk 0 (some 2), .thr 0] ++ wRestart 8
/-- It stores 2 there, then goes on reading beside thread 1: both store in session 1, of which a consumer reads. -/
def wBoth : List A := [.thr 0] ++ wItem 0 3 ++ wItem 1 4 ++ wNext 1 ++ wItem 0 5 ++ wItem 1 6 ++ wNext 1 ++ wNext 1 ++ [.thr 0, .thr 0, .readOk 0 (some 7)]

/-- Meets C166: 2 goes to session 0 after the restart, 3 and 5 of thread 0 to session 1, where the consumer gets 3, 4, 5 and can still read 6; 7 is in the hands
of thread 0. -/
theorem C166_meets : ∃ (s s' : S) (c : Cons Nat Nat), SB.init.exec (mkCfg none true) wHeld = some s ∧ Ev.opened 1 ∈ s.log ∧
    s.exec (mkCfg none true) wBoth = some s' ∧ placed 0 s'.log = [(0, 1), (0, 2), (1, 3), (1, 5)] ∧ dataRead 0 s'.log = [1, 2, 3, 5, 7] ∧
    (s'.thr 0).inHand = [7] ∧ brought 1 s'.log = [(0, 3), (1, 4), (0, 5), (1, 6)] ∧ s.log.countP (isStoreTo 0 0) = 1 ∧
    s'.log.countP (isStoreTo 0 0) = 2 ∧ s'.view 1 = some c ∧ OnlyReads (mkCfg none true).rdCfg 0 c.ops ∧
    delivered (mkCfg none true).rdCfg 0 c.ops c.outs = [3, 4, 5] ∧ unreadOf c.ch 0 = [6] :=
  ⟨_, _, _, rfl, List.mem_of_getElem? (i := 7) rfl, rfl, rfl, rfl, rfl, rfl, rfl, rfl, rfl, onlyReads_of_check rfl, rfl, rfl⟩

/-- C166, the lost item: thread 0 comes back from `read()` while `start()` has no buffer yet. -/
theorem C166_meets_lost : ∃ s : S, SB.init.exec (mkCfg none true) (wStart 7 ++ wItem 0 1 ++ [.thr 0, .thr 0, .start] ++ List.replicate 5 .startGo ++
      [.readOk 0 (some 2), .thr 0]) = some s ∧ dataRead 0 s.log = [1, 2] ∧ placed 0 s.log = [(0, 1)] ∧ (s.thr 0).inHand = [] ∧
    refusedBy 0 s.log = [] ∧ s.log.getLast? = some (Ev.crashed 0 .attributeError) :=
  ⟨_, rfl, rfl, rfl, rfl, rfl, rfl⟩

end SB
end S2P
