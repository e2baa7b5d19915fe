import Verif.Props.SourcePath
import Verif.Props.EndToEndWitness
/- Cases for Props/SourcePath.lean. -/
namespace S2P
open Spec
namespace Src
namespace Witness

/-- Thread 0 reads `v` and stores it. -/
def wIt (v : Nat) : List (SrcAct Nat Nat Nat) := [.bg (.thr 0), .bg (.thr 0), .bg (.readOk 0 (some v)), .bg (.thr 0), .bg (.thr 0)]

/-- `configure_buffer(maxlen=None)`, a reader, 1 and 2 are stored, a second reader takes 1, is closed; 3 is on its way; then the first reader is closed. -/
def wUse : List (SrcAct Nat Nat Nat) := [.configure (none, true)] ++ wOpen ++ wIt 1 ++ wIt 2 ++ wMore ++ [.bg (.rd 0 (.callNext 1)), .bg (.rd 0 (.go 1)), .close 1] ++
  [.bg (.thr 0), .bg (.thr 0), .bg (.readOk 0 (some 3)), .close 0, .closeGo]

/-- The thread stores 3 and ends. -/
def wEnd : List (SrcAct Nat Nat Nat) := [.bg (.thr 0), .bg (.thr 0), .bg (.thr 0), .bg (.thr 0), .bg (.close 0 true)]

/-- Meets C101: the second reader got 1 and can still read 2, then 3; the source is closed after the last close. -/
theorem C101_meets : ∃ (s s' : Src Nat Nat Nat) (x x' : SB Nat Nat Nat) (k k' : Cons Nat Nat), Src.init.exec wcfg wUse = some s ∧ s.exec wcfg wEnd = some s' ∧
    (∀ a, .bg a ∈ wUse → SB.OneUser 0 1 a) ∧ s.sb = some ((none, true), x) ∧ s'.sb = some ((none, true), x') ∧ (∀ k, Ev.infoRaised k ∉ x.log) ∧
    x.view 0 = some k ∧ x'.view 0 = some k' ∧ received k 1 = [1] ∧ unreadOf k.ch 1 = [2] ∧ (x.thr 0).inHand = [3] ∧ dataRead 0 x.log = [1, 2, 3] ∧
    s.log = [.configured (none, true) (.ok ()), .bufferMade (none, true), .opened 0 0 true, .opened 1 0 true, .closed 1 (.ok ()), .closed 0 (.ok ()), .stopped] ∧
    unreadOf k'.ch 1 = [2, 3] ∧ (bgActs wEnd).countP (·.ofThread 0) = 5 ∧ Ev.closed 0 true ∈ x'.log := by
  refine ⟨_, _, _, _, _, _, rfl, rfl, fun a ha => SB.oneUser_of_check (as := bgActs wUse) rfl a (List.mem_filterMap.2 ⟨_, ha, rfl⟩), rfl, rfl, ?_, rfl, rfl, rfl, rfl, rfl, rfl, rfl, rfl,
    rfl, by decide +kernel⟩
  intro k hk
  revert hk
  have : ∀ l : List (Ev Nat Nat), l.all (fun | .infoRaised _ => false | _ => true) = true → Ev.infoRaised k ∉ l := by
    intro l hl hm
    simpa using List.all_eq_true.1 hl _ hm
  exact this _ (by decide +kernel)

end Witness
end Src
end S2P
