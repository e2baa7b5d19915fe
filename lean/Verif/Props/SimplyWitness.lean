import Verif.Props.Simply
import Verif.Props.SBWitness
/-
Concrete uses of mk_stream_buffer: cases that meet the hypotheses of Props/Simply.lean, and counterexamples.
-/
namespace S2P
open Spec
namespace Simp

deriving instance DecidableEq for SItem

abbrev XA := SimpAct Nat Nat Nat
abbrev XS := Simp Nat Nat Nat

/-- `key = lambda x: x[0]` (`raw d` has no first component; the key is then the datum). -/
def xCfg (maxlen : Option Nat) (autoDrop : Bool) : SBCfg Nat (SItem Nat) :=
  { maxlen := maxlen, autoDrop := autoDrop, key := fun | .pair i _ => i | .raw d => d, keyNone := .error .typeError, rdCfg := fun _ => Cfg.default }

/-- The `with` statement up to the body. -/
def xEnter : List XA :=
  [.enter, .sb .startGo, .sb .startGo, .sb .startGo, .sb .startGo, .sb .startGo, .sb .openOk, .sb (.bufOk 0), .sb .startGo, .entered .valueError]
/-- Thread `t` reads `d` (enumerated, or not `None`) and stores it. -/
def xRead (t : Nat) (d : Option Nat) : List XA := [.sb (.thr t), .sb (.thr t), .read t d, .sb (.thr t), .sb (.thr t)]
/-- A restart in the body while the stream runs. -/
def xRestart : List XA :=
  [.sb .start, .sb .startGo, .sb .startGo, .sb .startGo, .sb .startGo, .sb .startGo, .sb .startGo, .sb .startGo, .sb .openOk, .sb (.bufOk 0), .sb .startGo]

/-- Non-trivial cases: three reads of decreasing data, one of them `None`, a buffer of two items, leaving by an exception. -/
def xRun : List XA := xEnter ++ xRead 0 (some 9) ++ xRead 0 none ++ xRead 0 (some 3) ++ [.leave (some .typeError), .leftStop]

theorem C51_meets : ∃ s : XS, init.exec true (xCfg (some 2) true) xRun = some s ∧ SimpAct.sb SBAct.start ∉ xRun ∧
    (∀ a, .sb a ∈ xRun → a.isKeyRaise = false) ∧ s.raw 0 = [some 9, none, some 3] ∧
    storedIn 0 s.sb.log = [.pair 0 (some 9), .pair 1 none, .pair 2 (some 3)] ∧ s.sb.items 0 = [.pair 1 none, .pair 2 (some 3)] ∧
    s.pc = .done (some .typeError) := by
  refine ⟨_, rfl, ?_, ?_, rfl, rfl, rfl, rfl⟩
  · simp [xRun, xEnter, xRead]
  · intro a ha
    simp only [xRun, xEnter, xRead, List.cons_append, List.nil_append, List.mem_cons, List.not_mem_nil, or_false, reduceCtorEq, SimpAct.sb.injEq,
      false_or] at ha
    rcases ha with rfl | rfl | rfl | rfl | rfl | rfl | rfl | rfl | rfl | rfl | rfl | rfl | rfl | rfl | rfl | rfl | rfl | rfl | rfl | rfl <;> rfl

/-- **C82** is false after a restart that does not wait for the reader thread: the counter starts again at 0 while the old thread still reads, the old thread's
item `(0, 7)` comes to the new buffer after `(1, 8)` and is rejected, and the old thread stops the new session. -/
theorem C82_refuted : ∃ (xs : List XA) (s : XS), init.exec true (xCfg (some 100) true) xs = some s ∧ (∀ a, .sb a ∈ xs → a.isKeyRaise = false) ∧
    Ev.refused 0 1 (.pair 0 (some 7)) .valueError ∈ s.sb.log ∧ s.sb.flag 1 = true ∧ Ev.stopCalled (.ok ()) ∉ s.sb.log ∧ s.pc = .body := by
  refine ⟨xEnter ++ [.sb (.thr 0), .sb (.thr 0)] ++ xRestart ++ [.read 0 (some 7)] ++ xRead 1 (some 8) ++
    [.sb (.thr 0), .sb (.thr 0), .sb (.thr 0), .sb (.thr 0)], _, rfl, ?_, ?_, ?_, ?_, ?_⟩
  · intro a ha
    simp only [xRestart, xEnter, xRead, List.cons_append, List.nil_append, List.mem_cons, List.not_mem_nil, or_false, reduceCtorEq, SimpAct.sb.injEq,
      false_or] at ha
    rcases ha with rfl | rfl | rfl | rfl | rfl | rfl | rfl | rfl | rfl | rfl | rfl | rfl | rfl | rfl | rfl | rfl | rfl | rfl | rfl | rfl | rfl | rfl |
      rfl | rfl | rfl | rfl | rfl | rfl | rfl <;> rfl
  · decide
  · rfl
  · decide
  · rfl

/-- **C52** is false with the defaults: `read_stream` returns `None` and `(0, None)` is stored. -/
theorem C52_refuted_witness : ∃ (xs : List XA) (s : XS), init.exec true (xCfg (some 100) true) xs = some s ∧ s.raw 0 = [none] ∧
    storedIn 0 s.sb.log = [.pair 0 none] := ⟨xEnter ++ xRead 0 none, _, rfl, rfl, rfl⟩

/-- `enumerate_data=False`: `None` is skipped. -/
theorem C52_meets : ∃ s : XS, init.exec false (xCfg (some 100) true) (xEnter ++ xRead 0 (some 3) ++
      [.sb (.thr 0), .sb (.thr 0), .read 0 none, .sb (.thr 0)] ++ xRead 0 (some 4)) = some s ∧
    s.raw 0 = [some 3, none, some 4] ∧ storedIn 0 s.sb.log = [.raw 3, .raw 4] := ⟨_, rfl, rfl, rfl⟩

/-- **C53**: `open_stream` raises. -/
theorem C53_meets : ∃ s : XS, init.exec true (xCfg (some 100) true)
      [.enter, .sb .startGo, .sb .startGo, .sb .startGo, .sb .startGo, .sb .startGo, .sb .openRaise, .entered .typeError, .leftStop] = some s ∧
    s.pc = .done (some .typeError) := ⟨_, rfl, rfl⟩

end Simp
end S2P
