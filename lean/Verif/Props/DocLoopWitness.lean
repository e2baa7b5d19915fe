import Verif.Props.DocLoop
import Verif.Props.WholePathWitness
import Verif.Props.DropWitness
/- Cases for Props/LoopEnd.lean and Props/DocLoop.lean: the example of simply.py 9-26 itself. -/
namespace S2P
open Spec
namespace Simp

/-- Check of the conditions on single actions. -/
def xPlain : XA → Bool
  | .sb (.rd _ (.call _)) | .sb (.rd _ (.callRead ..)) | .sb (.attach ..) | .sb (.keyRaise ..) | .sb .start => false
  | _ => true

theorem plain_of_check {xs : List XA} (h : xs.all xPlain = true) :
    (∀ a, .sb a ∈ xs → SB.OneUser 0 0 a ∧ a.isKeyRaise = false) ∧ SimpAct.sb SBAct.start ∉ xs := by
  have h := List.all_eq_true.1 h
  refine ⟨fun a ha => ?_, fun ha => by simpa [xPlain] using h _ ha⟩
  have := h _ ha
  cases a with
  | rd b x =>
    refine ⟨fun _ => ?_, rfl⟩
    cases x <;> first | trivial | simp [xPlain] at this
  | keyRaise => simp [xPlain] at this
  | attach => simp [xPlain] at this
  | _ => exact ⟨trivial, rfl⟩

/-- Check of `DropsReceived`. -/
def xDropOk (cfg : SBCfg Nat (SItem Nat)) (b i : Nat) (s : XS) : List XA → Bool
  | [] => match s.sb.view b with
    | some c => decide ((droppedFrom b s.sb.log).length ≤ (received c i).length)
    | none => true
  | a :: as => (match s.sb.view b with
      | some c => decide ((droppedFrom b s.sb.log).length ≤ (received c i).length)
      | none => true) &&
    match s.step true cfg a with
    | some s' => xDropOk cfg b i s' as
    | none => true

theorem xdrop_of_check {cfg : SBCfg Nat (SItem Nat)} {b i : Nat} {as : List XA} (h : xDropOk cfg b i init as = true) : DropsReceived cfg b i as := by
  have main : ∀ (as : List XA) (s : XS), xDropOk cfg b i s as = true → ∀ as1 as2 s1 c1, as = as1 ++ as2 → s.exec true cfg as1 = some s1 → s1.sb.view b = some c1 →
      (droppedFrom b s1.sb.log).length ≤ (received c1 i).length := by
    intro as
    induction as with
    | nil =>
      intro s h as1 as2 s1 c1 e he hv
      have : as1 = [] := by simp at e; exact e.1
      subst this
      simp only [exec, Option.some.injEq] at he; subst he
      simp only [xDropOk, hv, decide_eq_true_eq] at h
      exact h
    | cons a as ih =>
      intro s h as1 as2 s1 c1 e he hv
      simp only [xDropOk, Bool.and_eq_true] at h
      cases as1 with
      | nil =>
        simp only [exec, Option.some.injEq] at he; subst he
        have := h.1
        simp only [hv, decide_eq_true_eq] at this
        exact this
      | cons a' as1 =>
        simp only [List.cons_append, List.cons.injEq] at e
        obtain ⟨rfl, e⟩ := e
        simp only [exec] at he
        split at he
        · rename_i s2 hs
          have := h.2
          rw [hs] at this
          exact ih s2 this as1 as2 s1 c1 e he hv
        · simp at he
  exact main as _ h

/-- Check that nobody called `stop()`. -/
theorem noStop_of_check {V I : Type} {l : List (Ev V I)} (h : l.all (fun | .stopCalled _ => false | _ => true) = true) : ∀ r, Ev.stopCalled r ∉ l :=
  fun r hr => by simpa using List.all_eq_true.1 h _ hr

/-- `next(counter)` gives `d` and the thread stores it (`auto_drop=False`: it has looked at the length before). -/
def dRead (d : Nat) : List XA := [.sb (.thr 0), .sb (.thr 0), .sb (.thr 0), .read 0 (some d), .sb (.thr 0), .sb (.thr 0)]
/-- The body of the loop is given an item and calls `count_stream_buffer.drop()`. -/
def dBody : List XA := [.sb (.rd 0 (.go 0)), .sb (.drop 0 1), .sb (.dropGo 0), .sb (.rd 0 (.go 0))]
/-- `next(counter)` raises `StopIteration`, the thread sets the stop event. -/
def dEnd : List XA := [.sb (.thr 0), .sb (.thr 0), .sb (.thr 0), .sb (.readRaise 0 .stopIteration), .sb (.thr 0), .sb (.thr 0), .sb (.close 0 true)]

/-- The documented example up to the end of the loop: all numbers are stored and given to the loop one by one, but the last one is stored, and the stop event
set, after the loop has looked into the buffer and before it looks at the event. -/
def dDoc : List XA := xEnter ++ [.sb .mkReader, .sb (.rd 0 (.callIter 0))] ++ (List.range 9).flatMap (fun d => dRead d ++ dBody) ++ [.sb (.rd 0 (.go 0))] ++ dRead 9 ++ dEnd ++
  [.sb (.rd 0 (.go 0))]

/-- Meets C108, and refutes **C109** (the documented loop prints all ten numbers): it ends after nine of them, the tenth is in the buffer. -/
theorem C109_refuted : ∃ (s : XS) (c : Cons Nat (SItem Nat)), init.exec true (xCfg (some 2) false) dDoc = some s ∧
    (∀ a, .sb a ∈ dDoc → SB.OneUser 0 0 a ∧ a.isKeyRaise = false) ∧ SimpAct.sb SBAct.start ∉ dDoc ∧ DropsReceived (xCfg (some 2) false) 0 0 dDoc ∧
    s.raw 0 = (List.range 10).map some ∧ (∀ r, Ev.stopCalled r ∉ s.sb.log) ∧ s.sb.view 0 = some c ∧
    c.evtsOf 0 = (List.range 9).map (fun n => .yielded (.one (.pair n (some n)))) ++ [.loopDone] ∧
    unreadOf c.ch 0 = [.pair 9 (some 9)] ∧ received c 0 ≠ enumerated ((List.range 10).map some) :=
  ⟨_, _, rfl, (plain_of_check (by decide +kernel)).1, (plain_of_check (by decide +kernel)).2, xdrop_of_check (by decide +kernel), rfl, noStop_of_check rfl, rfl, rfl, rfl,
    by decide +kernel⟩

/-- Meets `C109_second_loop_partial`: the loop is run again, is given the tenth number, drops it, and ends. -/
theorem C109_meets : ∃ (s s' : XS) (c c' : Cons Nat (SItem Nat)), init.exec true (xCfg (some 2) false) (dDoc ++ [.sb (.rd 0 (.callIter 0))]) = some s ∧
    s.exec true (xCfg (some 2) false) (dBody ++ [.sb (.rd 0 (.go 0)), .sb (.rd 0 (.go 0))]) = some s' ∧
    (∀ a, .sb a ∈ dDoc ++ [.sb (.rd 0 (.callIter 0))] ++ (dBody ++ [.sb (.rd 0 (.go 0)), .sb (.rd 0 (.go 0))]) → SB.OneUser 0 0 a ∧ a.isKeyRaise = false) ∧
    (∀ a, .sb a ∈ (dBody ++ [.sb (.rd 0 (.go 0)), .sb (.rd 0 (.go 0))] : List XA) → SB.isLeave 0 0 a = false) ∧
    DropsReceived (xCfg (some 2) false) 0 0 (dDoc ++ [.sb (.rd 0 (.callIter 0))] ++ (dBody ++ [.sb (.rd 0 (.go 0)), .sb (.rd 0 (.go 0))])) ∧
    s.sb.view 0 = some c ∧ BetweenReads (c.pc 0) ∧
    unreadOf c.ch 0 = [.pair 9 (some 9)] ∧ 2 ≤ (userActs (dBody ++ [.sb (.rd 0 (.go 0)), .sb (.rd 0 (.go 0))] : List XA)).countP (SB.isGo 0 0) ∧
    s'.sb.view 0 = some c' ∧ received c' 0 = enumerated ((List.range 10).map some) ∧ s'.sb.items 0 = [] :=
  ⟨_, _, _, _, rfl, rfl, (plain_of_check (by decide +kernel)).1, by intro a ha; simp [dBody] at ha; rcases ha with h | h | h | h <;> subst h <;> rfl,
    xdrop_of_check (by decide +kernel), rfl, trivial, rfl, by decide +kernel, rfl, rfl, rfl⟩

end Simp

namespace SB

/-- After the end of the source: an item is dropped, the loop goes on to its end. -/
def wTail : List A := [.drop 0 1, .dropGo 0] ++ List.replicate 4 (.rd 0 (.go 0))

/-- Meets C107: `auto_drop=False`, two items in the buffer when the source has been closed, one is dropped unread by somebody, the loop gets the other and ends. -/
theorem C107_meets : ∃ (s s' : S) (c c' : Cons Nat Nat),
    SB.init.exec (mkCfg (some 3) false) (wStart 7 ++ [.rd 0 (.callIter 0)] ++ wItemM 0 1 ++ wItemM 0 2 ++
      [.thr 0, .thr 0, .thr 0, .readRaise 0 .valueError, .thr 0, .thr 0, .close 0 true]) = some s ∧
    s.exec (mkCfg (some 3) false) wTail = some s' ∧
    (SB.init : S).Settled (mkCfg (some 3) false) (wStart 7 ++ [.rd 0 (.callIter 0)] ++ wItemM 0 1 ++ wItemM 0 2 ++
      [.thr 0, .thr 0, .thr 0, .readRaise 0 .valueError, .thr 0, .thr 0, .close 0 true] ++
      wTail) ∧
    Ev.closed 0 true ∈ s.log ∧ s.view 0 = some c ∧ unreadOf c.ch 0 = [1, 2] ∧ InLoop (c.pc 0) ∧
    wTail.countP (isGo (I := Nat) 0 0) = 4 ∧ (∀ a ∈ wTail, OneUser 0 0 a) ∧ (∀ a ∈ wTail, isLeave 0 0 a = false) ∧ s'.view 0 = some c' ∧
    c'.evtsOf 0 = [.yielded (.one 2), .loopDone] :=
  ⟨_, _, _, _, rfl, rfl, settled_of_check rfl, by decide +kernel, rfl, rfl, trivial, by decide +kernel, oneUser_of_check rfl, stay_of_check rfl, rfl, rfl⟩

end SB
end S2P
