import Verif.Props.Fine
import Verif.Props.EndToEndWitness
import Verif.Props.LinearWitness
/- Concrete executions for C163. -/
namespace S2P.FineW
open Spec SB

abbrev FA := FAct Nat Nat Nat

def sb (l : List A) : List FA := l.map .sb

def low (b : Nat) (w : Who) (n : Nat) : List FA := List.replicate n (.low b w)

def cfg1 : SBCfg Nat Nat := mkCfg none true
def cfg2 : SBCfg Nat Nat := mkCfg (some 1) false

def s0 (cfg : SBCfg Nat Nat) : FSB Nat Nat Nat := FSB.init 8 cfg

/-- Check of `QuietLooks`. -/
def quiet (cfg : SBCfg Nat Nat) : FSB Nat Nat Nat → List FA → Bool
  | _, [] => true
  | s, x :: xs => (match s.looksAt x with | some b => (s.lm b).m.th.all fun t => t.pc != .wCS | none => true) &&
      (match s.step cfg x with | some s' => quiet cfg s' xs | none => true)

theorem quiet_sound {cfg : SBCfg Nat Nat} {s : FSB Nat Nat Nat} {xs : List FA} (h : quiet cfg s xs = true) : s.QuietLooks cfg xs := by
  induction xs generalizing s with
  | nil => trivial
  | cons x xs ih =>
    simp only [quiet, Bool.and_eq_true] at h
    refine ⟨fun b hb t ht => ?_, fun s' hs' => ih ?_⟩
    · have := h.1
      rw [hb] at this
      simp only [List.all_eq_true] at this
      simpa using this t ht
    · have := h.2
      rw [hs'] at this
      exact this

/-- Session 0 is started; 1 arrives from the source; the consumer calls `next` while the reading thread is in the middle of its append, waits for it, and gets 1;
2 is on its way, the append waiting for the consumer that is still leaving the lock. -/
def acts : List FA := sb (wStart 7) ++ sb [.thr 0, .thr 0, .readOk 0 (some 1), .thr 0, .rd 0 (.callNext 0)] ++
  sb [.thr 0] ++ low 0 (.thr 0) 7 ++ sb [.rd 0 (.go 0)] ++ low 0 (.thr 0) 6 ++ low 0 (.cons 0) 6 ++
  sb [.thr 0, .thr 0, .readOk 0 (some 2), .thr 0, .thr 0] ++ low 0 (.cons 0) 9 ++ low 0 (.thr 0) 1


/-- `maxlen=1, auto_drop=False`: 1 is stored; the thread finds the buffer full and sleeps; the item is dropped, the thread taking the length while `drop` waits
for the lock, which a direct `head` holds, and again after it has left its section. -/
def acts2 : List FA := sb (wStart 7) ++ sb [.thr 0, .thr 0, .thr 0, .readOk 0 (some 1), .thr 0, .thr 0] ++ low 0 (.thr 0) 13 ++
  sb [.thr 0, .thr 0] ++ [.direct 0 0 (.head true)] ++ low 0 (.direct 0) 5 ++ sb [.drop 0 1, .dropGo 0] ++ low 0 (.dropper 0) 2 ++ sb [.thr 0, .thr 0] ++
  low 0 (.direct 0) 9 ++ low 0 (.dropper 0) 7 ++ sb [.thr 0, .thr 0, .thr 0]

/-- Check of the conditions of C163: only session 0 is used. -/
theorem nonOverlapping {s : FSB Nat Nat Nat} (h0 : LMW.check (s.lm 0).hist = true) (h1 : ∀ k, (s.lm (k + 1)).hist = []) :
    ∀ b r, NonOverlapping (LM.onReader r) (s.lm b).hist := by
  intro b r
  cases b with
  | zero => exact LMW.check_sound _ h0 r
  | succ k => rw [h1 k]; exact LMW.check_sound _ rfl r

theorem C163_meets : ∃ s, (s0 cfg1).exec cfg1 acts = some s ∧ (∀ b r, NonOverlapping (LM.onReader r) (s.lm b).hist) ∧ (s0 cfg1).QuietLooks cfg1 acts ∧
    (∀ x ∈ acts, FSB.OneUser 0 0 x) ∧ s.Quiet 0 ∧ ((s.lm 0).pend 0).isSome = true ∧ ((s.lm 0).pend 2).isSome = true ∧ (s.lm 0).m.data.items = [1] ∧
    (s.sb.view 0).map (received · 0) = some [1] ∧ s.sb.thr 0 = .storing 0 2 := by
  refine ⟨_, rfl, nonOverlapping rfl fun _ => rfl, quiet_sound rfl, ?_, ?_, rfl, rfl, rfl, rfl, rfl⟩
  · intro x hx
    have : ∀ l : List FA, (l.all fun | .sb a => oneUserOk 0 0 a | .direct _ _ _ => false | .low _ _ => true) = true → ∀ x ∈ l, FSB.OneUser 0 0 x := by
      intro l h x hx
      rw [List.all_eq_true] at h
      have h := h x hx
      cases x with
      | sb a => exact oneUser_of_check (as := [a]) (by simpa using h) a (by simp)
      | direct => cases h
      | low => trivial
    exact this acts rfl x hx
  · intro t ht
    have : ∀ l : List (RW.Th (SD Nat Nat) (RW.WOp Nat)), (l.all fun t => t.pc != .wCS) = true → ∀ t ∈ l, t.pc ≠ .wCS := by
      intro l h t ht
      rw [List.all_eq_true] at h
      simpa using h t ht
    exact this _ rfl t ht

/-- With looks at the length before and after a drop, and a direct call. -/
theorem C163_meets_drop : ∃ s, (s0 cfg2).exec cfg2 acts2 = some s ∧ (∀ b r, NonOverlapping (LM.onReader r) (s.lm b).hist) ∧ (s0 cfg2).QuietLooks cfg2 acts2 ∧
    (s.lm 0).m.data.items = [] ∧ ((s.lm 0).pend 1).isSome = true ∧ s.sb.thr 0 = .reading ∧ 
    (s.lm 0).hist = [.inv 0 (.append 1), .ret 0 (.ok .none), .inv 1 (.rd 0 (.head true)), .inv 2 (.drop 1), .ret 1 (.ok (.one 1))] :=
  ⟨_, rfl, nonOverlapping rfl fun _ => rfl, quiet_sound rfl, rfl, rfl, rfl, rfl⟩

end S2P.FineW
