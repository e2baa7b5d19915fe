import Verif.Props.DropLoop
import Verif.Props.EndToEndWitness
/- Cases for Props/DropLoop.lean. -/
namespace S2P
open Spec
namespace SB

/-- Check of `DropsReceived`. -/
def dropOk (cfg : SBCfg Nat Nat) (b i : Nat) (s : S) : List A → Bool
  | [] => match s.view b with
    | some c => decide ((droppedFrom b s.log).length ≤ (received c i).length)
    | none => true
  | a :: as => (match s.view b with
      | some c => decide ((droppedFrom b s.log).length ≤ (received c i).length)
      | none => true) &&
    match s.step cfg a with
    | some s' => dropOk cfg b i s' as
    | none => true

theorem drop_of_check {cfg : SBCfg Nat Nat} {b i : Nat} {as : List A} (h : dropOk cfg b i SB.init as = true) : DropsReceived cfg b i as := by
  have main : ∀ (as : List A) (s : S), dropOk cfg b i s as = true → ∀ as1 as2 s1 c1, as = as1 ++ as2 → s.exec cfg as1 = some s1 → s1.view b = some c1 →
      (droppedFrom b s1.log).length ≤ (received c1 i).length := by
    intro as
    induction as with
    | nil =>
      intro s h as1 as2 s1 c1 e he hv
      have : as1 = [] := by simp at e; exact e.1
      subst this
      simp only [SB.exec, Option.some.injEq] at he; subst he
      simp only [dropOk, hv, decide_eq_true_eq] at h
      exact h
    | cons a as ih =>
      intro s h as1 as2 s1 c1 e he hv
      simp only [dropOk, Bool.and_eq_true] at h
      cases as1 with
      | nil =>
        simp only [SB.exec, Option.some.injEq] at he; subst he
        have := h.1
        simp only [hv, decide_eq_true_eq] at this
        exact this
      | cons a' as1 =>
        simp only [List.cons_append, List.cons.injEq] at e
        obtain ⟨rfl, e⟩ := e
        simp only [SB.exec] at he
        split at he
        · rename_i s2 hs
          have h2 := h.2
          rw [hs] at h2
          exact ih s2 h2 as1 as2 s1 c1 e he hv
        · simp at he
  exact main as SB.init h

/-- `drop()`. -/
def wDrop : List A := [.drop 0 1, .dropGo 0]

/-- The thread finds the buffer full, sleeps. -/
def wFull : List A := [.thr 0, .thr 0, .thr 0, .thr 0]

/-- `maxlen=1`, `auto_drop=False`; the body of a `for` loop drops each item: 1 and 2 are received and dropped, 3 is waiting. In between the thread finds
the buffer full. -/
def wLoop : List A := wStart 7 ++ [.rd 0 (.callIter 0)] ++ wItemM 0 1 ++ wFull ++ [.rd 0 (.go 0)] ++ wDrop ++ [.rd 0 (.go 0)] ++
  wItemM 0 2 ++ [.rd 0 (.go 0)] ++ wDrop ++ wItemM 0 3 ++ wFull

/-- Meets C91: 3 items went through a buffer with room for one; the buffer is full again, with an unread item. -/
theorem C91_meets : ∃ (s : S) (c : Cons Nat Nat), SB.init.exec (mkCfg (some 1) false) wLoop = some s ∧
    (SB.init : S).Settled (mkCfg (some 1) false) wLoop ∧ (∀ a ∈ wLoop, OneUser 0 0 a) ∧ DropsReceived (mkCfg (some 1) false) 0 0 wLoop ∧
    s.view 0 = some c ∧ (dataRead 0 s.log).Pairwise (fun v w => v < w) ∧ received c 0 = [1, 2] ∧ unreadOf c.ch 0 = [3] ∧
    droppedFrom 0 s.log = [1, 2] ∧ s.items 0 = [3] :=
  ⟨_, _, rfl, settled_of_check rfl, oneUser_of_check rfl, drop_of_check rfl, rfl, by decide +kernel, rfl, rfl, rfl, rfl⟩

/-- **C91** needs increasing keys: once `drop()` has emptied the buffer an item with a smaller key is accepted (C57). The consumer of the same loop cannot
see it, the buffer stays full, the source is not read any more. -/
theorem C91_increasing_needed : ∃ (s : S) (c : Cons Nat Nat), SB.init.exec (mkCfg (some 1) false)
      (wStart 7 ++ [.rd 0 (.callIter 0)] ++ wItemM 0 5 ++ [.rd 0 (.go 0)] ++ wDrop ++ [.rd 0 (.go 0)] ++ wItemM 0 3 ++ wFull ++
        [.rd 0 (.go 0), .rd 0 (.go 0), .rd 0 (.go 0), .rd 0 (.go 0), .rd 0 (.go 0)]) = some s ∧
    s.view 0 = some c ∧ received c 0 = [5] ∧ unreadOf c.ch 0 = [] ∧ s.items 0 = [3] ∧ storedIn 0 s.log = [5, 3] ∧ c.pc 0 = .iterCheck :=
  ⟨_, _, rfl, rfl, rfl, rfl, rfl, rfl, rfl⟩

end SB
end S2P
