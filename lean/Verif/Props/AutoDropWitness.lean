import Verif.Props.AutoDrop
import Verif.Props.EndToEndWitness
/-
Concrete executions for C130.
-/
namespace S2P
open Spec
namespace ASB
open SB (mkCfg wStart wItem wItemM wNext A)

abbrev T := ASB Nat Nat Nat

def settledOk (cfg : SBCfg Nat Nat) : T → List (AAct Nat Nat Nat) → Bool
  | _, [] => true
  | s, a :: as =>
    (match a, s.sb.start with
      | .act .startGo, some .wipe => (List.range s.sb.n).all (fun t => (s.sb.thr t).idle)
      | _, _ => true) &&
    (match s.step cfg a with | some s' => s'.settledOk cfg as | none => true)

theorem settled_of_check {cfg : SBCfg Nat Nat} (as : List (AAct Nat Nat Nat)) : ∀ s : T, s.sb.Inv → s.settledOk cfg as = true → s.Settled cfg as := by
  induction as with
  | nil => intro s _ _; trivial
  | cons a as ih =>
    intro s hi h
    simp only [settledOk, Bool.and_eq_true] at h
    refine ⟨?_, fun s' hs' => ?_⟩
    · intro x hx ha hs t
      subst hx ha
      rw [hs] at h
      have h1 := h.1
      simp only [List.all_eq_true, List.mem_range] at h1
      by_cases ht : t < s.sb.n
      · exact h1 t ht
      · rw [hi.noThr t (by omega)]; rfl
    · have h2 := h.2
      rw [hs'] at h2
      refine ih s' ?_ h2
      cases a with
      | assign x => simp only [step, Option.some.injEq] at hs'; subst hs'; exact hi
      | act a => exact hi.step (step_act hs').2

def acts (l : List A) : List (AAct Nat Nat Nat) := l.map .act

theorem isAct (l : List A) : ∀ a ∈ acts l, IsAct a := by
  intro a ha
  obtain ⟨x, -, rfl⟩ := List.mem_map.1 ha
  trivial

/-- `auto_drop=True`, room for two: 1 and 2 are stored, the thread is inside `read()` when `auto_drop` is set to `False`. -/
def w1 : List (AAct Nat Nat Nat) := acts (wStart 7 ++ wItem 0 1 ++ wItem 0 2 ++ [.thr 0, .thr 0]) ++ [.assign false]

/-- 3 is stored and pushes out 1; the thread finds the buffer full and sleeps; `drop(1)`; 4 is stored. -/
def w2 : List A := [.readOk 0 (some 3), .thr 0, .thr 0] ++ [.thr 0, .thr 0, .thr 0, .thr 0, .drop 0 1, .dropGo 0] ++ wItemM 0 4

/-- Meets C130: one item is lost after the switch to `False`, none after that; back to `True`, 5 pushes out 3. -/
theorem C130_meets : ∃ s s1 s2 s3 : T, (init (mkCfg (some 2) true)).exec (mkCfg (some 2) true) w1 = some s ∧ s.auto = false ∧
    s.sb.items 0 = [1, 2] ∧ s.exec (mkCfg (some 2) true) (acts w2) = some s1 ∧ s1.sb.items 0 = [3, 4] ∧ storedIn 0 s1.sb.log = [1, 2, 3, 4] ∧
    droppedFrom 0 s1.sb.log = [2] ∧ (init (mkCfg (some 2) true)).Settled (mkCfg (some 2) true) (w1 ++ acts w2) ∧
    s1.exec (mkCfg (some 2) true) [.assign true] = some s2 ∧ s2.auto = true ∧ (∀ c n, s2.sb.drops c ≠ some (0, n)) ∧
    s2.exec (mkCfg (some 2) true) (acts (wItem 0 5)) = some s3 ∧ s3.sb.items 0 = [4, 5] := by
  refine ⟨_, _, _, _, rfl, rfl, rfl, rfl, rfl, rfl, rfl, settled_of_check _ _ SB.Inv.init rfl, rfl, rfl, ?_, rfl, rfl⟩
  intro c n
  by_cases hc : c = 0
  · subst hc; exact fun h => nomatch (show (none : Option (Nat × Int)) = some (0, n) from h)
  · simp [SB.say, SB.setDrop, SB.setBuf, SB.setThr, SB.init, init, hc]

/-- Meets C130 for a consumer: it got 1 and 2, and can still read 3; 1 is no longer retained. -/
theorem C130_meets_consumer : ∃ (s : T) (c : Cons Nat Nat),
    (init (mkCfg (some 2) true)).exec (mkCfg (some 2) true) (w1 ++ acts (wNext 0) ++ acts ([.readOk 0 (some 3), .thr 0, .thr 0] ++ wNext 0)) = some s ∧
    s.sb.view 0 = some c ∧ received c 0 = [1, 2] ∧ unreadOf c.ch 0 = [3] ∧ storedIn 0 s.sb.log = [1, 2, 3] ∧ s.sb.items 0 = [2, 3] :=
  ⟨_, _, rfl, rfl, rfl, rfl, rfl, rfl⟩

/-- Meets C130_resumes: full after 2 items with `auto_drop=False`, the thread sleeps; `auto_drop` is set. -/
theorem C130_meets_resumes : ∃ s : T, (init (mkCfg (some 2) false)).exec (mkCfg (some 2) false)
    (acts (wStart 7 ++ wItemM 0 1 ++ wItemM 0 2 ++ [.thr 0, .thr 0, .thr 0]) ++ [.assign true]) = some s ∧
    s.auto = true ∧ s.sb.running = true ∧ s.sb.thr 0 = .sleeping ∧ s.sb.items 0 = [1, 2] := ⟨_, rfl, rfl, rfl, rfl, rfl⟩

end ASB
end S2P
