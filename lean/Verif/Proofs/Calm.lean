import Verif.Props.Join
import Verif.Props.SourceObj
/- `start()` called only when no thread of an earlier session is alive (the first time, or after `join()`): the execution is settled. -/
namespace S2P
variable {σ K V I : Type} [LinearOrder K] [BEq V] {o : SrcObj σ K V I} {cfg : SBCfg K V}

namespace ObjSB

/-- When `start()` is called, no thread is alive. -/
def Calm (o : SrcObj σ K V I) (cfg : SBCfg K V) : ObjSB σ K V I → List (ObjAct K V I) → Prop
  | _, [] => True
  | s, x :: xs => (x = .other .start → ∀ t, (s.sb.thr t).idle = true) ∧ ∀ s', s.step o cfg x = some s' → s'.Calm o cfg xs

theorem calm_settled_from (xs : List (ObjAct K V I)) : ∀ s s' : ObjSB σ K V I, s.exec o cfg xs = some s' → s.Calm o cfg xs →
    (s.sb.start ≠ none → ∀ t, (s.sb.thr t).idle = true) → s.Settled o cfg xs := by
  induction xs with
  | nil => intros; trivial
  | cons x xs ih =>
    intro s s' he hc hq
    simp only [exec] at he
    split at he
    swap
    · simp at he
    rename_i s1 hs
    refine ⟨?_, fun s2 hs2 => ?_⟩
    · intro a _ _ hw t
      have := hq (by rw [hw]; simp) t
      cases ht : s.sb.thr t <;> rw [ht] at this <;> simp [TPC.idle] at this ⊢
    · rw [hs] at hs2; injection hs2 with hs2; subst hs2
      refine ih s1 s' he (hc.2 s1 hs) ?_
      by_cases hx : x = .other .start
      · subst hx
        have hid := hc.1 rfl
        simp [step, act, SBAct.notSource, SB.stores] at hs
        obtain ⟨y, hy, rfl⟩ := hs
        intro _ t
        have hst := SB.step_to hy
        cases hst
        exact hid t
      · obtain ⟨a, ha, hne⟩ : ∃ a, s.sb.step cfg a = some s1.sb ∧ a ≠ .start := by
          cases below hs with
          | other a hx' ha hk hr h e1 e2 =>
            refine ⟨a, h, ?_⟩
            rintro rfl
            rcases hx' with h | ⟨t, h⟩ | ⟨t, e, h⟩
            · exact hx h
            · simp at h
            · simp at h
          | openOk hx h => exact ⟨_, h, by simp⟩
          | openRaise hx e h => exact ⟨_, h, by simp⟩
          | bufOk hx i h => exact ⟨_, h, by simp⟩
          | bufRaise hx e h => exact ⟨_, h, by simp⟩
          | readOk t hx r h => exact ⟨_, h, by simp⟩
          | readRaise t hx e h => exact ⟨_, h, by simp⟩
          | close t hx ok h => exact ⟨_, h, by simp⟩
        exact JSB.after_start ha hne hq

theorem calm_settled {st : σ} {xs : List (ObjAct K V I)} {s : ObjSB σ K V I} (he : (ObjSB.init st).exec o cfg xs = some s)
    (hc : (ObjSB.init st : ObjSB σ K V I).Calm o cfg xs) : (ObjSB.init st : ObjSB σ K V I).Settled o cfg xs :=
  calm_settled_from xs _ _ he hc fun h => by simp [ObjSB.init, SB.init] at h

end ObjSB
end S2P
