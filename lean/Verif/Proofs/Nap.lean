import Verif.Model.Nap
import Verif.Proofs.StreamBuffer
/-
Proofs for C173: no step looks at the log.
-/
namespace S2P
open Spec
variable {K V I : Type} [LT K] [DecidableLT K] [BEq V] {cfg : SBCfg K V}

namespace SB

set_option maxHeartbeats 4000000 in
theorem log_unseen {s s' : SB K V I} {a : SBAct K V I} (hs : s.step cfg a = some s') :
    ∃ l, s'.log = s.log ++ l ∧ ∀ L, ({ s with log := L } : SB K V I).step cfg a = some { s' with log := L ++ l } := by
  cases a <;> simp only [step, thrGo, startGo] at hs <;> (repeat' split at hs) <;> first
    | (exfalso; simp at hs; done)
    | (injection hs with hs; subst hs
       refine ⟨_, by simp only [say, setThr, setBuf, setEvent, setNext, setDrop, setInfo, List.append_assoc]; first | rfl | exact (List.append_nil _).symm, fun L => ?_⟩
       simp_all [step, thrGo, startGo, say, setThr, setBuf, setEvent, setNext, setDrop, setInfo, running] <;> rw [if_neg (Nat.not_lt.2 (by assumption))])

end SB
end S2P
