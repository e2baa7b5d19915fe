import Verif.Proofs.Session
/- What the log of a StreamBuffer says about its state. -/
namespace S2P
open Spec
variable {K V I : Type}

namespace Spec
/-- One event of `current`. -/
def curStep (c : Option Nat) : Ev V I → Option Nat
  | .bufferMade k _ => some k
  | .openRaised _ => none
  | .infoRaised _ => none
  | _ => c

theorem current_snoc (l : List (Ev V I)) (e : Ev V I) : current (l ++ [e]) = curStep (current l) e := by
  simp only [current, List.foldl_append, List.foldl_cons, List.foldl_nil]
  cases e <;> rfl
end Spec

namespace SB
section
variable [LT K] [DecidableLT K] [BEq V] {cfg : SBCfg K V} {s s' : SB K V I} {a : SBAct K V I}

/-- The log agrees with the state, in every execution. -/
structure LogInv (s : SB K V I) : Prop where
  flag : ∀ e, s.flag e = true ↔ Ev.eventSet e ∈ s.log
  closed : ∀ t ok, Ev.closed t ok ∈ s.log → s.thr t = .done
  closed' : ∀ t, s.thr t = .done → ∃ ok, Ev.closed t ok ∈ s.log
  launched : ∀ t, Ev.launched t ∈ s.log → s.thr t ≠ .unborn ∧ s.thr t ≠ .fresh
  launched' : ∀ t, s.thr t ≠ .unborn → s.thr t ≠ .fresh → Ev.launched t ∈ s.log
  cur : (∀ p, s.start = some p → p.late = true → p = .launch) → s.sourceBuffer = current s.log
  latest : ∀ k, (Ev.opened k ∈ s.log ∨ Ev.openRaised k ∈ s.log) → k < s.n
  made : ∀ k i, Ev.bufferMade k i ∈ s.log → k < s.n ∧ Ev.opened k ∈ s.log
  opn : s.start = some .mkBuf → Ev.opened (s.n - 1) ∈ s.log
  info : ∀ b x, s.buf b = some x → Ev.bufferMade b x.info ∈ s.log

theorem LogInv.init : (SB.init : SB K V I).LogInv := by
  constructor <;> simp [SB.init, current]

set_option maxHeartbeats 16000000 in
theorem LogInv.step (h0 : s.Inv) (h : s.LogInv) (hs : s.step cfg a = some s') : s'.LogInv := by
  obtain ⟨h1, h2, h3, h4, h5, h6, h7, h8⟩ := h0
  obtain ⟨g1, g2, g2', g3, g3', g4, g5, g6, g6', g7⟩ := h
  have hst := step_to hs
  clear hs
  cases hst
  all_goals
    try simp only [say, setThr, setBuf, setEvent, setNext, setDrop, setInfo, newSess, running] at *
    refine ⟨?_, ?_, ?_, ?_, ?_, ?_, ?_, ?_, ?_, ?_⟩ <;> dsimp only
  all_goals first
    | assumption
    | grind only [List.mem_append, List.mem_cons, List.not_mem_nil]
    | grind [PhaseOk, StartPC.late, curStep, current_snoc]

end
end SB
end S2P
