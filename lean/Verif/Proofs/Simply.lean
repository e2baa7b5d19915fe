import Verif.Model.Simply
import Verif.Props.Lifecycle
/-
Executions of `mk_stream_buffer` are executions of the stream buffer below it.
-/
namespace S2P
open Spec
variable {K D I : Type}

namespace SB
variable {V : Type} [LT K] [DecidableLT K] [BEq V] {cfg : SBCfg K V}

theorem exec_snoc {as : List (SBAct K V I)} {s0 s s' : SB K V I} {a : SBAct K V I} (he : s0.exec cfg as = some s) (hs : s.step cfg a = some s') :
    s0.exec cfg (as ++ [a]) = some s' := by
  rw [exec_append, he]; simp [exec, hs]

theorem Settled.snoc {as : List (SBAct K V I)} {s0 s : SB K V I} {a : SBAct K V I} (h : s0.Settled cfg as) (he : s0.exec cfg as = some s)
    (hs : s.SettledAt a) : s0.Settled cfg (as ++ [a]) := by
  induction as generalizing s0 with
  | nil => simp only [exec, Option.some.injEq] at he; subst he; exact ⟨hs, fun _ _ => trivial⟩
  | cons b as ih =>
    refine ⟨h.1, fun x hx => ih (h.2 x hx) ?_⟩
    simpa only [exec, hx] using he

end SB

instance [BEq D] [ReflBEq D] : ReflBEq (SItem D) where
  rfl {a} := by
    cases a with
    | pair i d => show ((i == i) && (d == d)) = true; simp
    | raw d => show (d == d) = true; simp

namespace Simp
section
variable [LT K] [DecidableLT K] [BEq D] {en : Bool} {cfg : SBCfg K (SItem D)} {s s' : Simp K D I} {x : SimpAct K D I}

/-- What a step does to the stream buffer, the read counter and the recorded reads. -/
inductive Below (en : Bool) (cfg : SBCfg K (SItem D)) (s s' : Simp K D I) (x : SimpAct K D I) : Prop
  | none (h1 : s'.sb = s.sb) (h2 : s'.readIdx = s.readIdx) (h3 : s'.raw = s.raw)
  | act (a : SBAct K (SItem D) I) (h0 : a.notRead = true) (h0' : a = .startGo → x = .sb .startGo) (h1 : s.sb.step cfg a = some s'.sb)
      (h2 : (a = .startGo ∧ s'.sb.start = some .opening → s'.readIdx = 0) ∧ (¬(a = .startGo ∧ s'.sb.start = some .opening) → s'.readIdx = s.readIdx)) (h3 : s'.raw = s.raw)
      (hkr : a.isKeyRaise = true → x = .sb a) (hst : a = .start → x = .enter ∨ x = .sb .start)
  | read (t : Nat) (d : Option D) (h1 : s.sb.step cfg (.readOk t (simpRead en s.readIdx d)) = some s'.sb) (h2 : s'.readIdx = s.readIdx + 1)
      (h3 : s'.raw = fun j => if j = t then s.raw j ++ [d] else s.raw j)

theorem below (hs : s.step en cfg x = some s') : Below en cfg s s' x := by
  unfold step at hs
  cases x with
  | enter =>
    dsimp only at hs
    split at hs
    · obtain ⟨y, hy, rfl⟩ := Option.map_eq_some_iff.1 hs
      exact .act .start rfl (by simp) hy (by simp) rfl (by simp [SBAct.isKeyRaise]) (by simp)
    · simp at hs
  | entered e =>
    dsimp only at hs
    split at hs
    · split at hs
      · simp only [Option.some.injEq] at hs; subst hs; exact .none rfl rfl rfl
      · obtain ⟨y, hy, rfl⟩ := Option.map_eq_some_iff.1 hs
        exact .act .stop rfl (by simp) hy (by simp) rfl (by simp [SBAct.isKeyRaise]) (by simp)
    · simp at hs
  | leave exc =>
    dsimp only at hs
    split at hs
    · obtain ⟨y, hy, rfl⟩ := Option.map_eq_some_iff.1 hs
      exact .act .stop rfl (by simp) hy (by simp) rfl (by simp [SBAct.isKeyRaise]) (by simp)
    · simp at hs
  | leftStop =>
    dsimp only at hs
    split at hs
    · obtain ⟨y, hy, rfl⟩ := Option.map_eq_some_iff.1 hs
      exact .act .stopEnd rfl (by simp) hy (by simp) rfl (by simp [SBAct.isKeyRaise]) (by simp)
    · simp at hs
  | read t d =>
    dsimp only at hs
    obtain ⟨y, hy, rfl⟩ := Option.map_eq_some_iff.1 hs
    exact .read t d hy rfl rfl
  | sb a =>
    dsimp only at hs
    split at hs
    · rename_i hc
      obtain ⟨y, hy, rfl⟩ := Option.map_eq_some_iff.1 hs
      refine .act a hc.1 (by rintro rfl; rfl) hy ?_ rfl (fun _ => rfl) (by rintro rfl; exact .inr rfl)
      cases a <;> grind
    · simp at hs

/-- As for the stream buffer (`SB.SettledAt`): when a restart gets past its stop phase, every earlier thread has ended. -/
def SettledAt (s : Simp K D I) (x : SimpAct K D I) : Prop :=
  x = .sb .startGo → s.sb.start = some .wipe → ∀ t, (s.sb.thr t).idle = true

def Settled (en : Bool) (cfg : SBCfg K (SItem D)) : Simp K D I → List (SimpAct K D I) → Prop
  | _, [] => True
  | s, x :: xs => s.SettledAt x ∧ ∀ s', s.step en cfg x = some s' → s'.Settled en cfg xs

theorem exec_ind {P : Simp K D I → Prop} {xs : List (SimpAct K D I)} (hstep : ∀ s x s', x ∈ xs → P s → s.step en cfg x = some s' → P s')
    {s s' : Simp K D I} (h : P s) (he : s.exec en cfg xs = some s') : P s' := by
  induction xs generalizing s with
  | nil => simp only [exec, Option.some.injEq] at he; exact he ▸ h
  | cons a as ih =>
    simp only [exec] at he
    split at he
    · exact ih (fun s x s' hx => hstep s x s' (by simp [hx])) (hstep _ _ _ List.mem_cons_self h ‹_›) he
    · simp at he

theorem exec_ind_settled {P : Simp K D I → Prop} {xs : List (SimpAct K D I)}
    (hstep : ∀ s x s', x ∈ xs → P s → s.step en cfg x = some s' → s.SettledAt x → P s')
    {s s' : Simp K D I} (h : P s) (he : s.exec en cfg xs = some s') (hset : s.Settled en cfg xs) : P s' := by
  induction xs generalizing s with
  | nil => simp only [exec, Option.some.injEq] at he; exact he ▸ h
  | cons a as ih =>
    simp only [exec] at he
    split at he
    · exact ih (fun s x s' hx => hstep s x s' (by simp [hx])) (hstep _ _ _ List.mem_cons_self h ‹_› hset.1) he (hset.2 _ ‹_›)
    · simp at he

/-- There is a (settled) execution of the stream buffer alone that reaches the same state. -/
def Real (cfg : SBCfg K (SItem D)) (s : SB K (SItem D) I) : Prop := ∃ bs, SB.init.exec cfg bs = some s
def RealS (cfg : SBCfg K (SItem D)) (s : SB K (SItem D) I) : Prop := ∃ bs, SB.init.exec cfg bs = some s ∧ SB.init.Settled cfg bs

theorem Real.step (h : Real cfg s.sb) (hb : Below en cfg s s' x) : Real cfg s'.sb := by
  obtain ⟨bs, he⟩ := h
  cases hb with
  | none h1 => exact ⟨bs, h1 ▸ he⟩
  | act a _ _ h1 => exact ⟨_, SB.exec_snoc he h1⟩
  | read t d h1 => exact ⟨_, SB.exec_snoc he h1⟩

theorem RealS.step (h : RealS cfg s.sb) (hb : Below en cfg s s' x) (hset : s.SettledAt x) : RealS cfg s'.sb := by
  obtain ⟨bs, he, hs⟩ := h
  cases hb with
  | none h1 => exact ⟨bs, h1 ▸ he, hs⟩
  | act a _ h0 h1 => exact ⟨_, SB.exec_snoc he h1, hs.snoc he fun ha hw => hset (h0 ha) hw⟩
  | read t d h1 => exact ⟨_, SB.exec_snoc he h1, hs.snoc he fun ha => by simp at ha⟩

end
end Simp
end S2P
