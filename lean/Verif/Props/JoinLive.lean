import Verif.Props.Join
/- C89: `stop()` then `join()` returns. -/
namespace S2P
open Spec
variable {K V I : Type} [LinearOrder K] [BEq V] {cfg : SBCfg K V} {s s' : JSB K V I} {xs ys : List (JAct K V I)}

namespace SB
theorem Settled.split {as bs : List (SBAct K V I)} {s0 s : SB K V I} (h : s0.Settled cfg (as ++ bs)) (he : s0.exec cfg as = some s) :
    s0.Settled cfg as ∧ s.Settled cfg bs := by
  induction as generalizing s0 with
  | nil => simp only [exec, Option.some.injEq] at he; subst he; exact ⟨trivial, h⟩
  | cons a as ih =>
    simp only [exec] at he
    split at he
    · rename_i s1 hs1
      obtain ⟨h1, h2⟩ := ih (h.2 _ hs1) he
      exact ⟨⟨h.1, fun s' hs' => by rw [hs1] at hs'; injection hs' with e; exact e ▸ h1⟩, h2⟩
    · simp at he
end SB

namespace JSB

theorem exec_append (xs ys : List (JAct K V I)) : ∀ s : JSB K V I, s.exec cfg (xs ++ ys) = (s.exec cfg xs).bind (·.exec cfg ys) := by
  induction xs with
  | nil => intro s; rfl
  | cons x xs ih =>
    intro s
    simp only [List.cons_append, exec]
    cases s.step cfg x with
    | none => rfl
    | some s1 => exact ih s1

theorem sbActs_append (xs ys : List (JAct K V I)) : sbActs (xs ++ ys) = sbActs xs ++ sbActs ys := by
  induction xs with
  | nil => rfl
  | cons x xs ih => cases x <;> simp only [List.cons_append, sbActs, ih]

theorem born_step {y y' : SB K V I} {a : SBAct K V I} (hi : y.Inv) (hs : y.step cfg a = some y') (ht : ∀ t, y.thread = some t → t < y.n)
    (hth : ∀ t, t < y.n → y.thr t ≠ .unborn) : (∀ t, y'.thread = some t → t < y'.n) ∧ (∀ t, t < y'.n → y'.thr t ≠ .unborn) ∧ y.n ≤ y'.n := by
  have hp := hi.ph
  have hst := SB.step_to hs
  clear hs hi
  cases hst
  all_goals
    try simp only [SB.say, SB.setThr, SB.setBuf, SB.setEvent, SB.setNext, SB.setDrop, SB.setInfo, SB.newSess, SB.running] at *
  all_goals first
    | exact ⟨ht, hth, Nat.le_refl _⟩
    | grind [SB.PhaseOk]

/-- **C89** once the stop event of a session is set (by `stop()`, or because the thread died), its thread does at most 8 more steps, among them at most
one `read()` of the source and one store; and a caller waiting for it in `join()` can go on, or the thread can do one of these steps, whatever the
source answers. (Careful users: every `start()` after the `join()` of all earlier sessions.) -/
theorem C89_stop_join_returns (he : (JSB.init : JSB K V I).exec cfg xs = some s) (he' : s.exec cfg ys = some s')
    (hc : (JSB.init : JSB K V I).Careful cfg (xs ++ ys)) (t : Nat) (h : Ev.eventSet t ∈ s.sb.log) :
    ((sbActs ys).countP (·.ofThread t) ≤ 8 ∧
      ∃ l, s'.sb.log = s.sb.log ++ l ∧ l.countP (isReadBy t) ≤ 1 ∧ l.countP (isStoreBy t) ≤ 1) ∧
    ∀ c, s'.waits c = some t → (∃ s'', s'.step cfg (.wait c) = some s'') ∨ (∃ s'', s'.step cfg (.sb (.thr t)) = some s'') ∨
      (∀ r, ∃ s'', s'.step cfg (.sb (.readOk t r)) = some s'') ∨ (∀ ok, ∃ s'', s'.step cfg (.sb (.close t ok)) = some s'') := by
  have hall : (JSB.init : JSB K V I).exec cfg (xs ++ ys) = some s' := by rw [exec_append, he]; exact he'
  obtain ⟨h1, h2⟩ := C66_careful_settled hall hc
  rw [sbActs_append] at h2
  have h3 : SB.init.exec cfg (sbActs xs) = some s.sb := exec_sb he
  have h4 : s.sb.exec cfg (sbActs ys) = some s'.sb := exec_sb he'
  obtain ⟨h5, h6⟩ := h2.split h3
  refine ⟨SB.C77_stop_prompt_partial _ _ h3 h4 h6 h5 t h, fun c hw => ?_⟩
  have hun : s'.sb.thr t ≠ .unborn := by
    have hk := exec_ind (P := fun s : JSB K V I => s.sb.Inv ∧ (∀ t, s.sb.thread = some t → t < s.sb.n) ∧ (∀ c t, s.waits c = some t → t < s.sb.n) ∧
        ∀ t, t < s.sb.n → s.sb.thr t ≠ .unborn) (cfg := cfg) ?_ ⟨SB.Inv.init, by simp [init, SB.init], by simp [init], by simp [init, SB.init]⟩ hall
    · exact hk.2.2.2 t (hk.2.2.1 c t hw)
    · intro s x s' ⟨hi, ht, hwt, hth⟩ hs
      rcases step_join hs with ⟨a, rfl, hsb, -, hw'⟩ | ⟨hsb, hno, -⟩
      · refine ⟨hi.step hsb, ?_⟩
        rw [hw']
        obtain ⟨k1, k2, k3⟩ := born_step hi hsb ht hth
        exact ⟨k1, fun c t h => Nat.lt_of_lt_of_le (hwt c t h) k3, k2⟩
      · rw [hsb]
        refine ⟨hi, ht, ?_, hth⟩
        cases x with
        | sb a => exact absurd rfl (hno a)
        | look c' =>
          simp only [step] at hs
          split at hs
          · split at hs <;> (injection hs with hs; subst hs)
            · exact hwt
            · intro c t h; simp only [setWait] at h; grind
          · simp at hs
        | wait c' =>
          simp only [step] at hs
          split at hs
          · simp at hs
          · split at hs
            · injection hs with hs; subst hs; intro c t h; simp only [setWait] at h; grind
            · injection hs with hs; subst hs; intro c t h; simp only [setWait] at h; grind
            · simp at hs
  cases hid : (s'.sb.thr t).idle with
  | true =>
    refine .inl ((C65_join_unblocks c t hw).2 ?_)
    cases hp : s'.sb.thr t <;> simp_all [TPC.idle]
  | false =>
    have hb : SB.init.exec cfg (sbActs xs ++ sbActs ys) = some s'.sb := by rw [SB.exec_append, h3]; exact h4
    rcases SB.C38_never_stuck hb t hid with ⟨y, hy⟩ | hy | hy
    · exact .inr (.inl ⟨_, by simp only [step, hy]; rfl⟩)
    · exact .inr (.inr (.inl fun r => let ⟨y, hy⟩ := hy r; ⟨_, by simp only [step, hy]; rfl⟩))
    · exact .inr (.inr (.inr fun r => let ⟨y, hy⟩ := hy r; ⟨_, by simp only [step, hy]; rfl⟩))

end JSB
end S2P
