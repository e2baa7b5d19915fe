import Verif.Model.Fine
import Verif.Proofs.LinearStep
import Verif.Proofs.Session
/-
C163: the stream buffer with its calls executed statement by statement behaves as with calls that are one step.
-/
namespace S2P
open Spec
variable {K V I : Type}

theorem Who.num_inj {u w : Who} (h : u.num = w.num) : u = w := by
  cases u <;> cases w <;> simp only [Who.num] at h <;> first | (congr 1; omega) | omega

namespace LM
open RW
variable [LinearOrder K] [BEq V] {s s' : LM K V} {d0 : SD K V} {r0 : Nat → Reader K V}

/-- The thread that acts. -/
def actor : LAct K V → Nat
  | .call i _ => i
  | .go i => i

omit [LinearOrder K] [BEq V] in
theorem arrive_lin (s : LM K V) (i : Nat) (p : Pend K V) (m : M (SD K V) (WOp V)) (hp : s.pend i = some p) :
    (s.arrive i p m).lin = s.lin ∧ (∀ j, j ≠ i → (s.arrive i p m).pend j = s.pend j) ∧ ∀ p', (s.arrive i p m).pend i = some p' → p' = p := by
  unfold arrive
  split
  · split
    · refine ⟨rfl, fun j hj => by simp [setPend, hj], fun p' h => by simp [setPend] at h⟩
    · exact ⟨rfl, fun _ _ => rfl, fun p' h => by simpa [hp] using h.symm⟩
  · exact ⟨rfl, fun _ _ => rfl, fun p' h => by simpa [hp] using h.symm⟩

/-- What a step does to the calls in progress and to the order of effects. -/
theorem step_kind (hA : AInv d0 r0 s) {a : LAct K V} (hs : s.step a = some s') :
    (∀ j, j ≠ actor a → s'.pend j = s.pend j) ∧
    ((s'.lin = s.lin ∧ ∀ p', s'.pend (actor a) = some p' → p'.eff = false →
        (∃ p, s.pend (actor a) = some p ∧ p.eff = false ∧ p.call = p'.call) ∨ ∃ c, a = .call (actor a) c ∧ p'.call = c) ∨
     ∃ id op o, s'.lin = s.lin ++ [(id, op, o)] ∧
      ((a = .call (actor a) op ∧ s.pend (actor a) = none ∧ s'.pend (actor a) = none) ∨
       (a = .go (actor a) ∧ ∃ p, s.pend (actor a) = some p ∧ p.call = op ∧ p.eff = false ∧ ∀ p', s'.pend (actor a) = some p' → p'.eff = true))) := by
  cases a with
  | call i c =>
    simp only [step] at hs
    split at hs
    · simp at hs
    rename_i hn
    have hn : s.pend i = none := by simpa using hn
    have hinv : ∀ rest m, (∀ j, j ≠ i → (s.invoke i c rest m).pend j = s.pend j) ∧
        (((s.invoke i c rest m).lin = s.lin ∧ ∀ p', (s.invoke i c rest m).pend i = some p' → p'.eff = false →
          (∃ p, s.pend i = some p ∧ p.eff = false ∧ p.call = p'.call) ∨ ∃ c', (LAct.call i c : LAct K V) = .call i c' ∧ p'.call = c')) := by
      intro rest m
      refine ⟨fun j hj => by simp [invoke, setPend, hj], rfl, fun p' h _ => .inr ⟨c, rfl, ?_⟩⟩
      simp only [invoke, setPend, if_true, Option.some.injEq] at h
      rw [← h]
    cases c with
    | append v | drop n =>
      simp only [Option.map_eq_some_iff] at hs
      obtain ⟨m', hm, rfl⟩ := hs
      exact ⟨(hinv _ _).1, .inl (hinv _ _).2⟩
    | rd r op =>
      cases op with
      | setLast v =>
        simp only [Option.some.injEq] at hs
        subst hs
        exact ⟨fun _ _ => rfl, .inr ⟨_, _, _, rfl, .inl ⟨rfl, hn, hn⟩⟩⟩
      | delLast =>
        simp only [Option.some.injEq] at hs
        subst hs
        exact ⟨fun _ _ => rfl, .inr ⟨_, _, _, rfl, .inl ⟨rfl, hn, hn⟩⟩⟩
      | read | nextMethod | readForNext | range | tail | head =>
        simp only [Option.map_eq_some_iff] at hs
        obtain ⟨m', hm, rfl⟩ := hs
        exact ⟨(hinv _ _).1, .inl (hinv _ _).2⟩
  | go i =>
    simp only [step] at hs
    split at hs
    swap
    · simp at hs
    rename_i p t hp ht
    have harr : ∀ m, (∀ j, j ≠ i → (s.arrive i p m).pend j = s.pend j) ∧ ((s.arrive i p m).lin = s.lin ∧
        ∀ p', (s.arrive i p m).pend i = some p' → p'.eff = false →
          (∃ p, s.pend i = some p ∧ p.eff = false ∧ p.call = p'.call) ∨ ∃ c, (LAct.go i : LAct K V) = .call i c ∧ p'.call = c) := by
      intro m
      obtain ⟨h1, h2, h3⟩ := arrive_lin s i p m hp
      refine ⟨h2, h1, fun p' h he => .inl ⟨p, hp, ?_, ?_⟩⟩
      · rw [← h3 p' h]; exact he
      · rw [h3 p' h]
    have hW : ∀ op, asW p.call = some op → s.goW i p op t = some s' →
        (∀ j, j ≠ i → s'.pend j = s.pend j) ∧
        ((s'.lin = s.lin ∧ ∀ p', s'.pend i = some p' → p'.eff = false →
          (∃ p, s.pend i = some p ∧ p.eff = false ∧ p.call = p'.call) ∨ ∃ c, (LAct.go i : LAct K V) = .call i c ∧ p'.call = c) ∨
        ∃ id op o, s'.lin = s.lin ++ [(id, op, o)] ∧
        (((LAct.go i : LAct K V) = .call i op ∧ s.pend i = none ∧ s'.pend i = none) ∨
         ((LAct.go i : LAct K V) = .go i ∧ ∃ p, s.pend i = some p ∧ p.call = op ∧ p.eff = false ∧ ∀ p', s'.pend i = some p' → p'.eff = true))) := by
      intro op hop hg
      unfold goW at hg
      split at hg
      · simp at hg
      rename_i m' hm
      split at hg
      · injection hg with hg; subst hg
        refine ⟨fun j hj => by simp [setPend, hj], .inl ⟨rfl, fun p' h he => .inl ⟨p, hp, ?_, ?_⟩⟩⟩
        all_goals simp only [setPend, if_true, Option.some.injEq] at h; subst h
        · exact he
        · rfl
      · split at hg
        · rename_i hcs
          split at hg
          · rename_i o ho
            injection hg with hg; subst hg
            refine ⟨fun j hj => by simp [setPend, hj], .inr ⟨_, _, _, rfl, .inr ⟨rfl, p, hp, rfl, ?_, ?_⟩⟩⟩
            · have hok := hA.thr i t ht
              rw [hp] at hok
              cases he : p.eff with
              | false => rfl
              | true =>
                exfalso
                unfold ThOk at hok
                cases hc : p.call with
                | rd r o => rw [hc] at hop; simp [asW] at hop
                | append v | drop n =>
                  simp only [hc] at hok
                  obtain ⟨_, -, -, -, h4⟩ := hok
                  have := h4 he
                  rw [hcs.1] at this
                  simp at this
            · intro p' h
              simp only [setPend, if_true, Option.some.injEq] at h
              subst h; rfl
          · simp at hg
        · injection hg with hg; subst hg
          exact ⟨(harr _).1, .inl (harr _).2⟩
    split at hs
    · rename_i v hc; exact hW _ (by rw [hc]; rfl) hs
    · rename_i n hc; exact hW _ (by rw [hc]; rfl) hs
    · rename_i r op hc
      unfold goR at hs
      split at hs
      swap
      · simp only [Option.map_eq_some_iff] at hs
        obtain ⟨m', hm, rfl⟩ := hs
        exact ⟨(harr _).1, .inl (harr _).2⟩
      rename_i hcs
      have hkeep : ∀ (q : Prog (SD K V) (Py (Ret V) × Reader K V)) (m' : M (SD K V) (WOp V)),
          let s2 : LM K V := { s.setPend i (some { p with rest := q }) with m := m' }
          (∀ j, j ≠ i → s2.pend j = s.pend j) ∧ (s2.lin = s.lin ∧ ∀ p', s2.pend i = some p' → p'.eff = false →
          (∃ p, s.pend i = some p ∧ p.eff = false ∧ p.call = p'.call) ∨ ∃ c, (LAct.go i : LAct K V) = .call i c ∧ p'.call = c) := by
        intro q m'
        refine ⟨fun j hj => by simp [setPend, hj], rfl, fun p' h he => .inl ⟨p, hp, ?_, ?_⟩⟩
        all_goals simp only [setPend, if_true, Option.some.injEq] at h; subst h
        · exact he
        · rfl
      split at hs
      · simp only [Option.map_eq_some_iff] at hs
        obtain ⟨m', hm, rfl⟩ := hs
        exact ⟨(hkeep _ _).1, .inl (hkeep _ _).2⟩
      · simp only [Option.map_eq_some_iff] at hs
        obtain ⟨m', hm, rfl⟩ := hs
        exact ⟨(hkeep _ _).1, .inl (hkeep _ _).2⟩
      · split at hs
        · simp only [Option.map_eq_some_iff] at hs
          obtain ⟨m', hm, rfl⟩ := hs
          exact ⟨(hkeep _ _).1, .inl (hkeep _ _).2⟩
        · simp at hs
      · split at hs
        · simp only [Option.map_eq_some_iff] at hs
          obtain ⟨m', hm, rfl⟩ := hs
          refine ⟨fun j hj => by show (if j = i then _ else s.pend j) = _; exact if_neg hj, .inr ⟨_, _, _, rfl, .inr ⟨rfl, p, hp, rfl, ?_, ?_⟩⟩⟩
          · have hok := hA.thr i t ht
            rw [hp] at hok
            cases he : p.eff with
            | false => rfl
            | true =>
              exfalso
              unfold ThOk at hok
              simp only [hc] at hok
              have := (hok.2.2 he).2
              rw [hcs] at this
              simp at this
          · intro p' h
            have h := (if_pos rfl).symm.trans h
            injection h with h; subst h; rfl
        · simp at hs

/-- The abstract contents after a step. -/
theorem step_atom (hA : AInv d0 r0 s) (hA' : AInv d0 r0 s') :
    (s'.lin = s.lin → (⟨buf d0 s'.m, s'.readers⟩ : Ch K V) = ⟨buf d0 s.m, s.readers⟩) ∧
    ∀ id op o, s'.lin = s.lin ++ [(id, op, o)] →
      ((⟨buf d0 s.m, s.readers⟩ : Ch K V).step op) = ((⟨buf d0 s'.m, s'.readers⟩ : Ch K V), o) := by
  constructor
  · intro h
    have h1 := hA.atom
    have h2 := hA'.atom
    rw [h] at h2
    exact (Prod.mk.inj (h2.symm.trans h1)).1
  · intro id op o h
    have h1 := hA.atom
    have h2 := hA'.atom
    rw [h, List.map_append, run_append, h1] at h2
    simp only [List.map_cons, List.map_nil, List.map_append, Ch.run] at h2
    obtain ⟨h3, h4⟩ := Prod.mk.inj h2
    have h4 := List.append_cancel_left h4
    simp only [List.cons.injEq, and_true] at h4
    exact Prod.ext h3 h4

end LM
end S2P
