import Verif.Proofs.FineStep
/-
C163, continued: the invariant.
-/
namespace S2P
open Spec
variable {K V I : Type} [LinearOrder K] [BEq V]

namespace LM

theorem go_pend {s s' : LM K V} {i : Nat} (hs : s.step (.go i) = some s') : ∃ p, s.pend i = some p := by
  simp only [step] at hs
  split at hs
  · rename_i p t hp ht; exact ⟨p, hp⟩
  · simp at hs

theorem call_pend {s s' : LM K V} {i : Nat} {c : ChOp K V} (hs : s.step (.call i c) = some s') : s.pend i = none := by
  simp only [step] at hs
  split at hs
  · simp at hs
  · rename_i h; simpa using h

end LM

namespace FSB

/-- The reading thread and the callers of `drop`: they use one buffer at a time. -/
def one : Who → Bool
  | .thr _ | .dropper _ => true
  | _ => false

/-- `O`: the outer steps so far. `D b r op`: a direct call was begun. -/
structure FInv (cfg : SBCfg K V) (n : Nat) (D : Nat → ChOp K V → Prop) (O : List (SBAct K V I)) (s : FSB K V I) : Prop where
  reach : ∃ as, SB.init.exec cfg as = some s.sb ∧ as.filter (fun a => !a.inner) = O ∧ ∀ b op, SBAct.rd b (.call op) ∈ as → D b op
  inv : s.sb.Inv
  lm : ∀ b, LM.AInv (SD.empty cfg.key cfg.keyNone cfg.maxlen) (fun i => Reader.init (cfg.rdCfg i)) (s.lm b) ∧ LM.HInv (s.lm b)
  past : ∀ b x, s.sb.buf b = some x → x.cons.past =
    (⟨LM.buf (SD.empty cfg.key cfg.keyNone cfg.maxlen) (s.lm b).m, (s.lm b).readers⟩, (s.lm b).lin.map (·.2.1), (s.lm b).lin.map (·.2.2))
  new : ∀ b, s.sb.buf b = none → s.lm b = LM.init n cfg.key cfg.keyNone cfg.maxlen cfg.rdCfg
  link : ∀ b w p, (s.lm b).pend w.num = some p → p.eff = false → s.sb.Doing b w p.call
  last : ∀ b w p, (s.lm b).pend w.num = some p → one w = true → s.last w = b
  dir : ∀ b i p, (s.lm b).pend (Who.direct i).num = some p → p.eff = false → D b p.call

variable {cfg : SBCfg K V} {n : Nat} {D : Nat → ChOp K V → Prop} {O : List (SBAct K V I)} {s s' : FSB K V I}

theorem FInv.init : FInv cfg n D [] (FSB.init n cfg : FSB K V I) := by
  refine ⟨⟨[], rfl, rfl, by simp⟩, SB.Inv.init, fun b => LM.inv_init .., ?_, fun _ _ => rfl, ?_, ?_, ?_⟩
  · intro b x hx; simp [FSB.init, SB.init] at hx
  all_goals intro b w p hp; simp [FSB.init, LM.init] at hp

theorem FInv.mono {D' : Nat → ChOp K V → Prop} (h : FInv cfg n D O s) (hD : ∀ b op, D b op → D' b op) : FInv cfg n D' O s := by
  obtain ⟨⟨as, h1, h2, h3⟩, h4, h5, h6, h7, h8, h9, h10⟩ := h
  exact ⟨⟨as, h1, h2, fun b op hm => hD _ _ (h3 b op hm)⟩, h4, h5, h6, h7, h8, h9, fun b i p hp he => hD _ _ (h10 b i p hp he)⟩

theorem exec_snoc {s s' y : SB K V I} {as : List (SBAct K V I)} {a : SBAct K V I} (h : s.exec cfg as = some s') (hs : s'.step cfg a = some y) :
    s.exec cfg (as ++ [a]) = some y := by
  induction as generalizing s with
  | nil =>
    simp only [SB.exec, Option.some.injEq] at h; subst h
    simp only [List.nil_append, SB.exec, hs]
  | cons c cs ih =>
    simp only [List.cons_append, SB.exec] at h ⊢
    split at h
    · rename_i s1 h1
      exact ih h
    · simp at h

theorem FInv.reach_snoc (h : FInv cfg n D O s) {a : SBAct K V I} {y : SB K V I} (hs : s.sb.step cfg a = some y) (hD : ∀ b op, a = .rd b (.call op) → D b op) :
    ∃ as, SB.init.exec cfg as = some y ∧ as.filter (fun a => !a.inner) = O ++ (if a.inner then [] else [a]) ∧ ∀ b op, SBAct.rd b (.call op) ∈ as → D b op := by
  obtain ⟨as, h1, h2, h3⟩ := h.reach
  refine ⟨as ++ [a], exec_snoc h1 hs, ?_, ?_⟩
  · rw [List.filter_append, h2]
    cases hi : a.inner <;> simp [hi]
  · intro b op hm
    rcases List.mem_append.1 hm with hm | hm
    · exact h3 b op hm
    · simp only [List.mem_singleton] at hm
      exact hD b op hm.symm

/-- A step that makes no call on a buffer. -/
theorem FInv.plain (h : FInv cfg n D O s) {a : SBAct K V I} {y : SB K V I} (hs : s.sb.step cfg a = some y) (hc : s.sb.callOf a = none)
    (hown : ∀ b w p, (s.lm b).pend w.num = some p → p.eff = false → ¬ SB.own b w a) :
    FInv cfg n D (O ++ (if a.inner then [] else [a])) { s with sb := y } := by
  refine ⟨h.reach_snoc hs ?_, h.inv.step hs, h.lm, ?_, ?_, ?_, h.last, h.dir⟩
  · rintro b op rfl; simp [SB.callOf] at hc
  · intro b x hx
    rcases SB.past_step h.inv hs b with ⟨-, h2⟩ | ⟨h1, x', h2, h3⟩ | ⟨x0, x', h1, h2, h3⟩
    · simp only at hx; rw [h2] at hx; cases hx
    · simp only at hx; rw [h2] at hx; injection hx with hx; subst hx
      rw [h3, h.new b h1]; rfl
    · simp only at hx; rw [h2] at hx; injection hx with hx; subst hx
      rcases h3 with ⟨op, h3, -⟩ | ⟨-, h3⟩
      · rw [hc] at h3; cases h3
      · rw [h3]; exact h.past b x0 h1
  · intro b hb
    rcases SB.past_step h.inv hs b with ⟨h1, -⟩ | ⟨h1, x', h2, h3⟩ | ⟨x0, x', h1, h2, h3⟩
    · exact h.new b h1
    · exact h.new b h1
    · simp only at hb; rw [h2] at hb; cases hb
  · intro b w p hp he
    exact SB.doing_step h.inv hs (h.link b w p hp he) (hown b w p hp he)

/-- A statement in which no call takes effect. -/
theorem FInv.quiet (h : FInv cfg n D O s) {b : Nat} {w : Who} {a : LAct K V} {l : LM K V} (hx : (s.sb.buf b).isSome = true) (hact : LM.actor a = w.num)
    (hcall : ∀ c, a = .call w.num c → s.sb.Doing b w c ∧ (one w = true → s.free w = true) ∧ (∀ i, w = .direct i → D b c))
    (hl : (s.lm b).step a = some l) (hlin : l.lin = (s.lm b).lin) (hX : ∀ r, NonOverlapping (LM.onReader r) l.hist) : FInv cfg n D O (s.setLm b w l) := by
  have hinv := LM.inv_step hX (h.lm b).1 (h.lm b).2 hl
  obtain ⟨k1, k2⟩ := LM.step_kind (h.lm b).1 hl
  rw [hact] at k1 k2
  have k2 : ∀ p', l.pend w.num = some p' → p'.eff = false → (∃ p, (s.lm b).pend w.num = some p ∧ p.eff = false ∧ p.call = p'.call) ∨
      ∃ c, a = .call w.num c ∧ p'.call = c := by
    rcases k2 with ⟨-, k2⟩ | ⟨id, op, o, k, -⟩
    · exact k2
    · rw [hlin] at k; simp at k
  have hat := (LM.step_atom (h.lm b).1 hinv.1).1 hlin
  refine ⟨h.reach, h.inv, ?_, ?_, ?_, ?_, ?_, ?_⟩
  · intro b'
    simp only [setLm]
    split
    · exact hinv
    · exact h.lm b'
  · intro b' x hx'
    simp only [setLm]
    split
    · rename_i e; subst e
      rw [h.past b' x hx', hlin, hat]
    · exact h.past b' x hx'
  · intro b' hb
    simp only [setLm] at hb ⊢
    have : b' ≠ b := by rintro rfl; rw [hb] at hx; cases hx
    rw [if_neg this]; exact h.new b' hb
  · intro b' w' p hp he
    simp only [setLm] at hp ⊢
    split at hp
    · rename_i e; subst e
      by_cases hw : w' = w
      · subst hw
        rcases k2 p hp he with ⟨p0, h1, h2, h3⟩ | ⟨c, h1, h2⟩
        · rw [← h3]; exact h.link b' w' p0 h1 h2
        · rw [h2]; exact (hcall c h1).1
      · rw [k1 _ fun e => hw (Who.num_inj e)] at hp
        exact h.link b' w' p hp he
    · exact h.link b' w' p hp he
  · intro b' w' p hp ho
    simp only [setLm] at hp ⊢
    by_cases hw : w' = w
    · subst hw
      rw [if_pos rfl]
      split at hp
      · rename_i e; exact e.symm
      · rename_i e
        have hl' := h.last b' w' p hp ho
        cases a with
        | go i =>
          have : i = w'.num := hact
          subst this
          obtain ⟨p0, hp0⟩ := LM.go_pend hl
          rw [← hl', ← h.last b w' p0 hp0 ho]
        | call i c =>
          have : i = w'.num := hact
          subst this
          have := (hcall c rfl).2.1 ho
          simp only [free, hl', hp] at this
          cases this
    · rw [if_neg hw]
      split at hp
      · rename_i e; subst e
        rw [k1 _ fun e => hw (Who.num_inj e)] at hp
        exact h.last b' w' p hp ho
      · exact h.last b' w' p hp ho
  · intro b' i p hp he
    simp only [setLm] at hp
    split at hp
    · rename_i e; subst e
      by_cases hw : Who.direct i = w
      · subst hw
        rcases k2 p hp he with ⟨p0, h1, h2, h3⟩ | ⟨c, h1, h2⟩
        · rw [← h3]; exact h.dir b' i p0 h1 h2
        · rw [h2]; exact (hcall c h1).2.2 i rfl
      · rw [k1 _ fun e => hw (Who.num_inj e)] at hp
        exact h.dir b' i p hp he
    · exact h.dir b' i p hp he

/-- A statement in which a call takes effect. -/
theorem FInv.effect (h : FInv cfg n D O s) {b : Nat} {w : Who} {a : LAct K V} {l : LM K V} {id : Nat} {op : ChOp K V} {o : Py (Ret V)} {c : SBAct K V I} {y : SB K V I}
    (hx : (s.sb.buf b).isSome = true) (hact : LM.actor a = w.num)
    (hfree : ∀ c, a = .call w.num c → one w = true → s.free w = true)
    (hl : (s.lm b).step a = some l) (hlin : l.lin = (s.lm b).lin ++ [(id, op, o)]) (hX : ∀ r, NonOverlapping (LM.onReader r) l.hist)
    (hs : s.sb.step cfg c = some y) (hc : s.sb.callOf c = some (b, op))
    (hown : ∀ b' w' p, (b' ≠ b ∨ w' ≠ w) → (s.lm b').pend w'.num = some p → p.eff = false → ¬ SB.own b' w' c)
    (hD : ∀ b op, c = .rd b (.call op) → D b op) :
    FInv cfg n D (O ++ (if c.inner then [] else [c])) { s.setLm b w l with sb := y } := by
  have hinv := LM.inv_step hX (h.lm b).1 (h.lm b).2 hl
  obtain ⟨k1, k2⟩ := LM.step_kind (h.lm b).1 hl
  rw [hact] at k1 k2
  have k3 : ∀ p', l.pend w.num = some p' → p'.eff = true := by
    rcases k2 with ⟨k, -⟩ | ⟨id, op, o, k, ⟨-, -, k⟩ | ⟨-, p, -, -, -, k⟩⟩
    · rw [hlin] at k; simp at k
    · intro p' hp; rw [k] at hp; cases hp
    · exact k
  have hat := (LM.step_atom (h.lm b).1 hinv.1).2 id op o hlin
  refine ⟨h.reach_snoc hs hD, h.inv.step hs, ?_, ?_, ?_, ?_, ?_, ?_⟩
  · intro b'
    simp only [setLm]
    split
    · exact hinv
    · exact h.lm b'
  · intro b' x hx'
    simp only [setLm] at hx' ⊢
    rcases SB.past_step h.inv hs b' with ⟨-, h2⟩ | ⟨h1, x', h2, h3⟩ | ⟨x0, x', h1, h2, h3⟩
    · rw [h2] at hx'; cases hx'
    · rw [h2] at hx'; injection hx' with hx'; subst hx'
      have : b' ≠ b := by rintro rfl; rw [h1] at hx; cases hx
      rw [if_neg this, h3, h.new b' h1]; rfl
    · rw [h2] at hx'; injection hx' with hx'; subst hx'
      have hp := h.past b' x0 h1
      by_cases hb : b' = b
      · subst hb
        rw [if_pos rfl]
        rcases h3 with ⟨op', h3, h4⟩ | ⟨h3, -⟩
        · rw [hc] at h3; simp only [Option.some.injEq, Prod.mk.injEq, true_and] at h3; subst h3
          simp only [Cons.past, Prod.mk.injEq] at hp
          rw [h4, Cons.call_past, hp.1, hp.2.1, hp.2.2, hat, hlin]
          simp
        · exact absurd hc (h3 op)
      · rw [if_neg hb]
        rcases h3 with ⟨op', h3, h4⟩ | ⟨-, h3⟩
        · rw [hc] at h3; simp only [Option.some.injEq, Prod.mk.injEq] at h3; exact absurd h3.1.symm hb
        · rw [h3, hp]
  · intro b' hb
    simp only [setLm] at hb ⊢
    rcases SB.past_step h.inv hs b' with ⟨h1, -⟩ | ⟨h1, x', h2, h3⟩ | ⟨x0, x', h1, h2, h3⟩
    · have : b' ≠ b := by rintro rfl; rw [h1] at hx; cases hx
      rw [if_neg this]; exact h.new b' h1
    · rw [h2] at hb; cases hb
    · rw [h2] at hb; cases hb
  · intro b' w' p hp he
    simp only [setLm] at hp ⊢
    split at hp
    · rename_i e; subst e
      by_cases hw : w' = w
      · subst hw
        rw [k3 p hp] at he; cases he
      · rw [k1 _ fun e => hw (Who.num_inj e)] at hp
        exact SB.doing_step h.inv hs (h.link b' w' p hp he) (hown b' w' p (.inr hw) hp he)
    · rename_i e
      exact SB.doing_step h.inv hs (h.link b' w' p hp he) (hown b' w' p (.inl e) hp he)
  · intro b' w' p hp ho
    simp only [setLm] at hp ⊢
    by_cases hw : w' = w
    · subst hw
      rw [if_pos rfl]
      split at hp
      · rename_i e; exact e.symm
      · rename_i e
        have hl' := h.last b' w' p hp ho
        cases a with
        | go i =>
          have : i = w'.num := hact
          subst this
          obtain ⟨p0, hp0⟩ := LM.go_pend hl
          rw [← hl', ← h.last b w' p0 hp0 ho]
        | call i c =>
          have : i = w'.num := hact
          subst this
          have := hfree c rfl ho
          simp only [free, hl', hp] at this
          cases this
    · rw [if_neg hw]
      split at hp
      · rename_i e; subst e
        rw [k1 _ fun e => hw (Who.num_inj e)] at hp
        exact h.last b' w' p hp ho
      · exact h.last b' w' p hp ho
  · intro b' i p hp he
    simp only [setLm] at hp
    split at hp
    · rename_i e; subst e
      by_cases hw : Who.direct i = w
      · subst hw
        rw [k3 p hp] at he; cases he
      · rw [k1 _ fun e => hw (Who.num_inj e)] at hp
        exact h.dir b' i p hp he
    · exact h.dir b' i p hp he

/-- A statement of a call. -/
theorem FInv.use (h : FInv cfg n D O s) {b : Nat} {w : Who} {a : LAct K V} (hx : (s.sb.buf b).isSome = true) (hact : LM.actor a = w.num)
    (hcall : ∀ c, a = .call w.num c → s.sb.Doing b w c ∧ (one w = true → s.free w = true) ∧ (∀ i, w = .direct i → D b c))
    (hu : s.use b w a = some s') (hX : ∀ r, NonOverlapping (LM.onReader r) (s'.lm b).hist) : FInv cfg n D O s' := by
  simp only [FSB.use] at hu
  split at hu
  · simp at hu
  rename_i l hl
  have hk := LM.step_kind (h.lm b).1 hl
  split at hu
  · rename_i hd
    injection hu with hu; subst hu
    have hX' : ∀ r, NonOverlapping (LM.onReader r) l.hist := by simpa [setLm] using hX
    refine h.quiet hx hact hcall hl ?_ hX'
    rcases hk.2 with ⟨k, -⟩ | ⟨id, op, o, k, -⟩
    · exact k
    · rw [k] at hd; simp at hd
  · rename_i id op o tl hd
    simp only [Option.map_eq_some_iff] at hu
    obtain ⟨y, hy, rfl⟩ := hu
    have hX' : ∀ r, NonOverlapping (LM.onReader r) l.hist := by simpa [setLm] using hX
    obtain ⟨x, hx'⟩ := Option.isSome_iff_exists.1 hx
    rw [hact] at hk
    obtain ⟨id', op', o', k, k2⟩ : ∃ id' op' o', l.lin = (s.lm b).lin ++ [(id', op', o')] ∧ (s.sb.Doing b w op' ∧ ∀ i, w = .direct i → D b op') := by
      rcases hk.2 with ⟨k, -⟩ | ⟨id', op', o', k, k2⟩
      · rw [k] at hd; simp at hd
      · refine ⟨id', op', o', k, ?_⟩
        rcases k2 with ⟨k2, -, -⟩ | ⟨-, p, k2, k3, k4, -⟩
        · exact ⟨(hcall _ k2).1, (hcall _ k2).2.2⟩
        · rw [← k3]
          refine ⟨h.link b w p k2 k4, ?_⟩
          rintro i rfl
          exact h.dir b i p k2 k4
    rw [k] at hd
    simp only [List.drop_left', List.cons.injEq, Prod.mk.injEq] at hd
    obtain ⟨⟨rfl, rfl, rfl⟩, -⟩ := hd
    have hinv := LM.inv_step hX' (h.lm b).1 (h.lm b).2 hl
    have hat := (LM.step_atom (h.lm b).1 hinv.1).2 _ _ _ k
    have hp := h.past b x hx'
    have ho : (x.cons.ch.step op').2 = o' := by
      simp only [Cons.past, Prod.mk.injEq] at hp
      rw [hp.1, hat]
    have hst := (SB.effect_step (cfg := cfg) k2.1 hx' ho).1
    rw [hy] at hst
    have hcall' : s.sb.callOf (SB.move b op' w) = some (b, op') := by
      cases w with
      | thr t => obtain ⟨v, h1, rfl⟩ := k2.1; simp [SB.move, SB.callOf, h1]
      | dropper c => obtain ⟨v, h1, rfl⟩ := k2.1; simp [SB.move, SB.callOf, h1]
      | cons i =>
        obtain ⟨x', r, h1, h2, rfl⟩ := k2.1
        simp [SB.move, SB.callOf, h1, h2]
      | direct i => rfl
    have hin : (SB.move b op' w : SBAct K V I).inner = true := by cases w <;> rfl
    have := h.effect hx hact (fun c hc => (hcall c hc).2.1) hl k hX' hst hcall' ?_ ?_
    · rwa [hin, if_pos rfl, List.append_nil] at this
    · intro b' w' p hne hp he ho
      have hd := h.link b' w' p hp he
      cases w' with
      | thr t' =>
        obtain ⟨v', d1, -⟩ := hd
        rcases ho with ho | ⟨e, ho⟩
        · cases w <;> simp [SB.move] at ho
          subst ho
          obtain ⟨v, d2, -⟩ := k2.1
          rw [d2] at d1; injection d1 with d1
          rcases hne with hne | hne
          · exact hne d1.symm
          · exact hne rfl
        · cases w <;> simp [SB.move] at ho
      | dropper c' =>
        obtain ⟨v', d1, -⟩ := hd
        cases w <;> simp [SB.move, SB.own] at ho
        subst ho
        obtain ⟨v, d2, -⟩ := k2.1
        rw [d2] at d1; simp only [Option.some.injEq, Prod.mk.injEq] at d1
        rcases hne with hne | hne
        · exact hne d1.1.symm
        · exact hne rfl
      | cons i' =>
        cases w <;> simp [SB.move, SB.own] at ho
        obtain ⟨h1, h2⟩ := ho
        subst h1 h2
        rcases hne with hne | hne <;> exact hne rfl
      | direct i' => exact ho
    · intro b' op'' e
      cases w <;> simp [SB.move] at e
      obtain ⟨rfl, rfl⟩ := e
      exact k2.2 _ rfl

end FSB
end S2P
