import Verif.Props.Fine
import Verif.Proofs.LinearFair
import Verif.Proofs.Paused
/-
C164: a step of the statement-by-statement stream buffer is a step of the one of Model/StreamBuffer.lean, or none; and what it is for the lock of a session.
-/
namespace S2P
open Spec
variable {K V I : Type}

namespace LM
open RW
variable [LinearOrder K] [BEq V] {s s' : LM K V} {i : Nat} {p : Pend K V} {d0 : SD K V} {r0 : Nat → Reader K V}

/-- The beginning of a call: assignments to `last_item` are done at once, other calls are then in progress. -/
theorem call_lin {c : ChOp K V} (hs : s.step (.call i c) = some s') :
    (s'.lin = s.lin ∧ ∃ p', s'.pend i = some p' ∧ p'.call = c ∧ p'.eff = false) ∨ ∃ r, (∃ v, c = .rd r (.setLast v)) ∨ c = .rd r .delLast := by
  simp only [step] at hs
  split at hs
  · simp at hs
  cases c with
  | append v | drop n =>
    simp only [Option.map_eq_some_iff] at hs
    obtain ⟨m', hm, rfl⟩ := hs
    exact .inl ⟨rfl, _, if_pos rfl, rfl, rfl⟩
  | rd r op =>
    cases op with
    | setLast v => exact .inr ⟨r, .inl ⟨v, rfl⟩⟩
    | delLast => exact .inr ⟨r, .inr rfl⟩
    | read | nextMethod | readForNext | range | tail | head =>
      simp only [Option.map_eq_some_iff] at hs
      obtain ⟨m', hm, rfl⟩ := hs
      exact .inl ⟨rfl, _, if_pos rfl, rfl, rfl⟩

/-- A statement of a call that has not taken effect: it takes effect now, or is still in progress without. -/
theorem go_eff (hA : AInv d0 r0 s) (hs : s.step (.go i) = some s') (hp : s.pend i = some p) (he : p.eff = false) :
    (∃ o, s'.lin = s.lin ++ [(p.id, p.call, o)]) ∨ (s'.lin = s.lin ∧ ∃ p', s'.pend i = some p' ∧ p'.call = p.call ∧ p'.eff = false) := by
  cases ht : s.m.th[i]? with
  | none => simp [step, hp, ht] at hs
  | some t =>
    have hok := hA.thr i t ht
    rw [hp] at hok
    have harr : ∀ m', (∃ t', m'.th[i]? = some t' ∧ t'.pc ≠ .idle) → (s.arrive i p m').lin = s.lin ∧ ∃ p', (s.arrive i p m').pend i = some p' ∧ p'.call = p.call ∧ p'.eff = false := by
      rintro m' ⟨t', h1, h2⟩
      unfold arrive
      rw [h1]
      cases p.out with
      | none => exact ⟨rfl, p, hp, rfl, he⟩
      | some o =>
        dsimp only
        rw [if_neg h2]
        exact ⟨rfl, p, hp, rfl, he⟩
    have hlt : i < s.m.th.length := (List.getElem?_eq_some_iff.1 ht).1
    have hW : ∀ {op}, asW p.call = some op → s.goW i p op t = some s' →
        (∃ o, s'.lin = s.lin ++ [(p.id, p.call, o)]) ∨ (s'.lin = s.lin ∧ ∃ p', s'.pend i = some p' ∧ p'.call = p.call ∧ p'.eff = false) := by
      intro op hc hs
      have hpc : t.outer = 0 ∧ t.pc ∈ [PC.w1, .w2, .w3, .w4, .w5, .wCS] := by
        obtain ⟨id, c, rest, out, eff⟩ := p
        cases c with
        | rd r op => simp [asW] at hc
        | append v | drop n => obtain ⟨op', -, h0, h1, h2⟩ := hok; exact ⟨h0, (h1 he).1⟩
      simp only [goW] at hs
      split at hs
      · simp at hs
      rename_i m' hm
      split at hs
      · injection hs with hs; subst hs
        exact .inr ⟨rfl, _, if_pos rfl, rfl, he⟩
      · rename_i h5
        split at hs
        · split at hs
          · rename_i o ho
            injection hs with hs; subst hs
            exact .inl ⟨o, rfl⟩
          · simp at hs
        · rename_i hcs
          injection hs with hs; subst hs
          refine .inr (harr m' ?_)
          rcases step_go hm ht with ⟨f, fs, h1, h2, h3, -⟩ | ⟨h1, h2, h3, h4, -⟩
          · exact ⟨_, by rw [h3, List.getElem?_set_self hlt], by simp [h1]⟩
          · refine ⟨_, by rw [h3, List.getElem?_set_self hlt], ?_⟩
            have hne : t.pc ≠ .wCS := by
              intro e
              exact hcs ⟨e, h2 e⟩
            obtain ⟨ho, hpc⟩ := hpc
            simp only [List.mem_cons, List.not_mem_nil, or_false] at hpc
            rcases hpc with e | e | e | e | e | e
            · simp [Th.after, e, PC.next, Th.arrive]
            · simp [Th.after, e, PC.next, Th.arrive]
            · simp [Th.after, e, PC.next, Th.arrive]
            · simp [Th.after, e, PC.next, Th.arrive]
            · exact absurd e h5
            · exact absurd e hne
    simp only [step, hp, ht] at hs
    split at hs
    · rename_i v hc; exact hW (by rw [hc]; rfl) hs
    · rename_i n hc; exact hW (by rw [hc]; rfl) hs
    · rename_i r op hc
      simp only [goR] at hs
      split at hs
      · split at hs
        · simp only [Option.map_eq_some_iff] at hs
          obtain ⟨m', hm, rfl⟩ := hs
          exact .inr ⟨rfl, _, if_pos rfl, rfl, he⟩
        · simp only [Option.map_eq_some_iff] at hs
          obtain ⟨m', hm, rfl⟩ := hs
          exact .inr ⟨rfl, _, if_pos rfl, rfl, he⟩
        · split at hs
          · simp only [Option.map_eq_some_iff] at hs
            obtain ⟨m', hm, rfl⟩ := hs
            exact .inr ⟨rfl, _, if_pos rfl, rfl, he⟩
          · simp at hs
        · split at hs
          · simp only [Option.map_eq_some_iff] at hs
            obtain ⟨m', hm, rfl⟩ := hs
            exact .inl ⟨_, rfl⟩
          · simp at hs
      · rename_i hcs
        simp only [Option.map_eq_some_iff] at hs
        obtain ⟨m', hm, rfl⟩ := hs
        refine .inr ?_
        refine harr m' ?_
        rcases step_go hm ht with ⟨f, fs, h1, h2, h3, -⟩ | ⟨h1, h2, h3, h4, -⟩
        · exact ⟨_, by rw [h3, List.getElem?_set_self hlt], by simp [h1]⟩
        · refine ⟨_, by rw [h3, List.getElem?_set_self hlt], ?_⟩
          simp only [ThOk, hc] at hok
          obtain ⟨hr, hx, -⟩ := hok
          have hx := (hx he).1
          obtain ⟨pc, outer, top, prog, seen⟩ := t
          simp only at hr hx hcs h1 h2
          by_cases ho : outer = 0
          · subst ho
            have hx := hx rfl
            cases pc <;> simp [PC.reading] at hr <;> simp at hx hcs <;> simp [Th.after, PC.next, Th.arrive]
          · cases pc <;> simp [PC.reading] at hr <;> simp at hcs <;> simp [Th.after, PC.next, Th.arrive, ho]

end LM

theorem Who.num_surj (i : Nat) : ∃ w : Who, w.num = i := by
  have h : i = 4 * (i / 4) + i % 4 := (Nat.div_add_mod i 4).symm
  have h4 : i % 4 < 4 := Nat.mod_lt _ (by omega)
  rcases Nat.lt_or_ge (i % 4) 1 with h1 | h1
  · exact ⟨.thr (i / 4), by simp only [Who.num]; omega⟩
  rcases Nat.lt_or_ge (i % 4) 2 with h2 | h2
  · exact ⟨.dropper (i / 4), by simp only [Who.num]; omega⟩
  rcases Nat.lt_or_ge (i % 4) 3 with h3 | h3
  · exact ⟨.cons (i / 4), by simp only [Who.num]; omega⟩
  · exact ⟨.direct (i / 4), by simp only [Who.num]; omega⟩

namespace FSB
variable [LinearOrder K] [BEq V] {cfg : SBCfg K V} {n : Nat} {D : Nat → ChOp K V → Prop} {O : List (SBAct K V I)} {s s' : FSB K V I}

/-- A statement of a call: the call takes effect, in a step of `sb`, or nothing happens there. -/
theorem FInv.use_sim (h : FInv cfg n D O s) {b : Nat} {w : Who} {a : LAct K V} (hx : (s.sb.buf b).isSome = true) (hact : LM.actor a = w.num)
    (hcall : ∀ c, a = .call w.num c → s.sb.Doing b w c) (hu : s.use b w a = some s') (hX : ∀ r, NonOverlapping (LM.onReader r) (s'.lm b).hist) :
    (s.lm b).step a = some (s'.lm b) ∧
    (((s'.lm b).lin = (s.lm b).lin ∧ s'.sb = s.sb) ∨ ∃ id op o, (s'.lm b).lin = (s.lm b).lin ++ [(id, op, o)] ∧ s.sb.step cfg (SB.move b op w) = some s'.sb ∧
      (a = .call w.num op ∨ ∃ p, (s.lm b).pend w.num = some p ∧ p.call = op ∧ p.eff = false)) := by
  simp only [FSB.use] at hu
  split at hu
  · simp at hu
  rename_i l hl
  have hk := LM.step_kind (h.lm b).1 hl
  rw [hact] at hk
  have e : ∀ y : SB K V I, ({ s.setLm b w l with sb := y } : FSB K V I).lm b = l := fun y => if_pos rfl
  have e' : (s.setLm b w l).lm b = l := if_pos rfl
  split at hu
  · rename_i hd
    injection hu with hu; subst hu
    rw [e']
    refine ⟨hl, .inl ⟨?_, rfl⟩⟩
    rcases hk.2 with ⟨k, -⟩ | ⟨id, op, o, k, -⟩
    · exact k
    · rw [k] at hd; simp at hd
  · rename_i id op o tl hd
    simp only [Option.map_eq_some_iff] at hu
    obtain ⟨y, hy, rfl⟩ := hu
    rw [e]
    rw [e] at hX
    refine ⟨hl, .inr ?_⟩
    obtain ⟨x, hx'⟩ := Option.isSome_iff_exists.1 hx
    rcases hk.2 with ⟨k, -⟩ | ⟨id', op', o', k, k2⟩
    · rw [k] at hd; simp at hd
    have hwho : s.sb.Doing b w op' ∧ (a = .call w.num op' ∨ ∃ p, (s.lm b).pend w.num = some p ∧ p.call = op' ∧ p.eff = false) := by
      rcases k2 with ⟨k2, -, -⟩ | ⟨-, p, k2, k3, k4, -⟩
      · exact ⟨hcall _ k2, .inl k2⟩
      · exact ⟨by rw [← k3]; exact h.link b w p k2 k4, .inr ⟨p, k2, k3, k4⟩⟩
    rw [k] at hd
    simp only [List.drop_left', List.cons.injEq, Prod.mk.injEq] at hd
    obtain ⟨⟨rfl, rfl, rfl⟩, -⟩ := hd
    have hinv := LM.inv_step hX (h.lm b).1 (h.lm b).2 hl
    have hat := (LM.step_atom (h.lm b).1 hinv.1).2 _ _ _ k
    have hp := h.past b x hx'
    have ho : (x.cons.ch.step op').2 = o' := by
      simp only [Cons.past, Prod.mk.injEq] at hp
      rw [hp.1, hat]
    have hst := (SB.effect_step (cfg := cfg) hwho.1 hx' ho).1
    rw [hy] at hst
    exact ⟨_, _, _, k, hst, hwho.2⟩

/-- Somebody begins a call. -/
def Begins (s : FSB K V I) (b : Nat) : Who → FAct K V I → Prop
  | .thr t, x => x = .sb (.thr t) ∧ ∃ v, s.sb.thr t = .storing b v
  | .dropper c, x => x = .sb (.dropGo c) ∧ ∃ k, s.sb.drops c = some (b, k)
  | .cons i, x => x = .sb (.rd b (.go i))
  | .direct r, x => ∃ op, x = .direct b r op

/-- What a step is for the one-step stream buffer. -/
theorem FInv.sim (h : FInv cfg n D O s) {x : FAct K V I} (hs : s.step cfg x = some s') (hq : ∀ b, s.looksAt x = some b → s.Quiet b)
    (hX : ∀ b r, NonOverlapping (LM.onReader r) (s'.lm b).hist) :
    (∃ a, x = .sb a ∧ s.sb.step cfg a = some s'.sb) ∨
    (s'.sb = s.sb ∧ ∃ b w p, s.Begins b w x ∧ (s'.lm b).pend w.num = some p ∧ p.eff = false) ∨
    (s'.sb = s.sb ∧ ∃ b w, x = .low b w ∧ (s'.lm b).lin = (s.lm b).lin) ∨
    (∃ b w p, x = .low b w ∧ (s.lm b).pend w.num = some p ∧ p.eff = false ∧ s.sb.step cfg (SB.move b p.call w) = some s'.sb) ∨
    (∃ b r op, x = .direct b r op ∧ s.sb.step cfg (.rd b (.call (.rd r op))) = some s'.sb) := by
  have hpl : ∀ a, x = .sb a → s.plain cfg a = some s' → ∃ a, x = .sb a ∧ s.sb.step cfg a = some s'.sb := by
    intro a hx hp
    obtain ⟨y, h1, rfl⟩ := plain_some hp
    exact ⟨a, hx, h1⟩
  cases x with
  | low b w =>
    right; right
    simp only [FSB.step] at hs
    have hb : (s.sb.buf b).isSome = true := by
      simp only [FSB.use] at hs
      split at hs
      · simp at hs
      · rename_i l hl
        obtain ⟨p, hp⟩ := LM.go_pend hl
        exact h.some_buf hp
    obtain ⟨-, ⟨h1, h2⟩ | ⟨id, op, o, h1, h2, h3⟩⟩ := h.use_sim hb (a := .go w.num) rfl (by intro c hc; cases hc) hs (hX b)
    · exact .inl ⟨h2, b, w, rfl, h1⟩
    · rcases h3 with h3 | ⟨p, h3, rfl, h5⟩
      · cases h3
      · exact .inr (.inl ⟨b, w, p, rfl, h3, h5, h2⟩)
  | direct b r op =>
    simp only [FSB.step] at hs
    split at hs
    · simp at hs
    rename_i x hx
    obtain ⟨hl, hk⟩ := h.use_sim (b := b) (w := .direct r) (by rw [hx]; rfl) (a := .call (Who.direct r).num (.rd r op)) rfl
      (by intro c hc; injection hc with _ hc; subst hc; exact ⟨op, rfl⟩) hs (hX b)
    rcases hk with ⟨h1, h2⟩ | ⟨id, op', o, h1, h2, h3⟩
    · rcases LM.call_lin hl with ⟨-, p, h3, -, h4⟩ | h3
      · exact .inr (.inl ⟨h2, b, .direct r, p, ⟨op, rfl⟩, h3, h4⟩)
      · exfalso
        have hl' := hl
        simp only [LM.step] at hl
        split at hl
        · simp at hl
        obtain ⟨r', ⟨v, h3⟩ | h3⟩ := h3 <;>
        · injection h3 with h3 h4
          subst h4
          simp only [Option.some.injEq] at hl
          rw [← hl] at h1
          simp at h1
    · refine .inr (.inr (.inr (.inr ⟨b, r, op, rfl, ?_⟩)))
      rcases h3 with h3 | ⟨p, h3, -, -⟩
      · injection h3 with _ h3; subst h3; exact h2
      · have := LM.call_pend hl; rw [h3] at this; cases this
  | sb a =>
    have hbeg : ∀ b w c, s.Begins b w (.sb a) → (s.sb.buf b).isSome = true → s.sb.Doing b w c → (∀ r, (∀ v, c ≠ .rd r (.setLast v)) ∧ c ≠ .rd r .delLast) →
        s.use b w (.call w.num c) = some s' → s'.sb = s.sb ∧ ∃ b w p, s.Begins b w (.sb a) ∧ (s'.lm b).pend w.num = some p ∧ p.eff = false := by
      intro b w c hB hb hD hc hu
      obtain ⟨hl, hk⟩ := h.use_sim hb (a := .call w.num c) rfl (by intro c' hc'; injection hc' with _ hc'; subst hc'; exact hD) hu (hX b)
      rcases LM.call_lin hl with ⟨h1, p, h2, -, h3⟩ | ⟨r, ⟨v, h3⟩ | h3⟩
      · rcases hk with ⟨-, h4⟩ | ⟨id, op', o, h4, -⟩
        · exact ⟨h4, b, w, p, hB, h2, h3⟩
        · rw [h1] at h4; simp at h4
      · exact absurd h3 ((hc r).1 v)
      · exact absurd h3 (hc r).2
    cases a with
    | thr t =>
      simp only [FSB.step] at hs
      split at hs
      swap
      · simp at hs
      split at hs
      · rename_i b v hv
        exact .inr (.inl (hbeg b (.thr t) (.append v) ⟨rfl, v, hv⟩ (h.inv.storing t b v hv) ⟨v, hv, rfl⟩ (fun r => ⟨fun v => by simp, by simp⟩) hs))
      · rename_i b hv
        split at hs
        · simp at hs
        rename_i x hx
        have hlen := h.len hx (hq b (by simp [looksAt, hv]))
        have hs' : s.plain cfg (.thr t) = some s' := by
          rw [hlen] at hs
          simp only [FSB.plain, SB.step, SB.thrGo, hv, hx]
          cases hm : cfg.maxlen <;> rw [hm] at hs <;> exact hs
        exact .inl (hpl _ rfl hs')
      · exact .inl (hpl _ rfl hs)
    | readOk t r | readRaise t r | close t r | keyRaise t r | drop t r =>
      simp only [FSB.step] at hs
      split at hs
      swap
      · simp at hs
      exact .inl (hpl _ rfl hs)
    | dropGo c =>
      simp only [FSB.step] at hs
      split at hs
      swap
      · simp at hs
      split at hs
      · simp at hs
      rename_i b k hk
      exact .inr (.inl (hbeg b (.dropper c) (.drop k) ⟨rfl, k, hk⟩ (h.inv.drops c b k hk) ⟨k, hk, rfl⟩ (fun r => ⟨fun v => by simp, by simp⟩) hs))
    | infoGo c =>
      simp only [FSB.step] at hs
      split at hs
      · rename_i b hv
        split at hs
        · simp at hs
        rename_i x hx
        have hlen := h.len hx (hq b (by simp [looksAt, hv]))
        have hs' : s.plain cfg (.infoGo c) = some s' := by
          rw [hlen] at hs
          simp only [FSB.plain, SB.step, hv, hx]
          split at hs <;> rename_i hc <;> simp only [hc, if_true, if_false] <;> exact hs
        exact .inl (hpl _ rfl hs')
      · exact .inl (hpl _ rfl hs)
    | attach b i j =>
      refine .inl ⟨_, rfl, ?_⟩
      simp only [FSB.step] at hs
      split at hs
      swap
      · simp at hs
      rename_i hst
      split at hs
      · obtain ⟨y, h1, rfl⟩ := plain_some hs
        exact h1
      rename_i b' hsb
      split at hs
      swap
      · simp at hs
      rename_i x x' hx hx'
      simp only [Option.map_eq_some_iff] at hs
      obtain ⟨l, hl, rfl⟩ := hs
      have hp := h.past b x hx
      have hp' := h.past b' x' hx'
      simp only [Cons.past, Prod.mk.injEq] at hp hp'
      have hr : ((s.lm b).readers i).lastItem = (x.cons.ch.readers i).lastItem := by rw [hp.1]
      rw [hr] at hl ⊢
      have hX' : ∀ r, NonOverlapping (LM.onReader r) l.hist := by
        intro r; have := hX b' r; simpa [setLm] using this
      have key : ∀ op : RdOp K V, (∀ m : LM K V, ∀ m', m.step (.call (Who.direct j).num (.rd j op)) = some m' → m'.lin = m.lin ++ [(m.next, .rd j op, .ok .none)]) →
          (s.lm b').step (.call (Who.direct j).num (.rd j op)) = some l → x'.cons.callWith (.rd j op) (.ok .none) = (x'.cons.call (.rd j op)).1 := by
        intro op hlin hl
        have hinv := LM.inv_step hX' (h.lm b').1 (h.lm b').2 hl
        have hat := (LM.step_atom (h.lm b').1 hinv.1).2 _ _ _ (hlin _ _ hl)
        have ho : (x'.cons.ch.step (.rd j op)).2 = .ok .none := by rw [hp'.1, hat]
        rw [← ho]; rfl
      cases hli : (x.cons.ch.readers i).lastItem with
      | some v =>
        rw [hli] at hl
        simp only
        rw [key (.setLast v) ?_ hl]
        · simp [SB.step, hst, hsb, hx, hx', hli]
        · intro m m' hm
          simp only [LM.step] at hm
          split at hm
          · simp at hm
          · injection hm with hm; subst hm; rfl
      | none =>
        rw [hli] at hl
        simp only
        rw [key .delLast ?_ hl]
        · simp [SB.step, hst, hsb, hx, hx', hli]
        · intro m m' hm
          simp only [LM.step] at hm
          split at hm
          · simp at hm
          · injection hm with hm; subst hm; rfl
    | rd b a =>
      cases a with
      | call op => simp [FSB.step] at hs
      | setStop => simp [FSB.step] at hs
      | go i =>
        simp only [FSB.step] at hs
        split at hs
        swap
        · simp at hs
        split at hs
        · simp at hs
        rename_i x hx
        split at hs
        · rename_i op hop
          refine .inr (.inl (hbeg b (.cons i) (.rd i op) rfl (by rw [hx]; rfl) ⟨x, op, hx, hop, rfl⟩ ?_ hs))
          intro r
          unfold Cons.asks at hop
          split at hop <;> simp at hop <;> subst hop <;> simp
        · exact .inl (hpl _ rfl hs)
      | callNext i | callIter i | callRead i | leave i =>
        simp only [FSB.step] at hs
        split at hs
        swap
        · simp at hs
        exact .inl (hpl _ rfl hs)
    | _ =>
      simp only [FSB.step] at hs
      exact .inl (hpl _ rfl hs)

end FSB
end S2P
