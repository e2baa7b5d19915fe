import Verif.Proofs.FineInv
import Verif.Props.EndToEnd
/-
C163: every append, drop and reader call executed statement by statement, under the lock of its session, beside everything else: each execution is one of the
model in which such a call is one step.
-/
namespace S2P
open Spec
variable {K V I : Type} [LinearOrder K] [BEq V]

namespace FSB
variable {cfg : SBCfg K V} {n : Nat} {D : Nat → ChOp K V → Prop} {O : List (SBAct K V I)} {s s' : FSB K V I}

theorem plain_some {a : SBAct K V I} (h : s.plain cfg a = some s') : ∃ y, s.sb.step cfg a = some y ∧ s' = { s with sb := y } := by
  simp only [plain, Option.map_eq_some_iff] at h
  obtain ⟨y, h1, h2⟩ := h
  exact ⟨y, h1, h2.symm⟩

/-- A plain step of nobody, or of somebody who is not in the middle of a call. -/
theorem FInv.plain' (h : FInv cfg n D O s) {a : SBAct K V I} (hs : s.plain cfg a = some s') (hc : s.sb.callOf a = none)
    (hown : ∀ b w, SB.own b w a → (one w = true ∧ s.free w = true) ∨ (s.lm b).pend w.num = none) :
    FInv cfg n D (O ++ (FAct.outer (.sb a)).toList) s' := by
  obtain ⟨y, h1, rfl⟩ := plain_some hs
  have := h.plain h1 hc ?_
  · cases hi : a.inner <;> simp [FAct.outer, hi] at this ⊢ <;> exact this
  · intro b w p hp he ho
    rcases hown b w ho with ⟨h2, h3⟩ | h2
    · have := h.last b w p hp h2
      simp only [free, this, hp] at h3
      cases h3
    · rw [hp] at h2; cases h2

theorem FInv.some_buf (h : FInv cfg n D O s) {b i : Nat} {p : Pend K V} (hp : (s.lm b).pend i = some p) : (s.sb.buf b).isSome = true := by
  cases hb : s.sb.buf b with
  | none => rw [h.new b hb] at hp; simp [LM.init] at hp
  | some x => rfl

theorem FInv.len (h : FInv cfg n D O s) {b : Nat} {x : Sess K V I} (hx : s.sb.buf b = some x) (hq : s.Quiet b) : (s.lm b).m.data = x.cons.ch.buf := by
  have h1 := (h.lm b).1.data_eq hq
  have h2 := h.past b x hx
  simp only [Cons.past, Prod.mk.injEq] at h2
  rw [h1, h2.1]

theorem FInv.step (h : FInv cfg n D O s) {x : FAct K V I} (hs : s.step cfg x = some s') (hq : ∀ b, s.looksAt x = some b → s.Quiet b)
    (hX : ∀ b r, NonOverlapping (LM.onReader r) (s'.lm b).hist) (hD : ∀ b r op, x = .direct b r op → D b (.rd r op)) : FInv cfg n D (O ++ x.outer.toList) s' := by
  cases x with
  | low b w =>
    simp only [FSB.step] at hs
    have hb : (s.sb.buf b).isSome = true := by
      simp only [FSB.use] at hs
      split at hs
      · simp at hs
      · rename_i l hl
        obtain ⟨p, hp⟩ := LM.go_pend hl
        exact h.some_buf hp
    have := h.use hb (a := .go w.num) rfl (by intro c hc; cases hc) hs (hX b)
    simpa [FAct.outer] using this
  | direct b r op =>
    simp only [FSB.step] at hs
    split at hs
    · simp at hs
    rename_i x hx
    have := h.use (b := b) (w := .direct r) (by rw [hx]; rfl) (a := .call (Who.direct r).num (.rd r op)) rfl
      (by
        intro c hc
        injection hc with _ hc
        subst hc
        exact ⟨⟨op, rfl⟩, by simp [one], fun i _ => hD _ _ _ rfl⟩) hs (hX b)
    simpa [FAct.outer] using this
  | sb a =>
    cases a with
    | thr t =>
      simp only [FSB.step] at hs
      split at hs
      swap
      · simp at hs
      rename_i hf
      have hown : ∀ b w, SB.own b w (.thr t : SBAct K V I) → (one w = true ∧ s.free w = true) ∨ (s.lm b).pend w.num = none := by
        intro b w ho
        cases w with
        | thr t' => rcases ho with ho | ⟨e, ho⟩ <;> cases ho; exact .inl ⟨rfl, hf⟩
        | dropper c => cases ho
        | cons i => cases ho
        | direct i => cases ho
      split at hs
      · rename_i b v hv
        have := h.use (b := b) (w := .thr t) (h.inv.storing t b v hv) (a := .call (Who.thr t).num (.append v)) rfl
          (by
            intro c hc
            injection hc with _ hc
            subst hc
            exact ⟨⟨v, hv, rfl⟩, fun _ => hf, fun i hi => by cases hi⟩) hs (hX b)
        simpa [FAct.outer, SBAct.inner] using this
      · rename_i b hv
        split at hs
        · simp at hs
        rename_i x hx
        have hlen := h.len hx (hq b (by simp [looksAt, hv]))
        have hs' : s.plain cfg (.thr t) = some s' := by
          rw [hlen] at hs
          simp only [FSB.plain, SB.step, SB.thrGo, hv, hx]
          cases hm : cfg.maxlen <;> rw [hm] at hs <;> exact hs
        exact h.plain' hs' (by simp [SB.callOf, hv]) hown
      · rename_i h1 h2
        refine h.plain' hs ?_ hown
        unfold SB.callOf
        dsimp only
        split
        · rename_i b v hv; exact absurd hv (h1 b v)
        · rfl
    | readOk t r | readRaise t r | close t r =>
      simp only [FSB.step] at hs
      split at hs
      swap
      · simp at hs
      refine h.plain' hs rfl ?_
      intro b w ho
      cases w <;> simp [SB.own] at ho
    | keyRaise t e =>
      simp only [FSB.step] at hs
      split at hs
      swap
      · simp at hs
      rename_i hf
      refine h.plain' hs rfl ?_
      intro b w ho
      cases w <;> simp [SB.own] at ho
      subst ho
      exact .inl ⟨rfl, hf⟩
    | drop c k =>
      simp only [FSB.step] at hs
      split at hs
      swap
      · simp at hs
      refine h.plain' hs rfl ?_
      intro b w ho
      cases w <;> simp [SB.own] at ho
    | dropGo c =>
      simp only [FSB.step] at hs
      split at hs
      swap
      · simp at hs
      rename_i hf
      split at hs
      · simp at hs
      rename_i b k hk
      have := h.use (b := b) (w := .dropper c) (h.inv.drops c b k hk) (a := .call (Who.dropper c).num (.drop k)) rfl
        (by
          intro c hc
          injection hc with _ hc
          subst hc
          exact ⟨⟨k, hk, rfl⟩, fun _ => hf, fun i hi => by cases hi⟩) hs (hX b)
      simpa [FAct.outer, SBAct.inner] using this
    | infoGo c =>
      have hown : ∀ b w, SB.own b w (.infoGo c : SBAct K V I) → (one w = true ∧ s.free w = true) ∨ (s.lm b).pend w.num = none := by
        intro b w ho
        cases w <;> simp [SB.own] at ho
      simp only [FSB.step] at hs
      split at hs
      · rename_i b hv
        split at hs
        · simp at hs
        rename_i x hx
        have hlen := h.len hx (hq b (by simp [looksAt, hv]))
        have hs' : s.plain cfg (.infoGo c) = some s' := by
          rw [hlen] at hs
          simp only [FSB.plain, SB.step, hv, hx]
          split at hs <;> rename_i hc <;> simp only [hc, if_true, if_false] <;> exact hs
        exact h.plain' hs' rfl hown
      · exact h.plain' hs rfl hown
    | attach b i j =>
      simp only [FSB.step] at hs
      split at hs
      swap
      · simp at hs
      rename_i hst
      split at hs
      · rename_i hsb
        refine h.plain' hs (by simp [SB.callOf, hsb]) ?_
        intro b w ho
        cases w <;> simp [SB.own] at ho
      rename_i b' hsb
      split at hs
      swap
      · simp at hs
      rename_i x x' hx hx'
      simp only [Option.map_eq_some_iff] at hs
      obtain ⟨l, hl, rfl⟩ := hs
      have hp := h.past b x hx
      have hp' := h.past b' x' hx'
      simp only [Cons.past, Prod.mk.injEq] at hp hp'
      have hr : ((s.lm b).readers i).lastItem = (x.cons.ch.readers i).lastItem := by rw [hp.1]
      rw [hr] at hl ⊢
      have key : ∀ op : RdOp K V, (∀ m : LM K V, ∀ m', m.step (.call (Who.direct j).num (.rd j op)) = some m' → m'.lin = m.lin ++ [(m.next, .rd j op, .ok .none)]) →
          (s.lm b').step (.call (Who.direct j).num (.rd j op)) = some l →
          s.sb.callOf (.attach b i j) = some (b', .rd j op) →
          (∀ y : Sess K V I, (x'.cons.ch.step (.rd j op)).2 = .ok .none →
            s.sb.step cfg (.attach b i j) = some ((s.sb.setBuf b' { x' with cons := (x'.cons.call (.rd j op)).1 }).say (.attached (.ok b')))) →
          (∀ r, NonOverlapping (LM.onReader r) l.hist) →
          FInv cfg n D (O ++ (FAct.outer (.sb (.attach b i j) : FAct K V I)).toList)
            { s.setLm b' (.direct j) l with
              sb := (s.sb.setBuf b' { x' with cons := x'.cons.callWith (.rd j op) (.ok .none) }).say (.attached (.ok b')) } := by
        intro op hlin hl hcall hstep hX'
        have hinv := LM.inv_step hX' (h.lm b').1 (h.lm b').2 hl
        have hat := (LM.step_atom (h.lm b').1 hinv.1).2 _ _ _ (hlin _ _ hl)
        have ho : (x'.cons.ch.step (.rd j op)).2 = .ok .none := by rw [hp'.1, hat]
        have e : x'.cons.callWith (.rd j op) (.ok .none) = (x'.cons.call (.rd j op)).1 := by rw [← ho]; rfl
        rw [e]
        have := h.effect (w := .direct j) (by rw [hx']; rfl) (a := .call (Who.direct j).num (.rd j op)) rfl (by simp [one]) hl (hlin _ _ hl) hX' (hstep x' ho) hcall
          (by intro b w p _ _ _ ho; cases w <;> simp [SB.own] at ho) (by intro b op e; cases e)
        simpa [FAct.outer, SBAct.inner] using this
      have hX' : ∀ r, NonOverlapping (LM.onReader r) l.hist := by
        intro r; have := hX b' r; simpa [setLm] using this
      cases hli : (x.cons.ch.readers i).lastItem with
      | some v =>
        rw [hli] at hl
        simp only
        refine key (.setLast v) ?_ hl (by simp [SB.callOf, hsb, hx, hli]) ?_ hX'
        · intro m m' hm
          simp only [LM.step] at hm
          split at hm
          · simp at hm
          · injection hm with hm; subst hm; rfl
        · intro y ho
          simp [SB.step, hst, hsb, hx, hx', hli]
      | none =>
        rw [hli] at hl
        simp only
        refine key .delLast ?_ hl (by simp [SB.callOf, hsb, hx, hli]) ?_ hX'
        · intro m m' hm
          simp only [LM.step] at hm
          split at hm
          · simp at hm
          · injection hm with hm; subst hm; rfl
        · intro y ho
          simp [SB.step, hst, hsb, hx, hx', hli]
    | rd b a =>
      cases a with
      | call op => simp [FSB.step] at hs
      | setStop => simp [FSB.step] at hs
      | go i =>
        simp only [FSB.step] at hs
        split at hs
        swap
        · simp at hs
        rename_i hf
        split at hs
        · simp at hs
        rename_i x hx
        split at hs
        · rename_i op hop
          have := h.use (b := b) (w := .cons i) (by rw [hx]; rfl) (a := .call (Who.cons i).num (.rd i op)) rfl
            (by
              intro c hc
              injection hc with _ hc
              subst hc
              exact ⟨⟨x, op, hx, hop, rfl⟩, by simp [one], fun i hi => by cases hi⟩) hs (hX b)
          simpa [FAct.outer, SBAct.inner] using this
        · rename_i hop
          refine h.plain' hs (by simp [SB.callOf, hx, hop]) ?_
          intro b' w ho
          cases w <;> simp [SB.own] at ho
          obtain ⟨rfl, rfl⟩ := ho
          refine .inr ?_
          simpa [freeIn] using hf
      | callNext i | callIter i | callRead i | leave i =>
        simp only [FSB.step] at hs
        split at hs
        swap
        · simp at hs
        refine h.plain' hs rfl ?_
        intro b w ho
        cases w <;> simp [SB.own] at ho
    | _ =>
      simp only [FSB.step] at hs
      refine h.plain' hs rfl ?_
      intro b w ho
      cases w <;> simp [SB.own] at ho

/-- Each buffer goes by steps of Model/Linear.lean. -/
theorem lm_step {x : FAct K V I} (hs : s.step cfg x = some s') (b : Nat) : s'.lm b = s.lm b ∨ ∃ a, (s.lm b).step a = some (s'.lm b) := by
  have hplain : ∀ a, s.plain cfg a = some s' → s'.lm b = s.lm b ∨ ∃ a, (s.lm b).step a = some (s'.lm b) := by
    intro a h
    obtain ⟨y, -, rfl⟩ := plain_some h
    exact .inl rfl
  have hset : ∀ b' w a l, (s.lm b').step a = some l → (s.setLm b' w l).lm b = s.lm b ∨ ∃ a, (s.lm b).step a = some ((s.setLm b' w l).lm b) := by
    intro b' w a l hl
    simp only [setLm]
    by_cases hb : b = b'
    · subst hb; exact .inr ⟨a, by rw [if_pos rfl]; exact hl⟩
    · exact .inl (if_neg hb)
  have huse : ∀ b' w a, s.use b' w a = some s' → s'.lm b = s.lm b ∨ ∃ a, (s.lm b).step a = some (s'.lm b) := by
    intro b' w a h
    simp only [FSB.use] at h
    split at h
    · simp at h
    rename_i l hl
    split at h
    · injection h with h; subst h; exact hset b' w a l hl
    · simp only [Option.map_eq_some_iff] at h
      obtain ⟨y, -, rfl⟩ := h
      exact hset b' w a l hl
  cases x with
  | low b' w => exact huse _ _ _ hs
  | direct b' r op =>
    simp only [FSB.step] at hs
    split at hs
    · simp at hs
    · exact huse _ _ _ hs
  | sb a =>
    cases a with
    | thr t =>
      simp only [FSB.step] at hs
      split at hs
      swap
      · simp at hs
      split at hs
      · exact huse _ _ _ hs
      · split at hs
        · simp at hs
        split at hs <;> (injection hs with hs; subst hs; exact .inl rfl)
      · exact hplain _ hs
    | infoGo c =>
      simp only [FSB.step] at hs
      split at hs
      · split at hs
        · simp at hs
        split at hs <;> (injection hs with hs; subst hs; exact .inl rfl)
      · exact hplain _ hs
    | attach b i j =>
      simp only [FSB.step] at hs
      split at hs
      swap
      · simp at hs
      split at hs
      · exact hplain _ hs
      split at hs
      swap
      · simp at hs
      simp only [Option.map_eq_some_iff] at hs
      obtain ⟨l, hl, rfl⟩ := hs
      exact hset _ (.direct j) _ l hl
    | rd b' a =>
      cases a with
      | call op => simp [FSB.step] at hs
      | setStop => simp [FSB.step] at hs
      | go i =>
        simp only [FSB.step] at hs
        split at hs
        swap
        · simp at hs
        split at hs
        · simp at hs
        split at hs
        · exact huse _ _ _ hs
        · exact hplain _ hs
      | callNext i | callIter i | callRead i | leave i =>
        simp only [FSB.step] at hs
        split at hs
        · exact hplain _ hs
        · simp at hs
    | dropGo c =>
      simp only [FSB.step] at hs
      split at hs
      swap
      · simp at hs
      split at hs
      · simp at hs
      · exact huse _ _ _ hs
    | readOk t r | readRaise t r | close t r | keyRaise t r | drop t r =>
      simp only [FSB.step] at hs
      split at hs
      · exact hplain _ hs
      · simp at hs
    | _ => exact hplain _ hs

theorem exec_hist {xs : List (FAct K V I)} (he : s.exec cfg xs = some s') (b : Nat) : ∃ l, (s'.lm b).hist = (s.lm b).hist ++ l := by
  induction xs generalizing s with
  | nil => simp only [exec, Option.some.injEq] at he; subst he; exact ⟨[], by simp⟩
  | cons x xs ih =>
    simp only [exec] at he
    split at he
    · rename_i s1 h1
      obtain ⟨l, hl⟩ := ih he
      rcases lm_step h1 b with h2 | ⟨a, h2⟩
      · exact ⟨l, by rw [hl, h2]⟩
      · obtain ⟨l', hl'⟩ := LM.step_hist h2
        exact ⟨l' ++ l, by rw [hl, hl', List.append_assoc]⟩
    · simp at he

theorem FInv.exec (h : FInv cfg n D O s) {xs : List (FAct K V I)} (he : s.exec cfg xs = some s') (hq : s.QuietLooks cfg xs)
    (hX : ∀ b r, NonOverlapping (LM.onReader r) (s'.lm b).hist) (hD : ∀ b r op, .direct b r op ∈ xs → D b (.rd r op)) :
    FInv cfg n D (O ++ xs.filterMap FAct.outer) s' := by
  induction xs generalizing s O with
  | nil => simp only [FSB.exec, Option.some.injEq] at he; subst he; simpa using h
  | cons x xs ih =>
    simp only [FSB.exec] at he
    split at he
    · rename_i s1 h1
      have hX1 : ∀ b r, NonOverlapping (LM.onReader r) (s1.lm b).hist := by
        intro b r
        obtain ⟨l, hl⟩ := exec_hist he b
        have := hX b r
        rw [hl] at this
        exact LM.nonOverlapping_prefix this
      have hstep := h.step h1 hq.1 hX1 fun b r op e => hD b r op (by rw [e]; simp)
      have := ih hstep he (hq.2 s1 h1) fun b r op hm => hD b r op (by simp [hm])
      rw [List.append_assoc] at this
      have e : (x :: xs).filterMap FAct.outer = x.outer.toList ++ xs.filterMap FAct.outer := by
        simp only [List.filterMap_cons]
        cases x.outer <;> rfl
      rw [e]; exact this
    · simp at he

theorem finv {xs : List (FAct K V I)} (he : (FSB.init n cfg : FSB K V I).exec cfg xs = some s) (hX : ∀ b r, NonOverlapping (LM.onReader r) (s.lm b).hist)
    (hq : (FSB.init n cfg : FSB K V I).QuietLooks cfg xs) :
    FInv cfg n (fun b op => ∃ r o, op = .rd r o ∧ .direct b r o ∈ xs) (xs.filterMap FAct.outer) s := by
  have := (FInv.init (D := fun b op => ∃ r o, op = .rd r o ∧ .direct b r o ∈ xs)).exec he hq hX fun b r o h => ⟨r, o, rfl, h⟩
  simpa using this

/-- **C163** Take any execution in which appends, drops and reader calls go statement by statement under the lock of their session, interleaved in any way with each
other, with `start()`, `stop()` and everything else. Then there is an execution with each call a single step that ends in the same state: the same log of what the
callers, the source and the reading thread observed, the same outcomes, in the same order of the outside world's steps. The direct calls made in it are among those
that were begun. In each session the memory, when no writer is in its section, and the readers are what that execution says, and what a call returned is what it
says. Conditions: calls on one reader do not overlap (C68), lengths are not taken in the middle of an append or a drop. -/
theorem C163_one_step {xs : List (FAct K V I)} (he : (FSB.init n cfg : FSB K V I).exec cfg xs = some s) (hX : ∀ b r, NonOverlapping (LM.onReader r) (s.lm b).hist)
    (hq : (FSB.init n cfg : FSB K V I).QuietLooks cfg xs) :
    ∃ as, SB.init.exec cfg as = some s.sb ∧ as.filter (fun a => !a.inner) = xs.filterMap FAct.outer ∧
      (∀ b op, SBAct.rd b (.call op) ∈ as → ∃ r o, op = .rd r o ∧ .direct b r o ∈ xs) ∧
      ∀ b x, s.sb.buf b = some x → (s.Quiet b → (s.lm b).m.data = x.cons.ch.buf) ∧ (s.lm b).readers = x.cons.ch.readers ∧
        ∀ id o, HEv.ret id o ∈ (s.lm b).hist → ∃ c, HEv.inv id c ∈ (s.lm b).hist ∧ (c, o) ∈ x.cons.ops.zip x.cons.outs := by
  have h := finv he hX hq
  obtain ⟨as, h1, h2, h3⟩ := h.reach
  refine ⟨as, h1, h2, h3, fun b x hx => ⟨h.len hx, ?_, ?_⟩⟩
  · have := h.past b x hx
    simp only [Cons.past, Prod.mk.injEq] at this
    rw [this.1]
  · intro id o hr
    obtain ⟨c, hc⟩ := (h.lm b).2.ret id o hr
    refine ⟨c, (h.lm b).2.lin _ hc, ?_⟩
    have := h.past b x hx
    simp only [Cons.past, Prod.mk.injEq] at this
    rw [this.2.1, this.2.2]
    have hz : ∀ l : List (Nat × ChOp K V × Py (Ret V)), (id, c, o) ∈ l → (c, o) ∈ (l.map (·.2.1)).zip (l.map (·.2.2)) := by
      intro l hl
      induction l with
      | nil => cases hl
      | cons y l ih =>
        simp only [List.map_cons, List.zip_cons_cons, List.mem_cons]
        rcases List.mem_cons.1 hl with rfl | hl
        · exact .inl rfl
        · exact .inr (ih hl)
    exact hz _ hc

/-- **C163** nothing but the lock holds a call up: whoever can execute its next statement as far as the lock of the session is concerned, can. -/
theorem C163_only_the_lock_blocks {xs : List (FAct K V I)} (he : (FSB.init n cfg : FSB K V I).exec cfg xs = some s)
    (hX : ∀ b r, NonOverlapping (LM.onReader r) (s.lm b).hist) (hq : (FSB.init n cfg : FSB K V I).QuietLooks cfg xs) (b : Nat) (w : Who) (l : LM K V)
    (hl : (s.lm b).step (.go w.num) = some l) (hX' : ∀ r, NonOverlapping (LM.onReader r) l.hist) : ∃ s', s.step cfg (.low b w) = some s' ∧ s'.lm b = l := by
  have h := finv he hX hq
  obtain ⟨p, hp⟩ := LM.go_pend hl
  simp only [FSB.step, FSB.use, hl]
  split
  · exact ⟨_, rfl, by simp [setLm]⟩
  rename_i id op o tl hd
  have hk := (LM.step_kind (h.lm b).1 hl).2
  obtain ⟨id', op', o', k, k2⟩ : ∃ id' op' o', l.lin = (s.lm b).lin ++ [(id', op', o')] ∧ s.sb.Doing b w op' := by
    rcases hk with ⟨k, -⟩ | ⟨id', op', o', k, k2⟩
    · rw [k] at hd; simp at hd
    · refine ⟨id', op', o', k, ?_⟩
      rcases k2 with ⟨k2, -, -⟩ | ⟨-, p, k2, k3, k4, -⟩
      · cases k2
      · rw [← k3]; exact h.link b w p k2 k4
  rw [k] at hd
  simp only [List.drop_left', List.cons.injEq, Prod.mk.injEq] at hd
  obtain ⟨⟨rfl, rfl, rfl⟩, -⟩ := hd
  obtain ⟨x, hx⟩ := Option.isSome_iff_exists.1 (h.some_buf hp)
  have hinv := LM.inv_step hX' (h.lm b).1 (h.lm b).2 hl
  have hat := (LM.step_atom (h.lm b).1 hinv.1).2 _ _ _ k
  have hpast := h.past b x hx
  have ho : (x.cons.ch.step op').2 = o' := by
    simp only [Cons.past, Prod.mk.injEq] at hpast
    rw [hpast.1, hat]
  obtain ⟨y, hy⟩ := Option.isSome_iff_exists.1 (SB.effect_step (cfg := cfg) k2 hx ho).2
  exact ⟨_, by rw [hy]; rfl, by simp [setLm]⟩

/-- Nobody but consumer `i` uses reader `i` of session `b`, and it does not peek. -/
def OneUser (b i : Nat) : FAct K V I → Prop
  | .sb a => SB.OneUser b i a
  | .direct b' r _ => b' = b → r ≠ i
  | .low _ _ => True

/-- **C163** so a consumer gets what the properties above promise, statement by statement: e.g. (C63) with an unbounded buffer, what it received, then what is still
unread in memory, is exactly what was stored in its session. -/
theorem C163_consumer [ReflBEq V] (hm : cfg.maxlen = none) (hd : cfg.autoDrop = true) {xs : List (FAct K V I)} (b i : Nat) (hpk : (cfg.rdCfg i).peek = false)
    (he : (FSB.init n cfg : FSB K V I).exec cfg xs = some s) (hX : ∀ b r, NonOverlapping (LM.onReader r) (s.lm b).hist)
    (hq : (FSB.init n cfg : FSB K V I).QuietLooks cfg xs) (hu : ∀ x ∈ xs, OneUser b i x) (hQ : s.Quiet b) (c : Cons K V) (hv : s.sb.view b = some c) :
    received c i ++ unreadOf ⟨(s.lm b).m.data, (s.lm b).readers⟩ i = storedIn b s.sb.log := by
  obtain ⟨as, h1, h2, h3, h4⟩ := C163_one_step he hX hq
  obtain ⟨x, hx, rfl⟩ := Option.map_eq_some_iff.1 hv
  obtain ⟨h5, h6, -⟩ := h4 b x hx
  rw [h5 hQ, h6]
  refine SB.C63_unbounded hm hd b i hpk ?_ h1 _ hv
  intro a ha
  cases hi : a.inner with
  | false =>
    have : a ∈ xs.filterMap FAct.outer := by rw [← h2]; simp [ha, hi]
    obtain ⟨y, hy, hy'⟩ := List.mem_filterMap.1 this
    have hou := hu y hy
    cases y with
    | sb a' =>
      simp only [FAct.outer] at hy'
      split at hy'
      · cases hy'
      · injection hy' with hy'; subst hy'; exact hou
    | low => simp [FAct.outer] at hy'
    | direct => simp [FAct.outer] at hy'
  | true =>
    cases a with
    | rd b' a' =>
      cases a' with
      | call op =>
        obtain ⟨r, o, rfl, hm⟩ := h3 b' op ha
        exact hu _ hm
      | go j => intro _; trivial
      | _ => simp [SBAct.inner] at hi
    | thr | dropGo => trivial
    | _ => simp [SBAct.inner] at hi

end FSB
end S2P
