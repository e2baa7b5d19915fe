import Verif.Proofs.Linear
/- Every step of Model/Linear.lean keeps the invariants of Proofs/Linear.lean. -/
namespace S2P
open Spec

namespace LM
open RW
variable {K V : Type} [LinearOrder K] [BEq V]
variable {s s' : LM K V} {i : Nat} {p : Pend K V}
variable {d d' d0 : SD K V} {R R' r0 : Nat → Reader K V} {t : Th (SD K V) (WOp V)}

/-- Steps of thread `i` in which a call takes effect. -/
theorem AInv.complete (h : AInv d0 r0 s) {t' : Th (SD K V) (WOp V)}
    (hrw : Inv s'.m) (hdata : DInv bufBody d0 s'.m) (hth : s'.m.th = s.m.th.set i t' ∨ s'.m.th = s.m.th)
    (id : Nat) (c : ChOp K V) (o : Py (Ret V)) (hlin : s'.lin = s.lin ++ [(id, c, o)])
    (hstep : Ch.step ⟨buf d0 s.m, s.readers⟩ c = (⟨buf d0 s'.m, s'.readers⟩, o))
    (hpend : ∀ j, j ≠ i → s'.pend j = s.pend j)
    (hother : ∀ j tj, j ≠ i → s.m.th[j]? = some tj → buf d0 s'.m = buf d0 s.m ∨ (¬ tj.inside ∧ tj.pc ≠ .wCS))
    (hR : ∀ j q r op, j ≠ i → s.pend j = some q → q.call = .rd r op → s'.readers r = s.readers r)
    (hok : ∀ ti, s'.m.th[i]? = some ti → ThOk (buf d0 s'.m) s'.readers ti (s'.pend i)) : AInv d0 r0 s' := by
  refine ⟨hrw, hdata, ?_, ?_⟩
  · rw [hlin, List.map_append, List.map_append, run_append, h.atom]
    simp only [List.map_cons, List.map_nil, Ch.run, hstep]
  · intro j tj hj
    by_cases hne : j = i
    · subst hne; exact hok tj hj
    · have hj' : s.m.th[j]? = some tj := by
        rcases hth with hth | hth
        · rw [hth] at hj
          rcases set_get hj with ⟨he, -⟩ | ⟨-, hj⟩
          · exact absurd he hne
          · exact hj
        · rw [hth] at hj; exact hj
      rw [hpend j hne]
      exact (h.thr j tj hj').frame (hother j tj hne hj') fun q r op hq hc => hR j q r op hne hq hc

theorem setPend_pend (s : LM K V) (i : Nat) (q : Option (Pend K V)) (j : Nat) : (s.setPend i q).pend j = if j = i then q else s.pend j := rfl

/-- A thread that executes a statement of a reader call outside its body. -/
theorem thOk_reader (h : ThOk d R t (some p)) {r : Nat} {op : RdOp K V} (hc : p.call = .rd r op) (hp : t.pc ≠ .rCS) :
    let t' := t.after bufBody d'
    (t'.pc = .idle ∧ p.eff = true) ∨ (t'.pc ≠ .idle ∧ ThOk d R t' (some p)) := by
  obtain ⟨id, c, rest, out, eff⟩ := p
  simp only at hc; subst hc
  simp only [ThOk] at h ⊢
  obtain ⟨h2, h3, h4⟩ := h
  obtain ⟨pc, outer, top, tprog, seen⟩ := t
  cases eff with
  | true =>
    obtain ⟨rfl, h5⟩ := h4 rfl
    simp only at h5
    simp only [List.mem_cons, List.not_mem_nil, or_false] at h5
    rcases h5 with rfl | rfl | rfl | rfl <;> simp [Th.after, Th.arrive, PC.next, PC.reading]
  | false =>
    obtain ⟨a1, a2, a3⟩ := h3 rfl
    simp only at a1
    cases outer with
    | zero =>
      have := a1 rfl
      cases pc <;> simp [PC.reading] at h2 <;> simp at this <;> simp at hp <;>
        simp [Th.after, Th.arrive, PC.next, PC.reading, Th.inside] at a2 a3 ⊢ <;> first | exact a3 | exact a3 _
    | succ n =>
      have hin : ({ pc, outer := n + 1, op := top, prog := tprog, seen } : Th (SD K V) (WOp V)).inside := .inr (by simp)
      have := a2 hin
      cases pc <;> simp [PC.reading] at h2 <;> simp at hp <;>
        simp [Th.after, Th.arrive, PC.next, PC.reading, Th.inside, this]

/-- A thread that executes a statement of a writer call other than entering and leaving its section. -/
theorem thOk_writer (h : ThOk d R t (some p)) {op : WOp V} (hc : asW p.call = some op) (h5 : t.pc ≠ .w5) (hcs : t.pc ≠ .wCS) :
    let t' := t.after bufBody d'
    (t'.pc = .idle ∧ p.eff = true) ∨ (t'.pc ≠ .idle ∧ ThOk d R t' (some p)) := by
  obtain ⟨id, c, rest, out, eff⟩ := p
  obtain ⟨pc, outer, top, tprog, seen⟩ := t
  cases c with
  | rd r op => simp [asW] at hc
  | append v | drop n =>
    simp only [ThOk] at h ⊢
    obtain ⟨op, h1, rfl, h3, h4⟩ := h
    cases eff with
    | true =>
      have := h4 rfl
      simp only [List.mem_cons, List.not_mem_nil, or_false] at this
      rcases this with rfl | rfl | rfl | rfl | rfl <;> simp [Th.after, Th.arrive, PC.next, h1]
    | false =>
      obtain ⟨a1, a2, a3⟩ := h3 rfl
      simp only [List.mem_cons, List.not_mem_nil, or_false] at a1 a2
      subst a2
      rcases a1 with rfl | rfl | rfl | rfl | rfl | rfl <;> simp [Th.after, Th.arrive, PC.next, h1] at h5 hcs ⊢

/-- A statement that neither enters nor leaves a section. -/
theorem inv_arrive (hA : AInv d0 r0 s) (hH : HInv s) (hp : s.pend i = some p) (ht : s.m.th[i]? = some t) {m' : M (SD K V) (WOp V)}
    {t' : Th (SD K V) (WOp V)} (hm : s.m.step bufBody (.go i) = some m') (hth : m'.th = s.m.th.set i t') (hdone : m'.done = s.m.done)
    (hok : (t'.pc = .idle ∧ p.eff = true) ∨ (t'.pc ≠ .idle ∧ ThOk (buf d0 s.m) s.readers t' (some p))) :
    AInv d0 r0 (s.arrive i p m') ∧ HInv (s.arrive i p m') := by
  have hlt : i < s.m.th.length := (List.getElem?_eq_some_iff.1 ht).1
  have hti : m'.th[i]? = some t' := by rw [hth, List.getElem?_set_self hlt]
  rcases hok with ⟨h1, h2⟩ | ⟨h1, h2⟩
  · obtain ⟨o, ho, -⟩ := (hH.pend i p hp).2.2.2.2 h2
    have e : s.arrive i p m' = { s.setPend i none with m := m', hist := s.hist ++ [.ret p.id o] } := by
      simp only [arrive, hti, ho, h1, if_true]
    rw [e]
    constructor
    · refine hA.put ht (s' := { s.setPend i none with m := m', hist := s.hist ++ [.ret p.id o] }) hm hth hdone rfl rfl
        (fun j hj => by simp only [setPend, hj, if_false]) ?_
      simp only [setPend, if_true]
      exact h1
    · exact hH.return hp h2 o ho rfl rfl rfl rfl
  · have e : s.arrive i p m' = { s with m := m' } := by
      simp only [arrive, hti]
      split
      · rename_i heq _
        injection heq with heq; subst heq
        rw [if_neg h1]
      · rfl
    rw [e]
    constructor
    · refine hA.put ht (s' := { s with m := m' }) hm hth hdone rfl rfl (fun _ _ => rfl) ?_
      simp only [hp]
      exact h2
    · obtain ⟨h1, h2, h3, h4, h5, h6, h7⟩ := hH
      exact ⟨h1, h2, h3, h4, h5, h6, h7⟩

theorem inv_goR (hA : AInv d0 r0 s) (hH : HInv s) (hp : s.pend i = some p) (ht : s.m.th[i]? = some t) {r : Nat} {op : RdOp K V}
    (hc : p.call = .rd r op) (hno : ∀ j q op', j ≠ i → s.pend j = some q → q.call ≠ .rd r op') (hs : s.goR i p r t = some s') : AInv d0 r0 s' ∧ HInv s' := by
  have hok := hA.thr i t ht
  rw [hp] at hok
  simp only [goR] at hs
  split at hs
  · rename_i hpc
    have hin : t.inside := .inl hpc
    have hd : s.m.data = buf d0 s.m := hA.data_eq (hA.rw.noWriter ht hin)
    have heff : p.eff = false := by
      cases he : p.eff with
      | false => rfl
      | true =>
        obtain ⟨id, c, rest, out, eff⟩ := p
        simp only at hc he; subst hc he
        simp only [ThOk] at hok
        have := (hok.2.2 trivial).2
        rw [hpc] at this
        simp at this
    have hrun : p.rest.run (buf d0 s.m) = Ch.rdStep (buf d0 s.m) (s.readers r) op := by
      obtain ⟨id, c, rest, out, eff⟩ := p
      simp only at hc heff; subst hc heff
      simp only [ThOk] at hok
      exact (hok.2.1 trivial).2.1 hin
    have keep : ∀ {rest : Prog (SD K V) (Py (Ret V) × Reader K V)} {m' : M (SD K V) (WOp V)} {t' : Th (SD K V) (WOp V)} {a : RW.Act (WOp V)},
        s.m.step bufBody a = some m' → m'.th = s.m.th.set i t' → m'.done = s.m.done →
        rest.run (buf d0 s.m) = p.rest.run (buf d0 s.m) → t'.pc.reading = true → (t'.outer = 0 → t'.pc ∉ [PC.x1, .x2, .x3, .x4]) → t'.inside →
        AInv d0 r0 { s.setPend i (some { p with rest := rest }) with m := m' } ∧ HInv { s.setPend i (some { p with rest := rest }) with m := m' } := by
      intro rest m' t' a hm hth hdone hr h1 h2 h3
      constructor
      · refine hA.put ht (s' := { s.setPend i (some { p with rest := rest }) with m := m' }) hm hth hdone rfl rfl
          (fun j hj => by simp only [setPend, hj, if_false]) ?_
        simp only [setPend, if_true]
        obtain ⟨id, c, rest', out, eff⟩ := p
        simp only at hc heff; subst hc heff
        simp only [ThOk]
        refine ⟨h1, fun _ => ⟨h2, fun _ => by rw [hr, hrun], fun hn => absurd h3 hn⟩, by simp⟩
      · exact hH.keep hp (p' := { p with rest := rest }) rfl rfl rfl rfl (fun _ => rfl) rfl rfl rfl
    split at hs
    · rename_i k hk
      simp only [Option.map_eq_some_iff] at hs
      obtain ⟨m', hm, rfl⟩ := hs
      obtain ⟨-, h1, h2, h3⟩ := step_look hm ht
      refine keep hm h1 h3 (by rw [hk, hd]; rfl) (by simp [hpc, PC.reading]) (by simp [hpc]) (.inl hpc)
    · rename_i k hk
      simp only [Option.map_eq_some_iff] at hs
      obtain ⟨m', hm, rfl⟩ := hs
      obtain ⟨-, h1, h2, h3⟩ := step_nest hm ht
      refine keep hm h1 h3 (by rw [hk]; rfl) (by simp [PC.reading]) (by simp) (.inr (by simp))
    · rename_i k hk
      split at hs
      · rename_i ho
        simp only [Option.map_eq_some_iff] at hs
        obtain ⟨m', hm, rfl⟩ := hs
        rcases step_go hm ht with ⟨f, fs, h1, -⟩ | ⟨-, -, h1, h2, h3⟩
        · rw [hpc] at h1; simp at h1
        · rw [if_neg (by simp [hpc])] at h3
          refine keep hm h1 h3 (by rw [hk]; rfl) ?_ ?_ ?_
          · simp [Th.after, hpc, PC.next, Th.arrive, PC.reading]
          · simp [Th.after, hpc, PC.next, Th.arrive]; omega
          · right; simp [Th.after, hpc, PC.next, Th.arrive]; omega
      · simp at hs
    · rename_i x hk
      split at hs
      · rename_i ho
        simp only [Option.map_eq_some_iff] at hs
        obtain ⟨m', hm, rfl⟩ := hs
        rcases step_go hm ht with ⟨f, fs, h1, -⟩ | ⟨-, -, h1, h2, h3⟩
        · rw [hpc] at h1; simp at h1
        · rw [if_neg (by simp [hpc])] at h3
          have hx : x = Ch.rdStep (buf d0 s.m) (s.readers r) op := by rw [← hrun, hk]; rfl
          have hb : buf d0 m' = buf d0 s.m := by simp only [buf, h3]
          constructor
          · refine hA.complete (t' := t.after bufBody s.m.data) (hA.rw.step _ hm) (hA.data.step hA.rw _ hm) (.inl h1) p.id p.call x.1 rfl ?_
              (fun j hj => by simp only [setPend, hj, if_false]) (fun _ _ _ _ => .inl hb) ?_ ?_
            · simp only [hc, Ch.step, hb, ← hx]
            · intro j q r' op' hj hq hc'
              simp only
              rw [if_neg]; rintro rfl; exact hno j q op' hj hq hc'
            · intro ti hti
              have hlt : i < s.m.th.length := (List.getElem?_eq_some_iff.1 ht).1
              simp only [h1, List.getElem?_set_self hlt, Option.some.injEq] at hti
              subst hti
              simp only [setPend, if_true]
              obtain ⟨id, c, rest', out, eff⟩ := p
              simp only at hc heff; subst hc heff
              simp only [ThOk]
              refine ⟨?_, by simp, fun _ => ?_⟩
              · simp [Th.after, hpc, PC.next, Th.arrive, PC.reading]
              · simp [Th.after, hpc, PC.next, Th.arrive, ho]
          · exact hH.effect hp heff (p' := { p with out := some x.1, eff := true }) x.1 rfl rfl rfl rfl rfl rfl rfl rfl
      · simp at hs
  · rename_i hpc
    simp only [Option.map_eq_some_iff] at hs
    obtain ⟨m', hm, rfl⟩ := hs
    have hrd : t.pc.reading = true := by
      obtain ⟨id, c, rest', out, eff⟩ := p
      simp only at hc; subst hc
      exact hok.1
    rcases step_go hm ht with ⟨f, fs, h1, -⟩ | ⟨-, -, h1, h2, h3⟩
    · rw [h1] at hrd; simp [PC.reading] at hrd
    · have : t.pc ≠ .wCS := by intro he; rw [he] at hrd; simp [PC.reading] at hrd
      rw [if_neg this] at h3
      exact inv_arrive hA hH hp ht hm h1 h3 (thOk_reader hok hc hpc)

theorem inv_goW (hA : AInv d0 r0 s) (hH : HInv s) (hp : s.pend i = some p) (ht : s.m.th[i]? = some t) {op : WOp V}
    (hc : asW p.call = some op) (hs : s.goW i p op t = some s') : AInv d0 r0 s' ∧ HInv s' := by
  have hok := hA.thr i t ht
  rw [hp] at hok
  have hlt : i < s.m.th.length := (List.getElem?_eq_some_iff.1 ht).1
  simp only [goW] at hs
  split at hs
  · simp at hs
  rename_i m' hm
  -- what the thread invariant says, for either kind of writer call
  have hok' : t.outer = 0 ∧ (p.eff = false → t.pc ∈ [PC.w1, .w2, .w3, .w4, .w5, .wCS] ∧ t.op = some op ∧ (t.pc = .wCS → p.out = some (wout (buf d0 s.m) op))) ∧
      (p.eff = true → t.pc ∈ [PC.y0, .y1, .y2, .y3, .y4]) := by
    obtain ⟨id, c, rest, out, eff⟩ := p
    cases c with
    | rd r op => simp [asW] at hc
    | append v | drop n =>
      simp only [ThOk] at hok
      obtain ⟨op', h1, h2⟩ := hok
      rw [hc] at h1; injection h1 with h1; subst h1
      exact h2
  have mkOk : ∀ {d : SD K V} {t' : Th (SD K V) (WOp V)} {q : Pend K V}, asW q.call = some op → t'.outer = 0 →
      (q.eff = false → t'.pc ∈ [PC.w1, .w2, .w3, .w4, .w5, .wCS] ∧ t'.op = some op ∧ (t'.pc = .wCS → q.out = some (wout d op))) →
      (q.eff = true → t'.pc ∈ [PC.y0, .y1, .y2, .y3, .y4]) → ThOk d s.readers t' (some q) := by
    intro d t' q h1 h2 h3 h4
    obtain ⟨id, c, rest, out, eff⟩ := q
    cases c with
    | rd r op => simp [asW] at h1
    | append v | drop n => exact ⟨op, h1, h2, h3, h4⟩
  obtain ⟨ho, hf, ht'⟩ := hok'
  split at hs
  · rename_i h5
    injection hs with hs; subst hs
    have heff : p.eff = false := by
      cases he : p.eff with
      | false => rfl
      | true => have := ht' he; rw [h5] at this; simp at this
    rcases step_go hm ht with ⟨f, fs, h1, -⟩ | ⟨-, -, h1, h2, h3⟩
    · rw [h5] at h1; simp at h1
    · rw [if_neg (by simp [h5])] at h3
      have hpc' : (t.after bufBody s.m.data).pc = .wCS := by simp [Th.after, h5, PC.next, Th.arrive]
      have hd : s.m.data = buf d0 s.m := by
        refine hA.data_eq fun u hu hc => ?_
        obtain ⟨j, hj⟩ := List.getElem?_of_mem hu
        by_cases hij : j = i
        · subst hij
          rw [ht] at hj; injection hj with hj; subst hj
          rw [h5] at hc; simp at hc
        · have hj' : m'.th[j]? = some u := by rw [h1, List.getElem?_set_ne (fun e => hij e.symm)]; exact hj
          have hi' : m'.th[i]? = some (t.after bufBody s.m.data) := by rw [h1, List.getElem?_set_self hlt]
          exact ((hA.rw.step _ hm).exclusive hi' hpc' (fun e => hij e.symm) hj').1 hc
      constructor
      · refine hA.put ht (t' := t.after bufBody s.m.data) (s' := { s.setPend i (some { p with out := some (wout s.m.data op) }) with m := m' }) hm h1 h3 rfl rfl
          (fun j hj => by simp only [setPend, hj, if_false]) ?_
        simp only [setPend, if_true]
        refine mkOk hc ?_ (fun _ => ⟨by simp [hpc'], ?_, fun _ => by rw [hd]⟩) (fun he => by simp only at he; rw [heff] at he; simp at he)
        · simp [Th.after, h5, PC.next, Th.arrive, ho]
        · simp [Th.after, h5, PC.next, Th.arrive, (hf heff).2.1]
      · exact hH.keep hp (p' := { p with out := some (wout s.m.data op) }) rfl rfl rfl rfl (fun he => by rw [heff] at he; simp at he) rfl rfl rfl
  · rename_i h5
    split at hs
    · rename_i hcs
      obtain ⟨hcs, hnil⟩ := hcs
      have heff : p.eff = false := by
        cases he : p.eff with
        | false => rfl
        | true => have := ht' he; rw [hcs] at this; simp at this
      obtain ⟨-, hop, hout⟩ := hf heff
      rw [hout hcs] at hs
      injection hs with hs; subst hs
      rcases step_go hm ht with ⟨f, fs, -, h1, -⟩ | ⟨-, -, h1, h2, h3⟩
      · rw [hnil] at h1; simp at h1
      · rw [if_pos hcs, hop] at h3
        have hb : buf d0 m' = bufAtomic op (buf d0 s.m) := by
          simp only [buf, h3, List.foldl_append, Option.toList, List.foldl_cons, List.foldl_nil]
          rw [runBody_buf]
        constructor
        · refine hA.complete (t' := t.after bufBody s.m.data) (hA.rw.step _ hm) (hA.data.step hA.rw _ hm) (.inl h1) p.id p.call _ rfl ?_
            (fun j hj => by simp only [setPend, hj, if_false]) (fun j tj hj htj => .inr ?_) (fun _ _ _ _ _ _ _ => rfl) ?_
          · obtain ⟨id, c, rest, out, eff⟩ := p
            cases c with
            | rd r op => simp [asW] at hc
            | append v | drop n =>
              simp only [asW, Option.some.injEq] at hc
              subst hc
              simp only [Ch.step, hb, bufAtomic, wout, setPend]
          · obtain ⟨e1, e2, e3⟩ := hA.rw.exclusive ht hcs (fun e => hj e.symm) htj
            refine ⟨?_, e1⟩
            rintro (e | e)
            · exact e2 e
            · omega
          · intro ti hti
            simp only [h1, List.getElem?_set_self hlt, Option.some.injEq] at hti
            subst hti
            simp only [setPend, if_true]
            refine mkOk hc ?_ (by simp) (fun _ => ?_)
            · simp [Th.after, hcs, PC.next, Th.arrive, ho]
            · simp [Th.after, hcs, PC.next, Th.arrive]
        · exact hH.effect hp heff (p' := { p with eff := true, out := some (wout (buf d0 s.m) op) }) _ rfl rfl rfl rfl rfl rfl rfl rfl
    · rename_i hcs
      injection hs with hs; subst hs
      rcases step_go hm ht with ⟨f, fs, h0, hpr, h1, h2, h3⟩ | ⟨-, hz, h1, h2, h3⟩
      · have heff : p.eff = false := by
          cases he : p.eff with
          | false => rfl
          | true => have := ht' he; rw [h0] at this; simp at this
        refine inv_arrive hA hH hp ht hm h1 h3 (.inr ⟨by simp [h0], mkOk hc ho (fun _ => ?_) (fun he => by rw [heff] at he; simp at he)⟩)
        exact ⟨by simp [h0], (hf heff).2.1, fun _ => (hf heff).2.2 h0⟩
      · have hne : t.pc ≠ .wCS := fun e => hcs ⟨e, hz e⟩
        rw [if_neg hne] at h3
        exact inv_arrive hA hH hp ht hm h1 h3 (thOk_writer hok hc h5 hne)

theorem inv_invoke (hA : AInv d0 r0 s) (hH : HInv s) (hn : s.pend i = none) (ht : s.m.th[i]? = some t) {m' : M (SD K V) (WOp V)}
    {t' : Th (SD K V) (WOp V)} {a : RW.Act (WOp V)} (hm : s.m.step bufBody a = some m') (hth : m'.th = s.m.th.set i t') (hdone : m'.done = s.m.done)
    (c : ChOp K V) (rest : Prog (SD K V) (Py (Ret V) × Reader K V))
    (hok : ThOk (buf d0 s.m) s.readers t' (some ⟨s.next, c, rest, none, false⟩)) :
    AInv d0 r0 (s.invoke i c rest m') ∧ HInv (s.invoke i c rest m') := by
  constructor
  · refine hA.put ht (s' := s.invoke i c rest m') hm hth hdone rfl rfl (fun j hj => by simp only [invoke, setPend, hj, if_false]) ?_
    simp only [invoke, setPend, if_true]
    exact hok
  · exact hH.invoke hn c rest rfl rfl rfl rfl

theorem inv_instant (hA : AInv d0 r0 s) (hH : HInv s) (hn : s.pend i = none) {r : Nat} (hno : ∀ j q op', j ≠ i → s.pend j = some q → q.call ≠ .rd r op') (op : RdOp K V) (r' : Reader K V)
    (hstep : Ch.rdStep (buf d0 s.m) (s.readers r) op = (.ok .none, r')) :
    let s' : LM K V := { s with
          readers := (fun j => if j = r then r' else s.readers j)
          next := s.next + 1
          hist := s.hist ++ [.inv s.next (.rd r op), .ret s.next (.ok .none)]
          lin := s.lin ++ [(s.next, .rd r op, .ok .none)] }
    AInv d0 r0 s' ∧ HInv s' := by
  intro s'
  constructor
  · refine hA.complete (i := i) (s' := s') (t' := ⟨.idle, 0, none, [], []⟩) hA.rw hA.data (.inr rfl) s.next (.rd r op) (.ok .none) rfl ?_ (fun _ _ => rfl) (fun _ _ _ _ => .inl rfl) ?_ ?_
    · simp only [Ch.step, hstep, s']
    · intro j q r'' op' hj hq hc'
      simp only [s']
      rw [if_neg]; rintro rfl; exact hno j q op' hj hq hc'
    · intro ti hti
      have := hA.thr i ti hti
      simp only [s', hn] at this ⊢
      exact this
  · exact hH.instant _ _ rfl rfl rfl rfl

omit [LinearOrder K] [BEq V] in
/-- Two calls in progress are not on the same reader. -/
theorem pend_excl (hH : HInv s) {r : Nat} (hX : NonOverlapping (onReader (K := K) (V := V) r) s.hist) {j : Nat} {q : Pend K V} {op op' : RdOp K V}
    (hp : s.pend i = some p) (hq : s.pend j = some q) (hc : p.call = .rd r op) (hj : j ≠ i) : q.call ≠ .rd r op' := by
  intro hc'
  obtain ⟨-, p1, p2, -, -⟩ := hH.pend i p hp
  obtain ⟨-, q1, q2, -, -⟩ := hH.pend j q hq
  have hid : p.id ≠ q.id := fun e => hj (hH.uniq i j p q hp hq e).symm
  obtain ⟨a, b, e⟩ := List.append_of_mem p1
  rw [e] at q1
  rcases List.mem_append.1 q1 with q1 | q1
  · obtain ⟨a', b', e'⟩ := List.append_of_mem q1
    obtain ⟨x, hx⟩ := hX a' b' b _ _ _ _ (by rw [e, e']) (by rw [hc']; rfl) (by rw [hc]; rfl)
    exact q2 x (by rw [e, e']; simp [hx])
  · rcases List.mem_cons.1 q1 with q1 | q1
    · injection q1 with q1; omega
    · obtain ⟨a', b', e'⟩ := List.append_of_mem q1
      obtain ⟨x, hx⟩ := hX a a' b' p.id p.call q.id q.call (by rw [e, e']; simp) (by rw [hc]; rfl) (by rw [hc']; rfl)
      exact p2 x (by rw [e, e']; simp [hx])

omit [LinearOrder K] [BEq V] in
/-- A call that is just being made finds no call on its reader in progress. -/
theorem new_excl (hH : HInv s) {r : Nat} {op : RdOp K V} {l : List (HEv (ChOp K V) (Py (Ret V)))}
    (hX : NonOverlapping (onReader (K := K) (V := V) r) (s.hist ++ .inv s.next (.rd r op) :: l)) {j : Nat} {q : Pend K V} {op' : RdOp K V}
    (hq : s.pend j = some q) : q.call ≠ .rd r op' := by
  intro hc
  obtain ⟨-, q1, q2, -, -⟩ := hH.pend j q hq
  obtain ⟨a, b, e⟩ := List.append_of_mem q1
  obtain ⟨x, hx⟩ := hX a b l q.id q.call s.next (.rd r op) (by rw [e]) (by rw [hc]; rfl) (by rfl)
  exact q2 x (by rw [e]; simp [hx])

theorem nonOverlapping_prefix {C R : Type} {on : C → Prop} {h l : List (HEv C R)} (hX : NonOverlapping on (h ++ l)) : NonOverlapping on h := by
  intro h1 h2 h3 a c b c' e
  exact hX h1 h2 (h3 ++ l) a c b c' (by rw [e]; simp)

theorem arrive_hist (s : LM K V) (i : Nat) (p : Pend K V) (m' : M (SD K V) (WOp V)) : ∃ l, (s.arrive i p m').hist = s.hist ++ l := by
  simp only [arrive]
  split
  · split
    · exact ⟨_, rfl⟩
    · exact ⟨[], by simp⟩
  · exact ⟨[], by simp⟩

/-- The history grows. -/
theorem step_hist {a : LAct K V} (hs : s.step a = some s') : ∃ l, s'.hist = s.hist ++ l := by
  have hW : ∀ {i p op t}, s.goW i p op t = some s' → ∃ l, s'.hist = s.hist ++ l := by
    intro i p op t hs
    simp only [goW] at hs
    split at hs
    · simp at hs
    · split at hs
      · injection hs with hs; subst hs; exact ⟨[], by simp [setPend]⟩
      · split at hs
        · split at hs
          · injection hs with hs; subst hs; exact ⟨[], by simp [setPend]⟩
          · simp at hs
        · injection hs with hs; subst hs; exact arrive_hist _ _ _ _
  cases a with
  | call i c =>
    simp only [step] at hs
    split at hs
    · simp at hs
    cases c with
    | append v | drop n =>
      simp only [Option.map_eq_some_iff] at hs
      obtain ⟨m', hm, rfl⟩ := hs
      exact ⟨_, rfl⟩
    | rd r op =>
      cases op with
      | setLast v | delLast =>
        simp only [Option.some.injEq] at hs
        subst hs
        exact ⟨_, rfl⟩
      | read | nextMethod | readForNext | range | tail | head =>
        simp only [Option.map_eq_some_iff] at hs
        obtain ⟨m', hm, rfl⟩ := hs
        exact ⟨_, rfl⟩
  | go i =>
    simp only [step] at hs
    split at hs
    · split at hs
      · exact hW hs
      · exact hW hs
      · simp only [goR] at hs
        split at hs
        · split at hs
          · simp only [Option.map_eq_some_iff] at hs
            obtain ⟨m', hm, rfl⟩ := hs
            exact ⟨[], by simp [setPend]⟩
          · simp only [Option.map_eq_some_iff] at hs
            obtain ⟨m', hm, rfl⟩ := hs
            exact ⟨[], by simp [setPend]⟩
          · split at hs
            · simp only [Option.map_eq_some_iff] at hs
              obtain ⟨m', hm, rfl⟩ := hs
              exact ⟨[], by simp [setPend]⟩
            · simp at hs
          · split at hs
            · simp only [Option.map_eq_some_iff] at hs
              obtain ⟨m', hm, rfl⟩ := hs
              exact ⟨[], by simp [setPend]⟩
            · simp at hs
        · simp only [Option.map_eq_some_iff] at hs
          obtain ⟨m', hm, rfl⟩ := hs
          exact arrive_hist _ _ _ _
    · simp at hs

theorem exec_hist (as : List (LAct K V)) (hs : s.exec as = some s') : ∃ l, s'.hist = s.hist ++ l := by
  induction as generalizing s with
  | nil => simp only [exec, Option.some.injEq] at hs; subst hs; exact ⟨[], by simp⟩
  | cons a as ih =>
    simp only [exec] at hs
    split at hs
    · rename_i s1 h1
      obtain ⟨l1, e1⟩ := step_hist h1
      obtain ⟨l2, e2⟩ := ih hs
      exact ⟨l1 ++ l2, by rw [e2, e1]; simp⟩
    · simp at hs

/-- Every step keeps the invariants. -/
theorem inv_step (hX : ∀ r, NonOverlapping (onReader r) s'.hist) (hA : AInv d0 r0 s) (hH : HInv s) {a : LAct K V} (hs : s.step a = some s') : AInv d0 r0 s' ∧ HInv s' := by
  cases a with
  | call i c =>
    simp only [step] at hs
    split at hs
    · simp at hs
    rename_i hn
    have hn : s.pend i = none := by simpa using hn
    have outer0 : ∀ {t : Th (SD K V) (WOp V)}, s.m.th[i]? = some t → t.pc = .idle → t.outer = 0 := fun ht hp =>
      hA.rw.outer _ (List.mem_of_getElem? ht) (by rw [hp]; rfl)
    cases c with
    | append v =>
      simp only [Option.map_eq_some_iff] at hs
      obtain ⟨m', hm, rfl⟩ := hs
      obtain ⟨t, ht, hp, h1, h2, h3⟩ := step_beginW hm
      have ho := outer0 ht hp
      exact inv_invoke hA hH hn ht hm h1 h3 _ _ ⟨_, rfl, ho, by simp, by simp⟩
    | drop n =>
      simp only [Option.map_eq_some_iff] at hs
      obtain ⟨m', hm, rfl⟩ := hs
      obtain ⟨t, ht, hp, h1, h2, h3⟩ := step_beginW hm
      have ho := outer0 ht hp
      exact inv_invoke hA hH hn ht hm h1 h3 _ _ ⟨_, rfl, ho, by simp, by simp⟩
    | rd r op =>
      have body : ∀ {m' : M (SD K V) (WOp V)}, s.m.step bufBody (.beginRead i) = some m' →
          AInv d0 r0 (s.invoke i (.rd r op) ((s.readers r).prog op) m') ∧ HInv (s.invoke i (.rd r op) ((s.readers r).prog op) m') := by
        intro m' hm
        obtain ⟨t, ht, hp, h1, h2, h3⟩ := step_begin hm
        refine inv_invoke hA hH hn ht hm h1 h3 _ _ ?_
        simp only [ThOk]
        refine ⟨rfl, fun _ => ⟨by simp, fun _ => Reader.run_prog _ _ _, fun _ d => Reader.run_prog _ _ _⟩, by simp⟩
      cases op with
      | setLast v =>
        simp only [Option.some.injEq] at hs
        subst hs
        refine inv_instant hA hH hn (fun j q op' _ hq => new_excl hH (hX r) hq) (.setLast v) _ ?_
        simp only [Ch.rdStep, Reader.setLast, hA.key_eq]
      | delLast =>
        simp only [Option.some.injEq] at hs
        subst hs
        exact inv_instant hA hH hn (fun j q op' _ hq => new_excl hH (hX r) hq) .delLast _ rfl
      | read | nextMethod | readForNext | range | tail | head =>
        simp only [Option.map_eq_some_iff] at hs
        obtain ⟨m', hm, rfl⟩ := hs
        exact body hm
  | go i =>
    have hX' : ∀ r, NonOverlapping (onReader r) s.hist := by
      obtain ⟨l, e⟩ := step_hist hs
      intro r
      have := hX r
      rw [e] at this
      exact nonOverlapping_prefix this
    simp only [step] at hs
    split at hs
    · rename_i p t hp ht
      split at hs
      · rename_i v hc; exact inv_goW hA hH hp ht (op := .append v) (by rw [hc]; rfl) hs
      · rename_i n hc; exact inv_goW hA hH hp ht (op := .drop n) (by rw [hc]; rfl) hs
      · rename_i r op hc; exact inv_goR hA hH hp ht hc (fun j q op' hj hq => pend_excl hH (hX' r) hp hq hc hj) hs
    · simp at hs

theorem inv_exec (as : List (LAct K V)) (hX : ∀ r, NonOverlapping (onReader r) s'.hist) (hA : AInv d0 r0 s) (hH : HInv s) (hs : s.exec as = some s') : AInv d0 r0 s' ∧ HInv s' := by
  induction as generalizing s with
  | nil => simp only [exec, Option.some.injEq] at hs; subst hs; exact ⟨hA, hH⟩
  | cons a as ih =>
    simp only [exec] at hs
    split at hs
    · rename_i s1 h1
      have hX1 : ∀ r, NonOverlapping (onReader r) s1.hist := by
        obtain ⟨l, e⟩ := exec_hist as hs
        intro r
        have := hX r
        rw [e] at this
        exact nonOverlapping_prefix this
      obtain ⟨h2, h3⟩ := inv_step hX1 hA hH h1
      exact ih h2 h3 hs
    · simp at hs

theorem inv_init (n : Nat) (key : V → K) (keyNone : Py (Option K)) (maxlen : Option Nat) (cfg : Nat → Cfg) :
    AInv (SD.empty key keyNone maxlen) (fun i => Reader.init (cfg i)) (LM.init n key keyNone maxlen cfg) ∧ HInv (LM.init n key keyNone maxlen cfg) := by
  constructor
  · refine ⟨Inv.init _ _, Reach.dinv ⟨[], rfl⟩, rfl, ?_⟩
    intro i t ht
    simp only [LM.init, RW.init] at ht ⊢
    have := List.mem_of_getElem? ht
    simp only [List.mem_replicate] at this
    obtain ⟨-, rfl⟩ := this
    rfl
  · constructor <;> simp [LM.init]

end LM
end S2P
