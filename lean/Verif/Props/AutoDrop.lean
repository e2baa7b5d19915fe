import Verif.Model.AutoDrop
import Verif.Props.Past
import Verif.Props.EndToEnd
/-
C130: `auto_drop` is assigned while the stream runs. Nothing else about the stream buffer changes: retained is the end of stored, consumers get stored items in
order; after it was set to `False` at most one more item is lost (the thread may be past its look at the attribute); after it was set to `True` the buffer is
the newest `maxlen` items again.
-/
namespace S2P
open Spec
variable {K V I : Type}
namespace ASB
section
variable [LT K] [DecidableLT K] [BEq V] {cfg : SBCfg K V} {s s' : ASB K V I} {as : List (AAct K V I)}

theorem exec_append (s : ASB K V I) (as bs : List (AAct K V I)) : s.exec cfg (as ++ bs) = (s.exec cfg as).bind (·.exec cfg bs) := by
  induction as generalizing s with
  | nil => rfl
  | cons a as ih =>
    simp only [List.cons_append, exec]
    cases s.step cfg a with
    | none => rfl
    | some t => exact ih t

theorem exec_ind {P : ASB K V I → Prop} {Q : AAct K V I → Prop} (hstep : ∀ s a s', P s → Q a → s.step cfg a = some s' → P s') (h : P s)
    (hq : ∀ a ∈ as, Q a) (he : s.exec cfg as = some s') : P s' := by
  induction as generalizing s with
  | nil => simp only [exec, Option.some.injEq] at he; exact he ▸ h
  | cons a as ih =>
    simp only [exec] at he
    split at he
    · exact ih (hstep _ _ _ h (hq a (by simp)) ‹_›) (fun a ha => hq a (by simp [ha])) he
    · simp at he

/-- Every `start()` reaches the replacement of the buffer when the threads of earlier sessions have ended (as `SB.Settled`). -/
def Settled (cfg : SBCfg K V) : ASB K V I → List (AAct K V I) → Prop
  | _, [] => True
  | s, a :: as => (∀ x, a = .act x → s.sb.SettledAt x) ∧ ∀ s', s.step cfg a = some s' → s'.Settled cfg as

theorem Settled.split {bs : List (AAct K V I)} (h : s.Settled cfg (as ++ bs)) (he : s.exec cfg as = some s') : s.Settled cfg as ∧ s'.Settled cfg bs := by
  induction as generalizing s with
  | nil => simp only [exec, Option.some.injEq] at he; exact ⟨trivial, he ▸ h⟩
  | cons a as ih =>
    simp only [exec] at he
    split at he
    · rename_i s1 h1
      obtain ⟨k1, k2⟩ := ih (h.2 _ h1) he
      exact ⟨⟨h.1, fun s2 h2 => by rw [h1] at h2; cases h2; exact k1⟩, k2⟩
    · simp at he

theorem exec_ind_settled {P : ASB K V I → Prop} {Q : AAct K V I → Prop}
    (hstep : ∀ s a s', P s → Q a → s.step cfg a = some s' → (∀ x, a = .act x → s.sb.SettledAt x) → P s') (h : P s)
    (hq : ∀ a ∈ as, Q a) (he : s.exec cfg as = some s') (hset : s.Settled cfg as) : P s' := by
  induction as generalizing s with
  | nil => simp only [exec, Option.some.injEq] at he; exact he ▸ h
  | cons a as ih =>
    simp only [exec] at he
    split at he
    · exact ih (hstep _ _ _ h (hq a (by simp)) ‹_› hset.1) (fun a ha => hq a (by simp [ha])) he (hset.2 _ ‹_›)
    · simp at he

theorem step_act {a : SBAct K V I} (h : s.step cfg (.act a) = some s') :
    s'.auto = s.auto ∧ s.sb.step { cfg with autoDrop := s.auto } a = some s'.sb := by
  simp only [step, Option.map_eq_some_iff] at h
  obtain ⟨x, hx, rfl⟩ := h
  exact ⟨rfl, hx⟩

/-- With `auto_drop=True` a step is one of `auto_drop=False`, a refused `drop()`, or the thread going on to read. -/
theorem step_true {x x' : SB K V I} {a : SBAct K V I} (h : x.step { cfg with autoDrop := true } a = some x') :
    x.step { cfg with autoDrop := false } a = some x' ∨ (∃ k, x' = x.say (.dropCalled k (.error .runtimeError))) ∨
    ∃ t, x.thr t = .cap ∧ x' = x.setThr t .reading := by
  cases a with
  | thr t =>
    simp only [SB.step] at h ⊢
    by_cases hc : x.thr t = .cap
    · refine .inr (.inr ⟨t, hc, ?_⟩)
      simpa [SB.thrGo, hc, eq_comm] using h
    · left
      unfold SB.thrGo at h ⊢
      split at h <;> simp_all
  | drop c k =>
    simp only [SB.step, if_true] at h
    split at h
    · injection h with h
      exact .inr (.inl ⟨k, h.symm⟩)
    · cases h
  | _ => exact .inl h

/-- With `auto_drop=True` no `drop()` gets under way. -/
theorem drops_true {x x' : SB K V I} {a : SBAct K V I} (h : x.step { cfg with autoDrop := true } a = some x') (c : Nat) (p : Nat × Int)
    (hc : x'.drops c = some p) : x.drops c = some p := by
  have hst := SB.step_to h
  clear h
  cases hst
  all_goals try simp only [SB.say, SB.setThr, SB.setBuf, SB.setEvent, SB.setNext, SB.setDrop, SB.setInfo, SB.newSess, SB.running] at *
  all_goals first
    | exact hc
    | grind

end

section
variable [LinearOrder K] [BEq V] [ReflBEq V] {cfg : SBCfg K V} {s s' : ASB K V I} {as bs : List (AAct K V I)}

structure Good (cfg : SBCfg K V) (x : SB K V I) : Prop where
  inv : x.Inv
  reach : ∀ b c, x.view b = some c → c.Reach cfg.key cfg.keyNone cfg.maxlen cfg.rdCfg

omit [ReflBEq V] in
theorem Good.step {x x' : SB K V I} {au : Bool} {a : SBAct K V I} (h : Good cfg x) (hs : x.step { cfg with autoDrop := au } a = some x') : Good cfg x' := by
  refine ⟨h.inv.step hs, fun b c' hv => ?_⟩
  rcases SB.view_step h.inv hs b c' hv with ⟨c, hc, rfl | ⟨a, ha⟩⟩ | ⟨_, f, rfl⟩
  · exact h.reach b _ hc
  · exact (h.reach b _ hc).exec (as := [a]) (by simp only [Cons.exec]; rw [ha])
  · cases f with
    | false => exact ⟨[], rfl⟩
    | true => exact ⟨[.setStop], rfl⟩

omit [ReflBEq V] in
theorem good (he : (init cfg).exec cfg as = some s) : Good cfg s.sb := by
  refine exec_ind (P := fun s : ASB K V I => Good cfg s.sb) (Q := fun _ => True) ?_ ⟨SB.Inv.init, fun b c hv => by simp [SB.view, SB.init, init] at hv⟩
    (by simp) he
  intro s a s' hg _ hs
  cases a with
  | assign x => simp only [ASB.step, Option.some.injEq] at hs; subst hs; exact hg
  | act a => exact hg.step (step_act hs).2

/-- How a step changes the items of buffer `b`, whatever the current value. -/
theorem data {x x' : SB K V I} {au : Bool} {a : SBAct K V I} (h : Good cfg x) (hs : x.step { cfg with autoDrop := au } a = some x') (b : Nat) :
    SB.DataStep { cfg with autoDrop := false } b x x' := by
  have hB : x.BufsOk { cfg with autoDrop := false } := ⟨h.reach, fun _ _ => rfl⟩
  cases au with
  | false => exact SB.data_step h.inv hB hs b
  | true =>
    rcases step_true hs with hs | ⟨k, rfl⟩ | ⟨t, ht, rfl⟩
    · exact SB.data_step h.inv hB hs b
    · exact .same rfl (by simp [SB.say, storedIn]) (by simp [SB.say, droppedFrom]) (fun t v h => .inl h)
    · refine .same rfl rfl rfl (fun u v hu => .inl ?_)
      simp only [SB.setThr]
      split
      · rename_i e; subst e; rw [ht] at hu; cases hu
      · exact hu

/-- **C130** whoever assigns `auto_drop` and when: what a session's buffer retains is the end of what was stored in the session, and at most `maxlen` items. -/
theorem C130_retained (he : (init cfg).exec cfg as = some s) (b : Nat) :
    s.sb.items b <:+ storedIn b s.sb.log ∧ ∀ m, cfg.maxlen = some m → (s.sb.items b).length ≤ m := by
  constructor
  · refine (exec_ind (P := fun s : ASB K V I => Good cfg s.sb ∧ s.sb.items b <:+ storedIn b s.sb.log) (Q := fun _ => True) ?_
      ⟨⟨SB.Inv.init, fun b c hv => by simp [SB.view, SB.init, init] at hv⟩, by simp [SB.init, init, SB.items]⟩ (by simp) he).2
    intro s a s' ⟨hg, ih⟩ _ hs
    cases a with
    | assign x => simp only [ASB.step, Option.some.injEq] at hs; subst hs; exact ⟨hg, ih⟩
    | act a =>
      have hs := (step_act hs).2
      refine ⟨hg.step hs, ?_⟩
      cases data hg hs b with
      | same h1 h2 => rw [h1, h2]; exact ih
      | stored t v _ _ hma h1 h2 =>
        rw [h1, h2]
        obtain ⟨l, hl⟩ := ih
        exact (newest_suffix _ _).trans ⟨l, by rw [← hl]; simp⟩
      | dropped n _ _ h1 h2 => rw [h1, h2]; exact (List.drop_suffix _ _).trans ih
  · intro m hm
    have hg := good he
    simp only [SB.items]
    cases hx : s.sb.buf b with
    | none => simp
    | some x =>
      have := hg.reach b { x.cons with stopped := s.sb.flag x.evt } (by simp [SB.view, hx])
      exact this.ch.sim.swf.wf.bounded m (by rw [this.ch.sim.maxlen]; exact hm)

/-- Reader `i` of session `b` is used by one consumer, which does not peek (as `SB.OneUser`). -/
def OneUser (b i : Nat) : AAct K V I → Prop
  | .assign _ => True
  | .act a => SB.OneUser b i a

/-- **C130** and what a consumer received, followed by what it can still read, is in order and without repetition a part of what was stored. -/
theorem C130_received (b i : Nat) (hpk : (cfg.rdCfg i).peek = false) (hu : ∀ a ∈ as, OneUser b i a) (he : (init cfg).exec cfg as = some s)
    (c : Cons K V) (hv : s.sb.view b = some c) : (received c i ++ unreadOf c.ch i).Sublist (storedIn b s.sb.log) := by
  have key : Good cfg s.sb ∧ (∀ c, s.sb.view b = some c → SB.Told cfg b i s.sb c) ∧ (s.sb.view b = none → storedIn b s.sb.log = []) := by
    refine exec_ind (P := fun s : ASB K V I => Good cfg s.sb ∧ (∀ c, s.sb.view b = some c → SB.Told cfg b i s.sb c) ∧
      (s.sb.view b = none → storedIn b s.sb.log = [])) (Q := OneUser b i) ?_
      ⟨⟨SB.Inv.init, fun b c hv => by simp [SB.view, SB.init, init] at hv⟩, fun c hv => by simp [SB.view, SB.init, init] at hv, fun _ => rfl⟩ hu he
    intro s a s' ⟨hg, i1, i2⟩ hq hs
    cases a with
    | assign x => simp only [ASB.step, Option.some.injEq] at hs; subst hs; exact ⟨hg, i1, i2⟩
    | act a =>
      have hs := (step_act hs).2
      refine ⟨hg.step hs, fun c' hv => ?_, fun hv => ?_⟩
      · cases SB.view_step' hg.inv b i hq hs c' hv with
        | same _ hv' hl =>
          obtain ⟨t1, t2, t3, t4, t5⟩ := i1 _ hv'
          exact ⟨t1, t2, t3, t4, by rw [hl]; exact t5⟩
        | step c _ a hv' hs' ha hl hr => exact (i1 c hv').step hpk ha hs' hl hr
        | new hv' f hl =>
          exact ⟨rfl, trivial, rfl, fun o ho => by simp [Cons.init] at ho, by rw [hl, i2 hv']; rfl⟩
      · obtain ⟨k1, k2⟩ := SB.no_view_step hs b hv
        rw [k2]; exact i2 k1
  obtain ⟨hg, ht, -⟩ := key
  have ht := ht c hv
  have hr := hg.reach b c hv
  have := part_run (key := cfg.key) (kn := cfg.keyNone) (m := cfg.maxlen) i c.ops ht.only
  rw [hr.run] at this
  rw [unreadOf_eq hr.ch, ht.recv, ← ht.took]
  exact this

/-- Nobody assigns `auto_drop`. -/
def IsAct : AAct K V I → Prop
  | .assign _ => False
  | .act _ => True

/-- **C130** from the moment `auto_drop` is (or was made) `True`, and no `drop()` of session `b` is under way: the buffer is the newest `maxlen` of what it
held then and what was stored since, and nothing is dropped by hand. -/
theorem C130_true (he : (init cfg).exec cfg as = some s) (ht : s.auto = true) (b : Nat) (hd : ∀ c n, s.sb.drops c ≠ some (b, n))
    (hq : ∀ a ∈ bs, IsAct a) (he' : s.exec cfg bs = some s') :
    ∃ new, storedIn b s'.sb.log = storedIn b s.sb.log ++ new ∧ s'.sb.items b = newest cfg.maxlen (s.sb.items b ++ new) ∧
      droppedFrom b s'.sb.log = droppedFrom b s.sb.log := by
  have hm := (C130_retained he b).2
  have := exec_ind (s := s) (P := fun z : ASB K V I => Good cfg z.sb ∧ z.auto = true ∧ (∀ c n, z.sb.drops c ≠ some (b, n)) ∧
    ∃ new, storedIn b z.sb.log = storedIn b s.sb.log ++ new ∧ z.sb.items b = newest cfg.maxlen (s.sb.items b ++ new) ∧
      droppedFrom b z.sb.log = droppedFrom b s.sb.log) (Q := IsAct) ?_ ⟨good he, ht, hd, [], by simp, ?_, rfl⟩ hq he'
  · exact this.2.2.2
  · intro z a z' ⟨hg, h1, h2, new, h3, h4, h5⟩ hq hs
    cases a with
    | assign x => exact hq.elim
    | act a =>
      obtain ⟨ha, hs⟩ := step_act hs
      refine ⟨hg.step hs, ha.trans h1, ?_, ?_⟩
      · rw [h1] at hs
        intro c n hc
        exact h2 c n (drops_true hs c _ hc)
      · cases data hg hs b with
        | same k1 k2 k3 => exact ⟨new, by rw [k2, h3], by rw [k1, h4], by rw [k3, h5]⟩
        | stored t v _ _ _ k1 k2 k3 =>
          refine ⟨new ++ [v], by rw [k2, h3, List.append_assoc], ?_, by rw [k3, h5]⟩
          rw [k1, h4, ← List.append_assoc]
          exact SD.newest_append _ _ _
        | dropped k _ hb => obtain ⟨c, n, hc⟩ := hb; exact absurd hc (h2 c n)
  · simp only [List.append_nil]
    cases hm' : cfg.maxlen with
    | none => rfl
    | some m =>
      have := hm m hm'
      have h0 : (s.sb.items b).length - m = 0 := by omega
      simp only [newest, h0, List.drop_zero]

omit [ReflBEq V] in
theorem inv2 (he : (init cfg).exec cfg as = some s) (hset : (init cfg).Settled cfg as) : s.sb.Inv2 := by
  refine (exec_ind_settled (P := fun s : ASB K V I => s.sb.Inv ∧ s.sb.Inv2) (Q := fun _ => True) ?_ ⟨SB.Inv.init, SB.Inv2.init⟩ (by simp) he hset).2
  intro s a s' hg _ hs ha
  cases a with
  | assign x => simp only [ASB.step, Option.some.injEq] at hs; subst hs; exact hg
  | act a => exact ⟨hg.1.step (step_act hs).2, hg.2.step hg.1 (step_act hs).2 (ha a rfl)⟩

/-- **C130** from the moment `auto_drop` is (or was made) `False` (restarts finding no earlier thread alive): what the buffer held then followed by what was
stored since is: at most one lost item, what was dropped by hand since, what is retained. -/
theorem C130_false (he : (init cfg).exec cfg as = some s) (hf : s.auto = false) (hq : ∀ a ∈ bs, IsAct a) (he' : s.exec cfg bs = some s')
    (hset : (init cfg).Settled cfg (as ++ bs)) (b : Nat) :
    ∃ new lost by_hand, storedIn b s'.sb.log = storedIn b s.sb.log ++ new ∧ droppedFrom b s'.sb.log = droppedFrom b s.sb.log ++ by_hand ∧
      s.sb.items b ++ new = lost ++ by_hand ++ s'.sb.items b ∧ lost.length ≤ 1 := by
  obtain ⟨hs1, hs2⟩ := hset.split he
  let R : SB K V I → Prop := fun x => (x.thr b).holding = true → ∀ m, cfg.maxlen = some m → (x.items b).length < m
  have := exec_ind_settled (s := s) (P := fun z : ASB K V I => Good cfg z.sb ∧ z.sb.Inv2 ∧ z.auto = false ∧
    (∀ m, cfg.maxlen = some m → (z.sb.items b).length ≤ m) ∧
    ∃ new lost by_hand, storedIn b z.sb.log = storedIn b s.sb.log ++ new ∧ droppedFrom b z.sb.log = droppedFrom b s.sb.log ++ by_hand ∧
      s.sb.items b ++ new = lost ++ by_hand ++ z.sb.items b ∧ lost.length ≤ 1 ∧ ((lost = [] ∧ by_hand = []) ∨ R z.sb)) (Q := IsAct) ?_
    ⟨good he, inv2 he hs1, hf, (C130_retained he b).2, [], [], [], by simp, by simp, by simp, by simp, .inl ⟨rfl, rfl⟩⟩ hq he' hs2
  · obtain ⟨-, -, -, -, new, lost, bh, h1, h2, h3, h4, -⟩ := this
    exact ⟨new, lost, bh, h1, h2, h3, h4⟩
  · intro z a z' ⟨hg, hi2, h1, hm, new, lost, bh, h3, h4, h5, h6, h7⟩ hq hs ha
    cases a with
    | assign x => exact hq.elim
    | act a =>
      obtain ⟨hau, hs⟩ := step_act hs
      have hR : R z.sb → R z'.sb := by
        intro hr hh m hm'
        rw [h1] at hs
        rcases SB.holding_step hs b hh with h | h | ⟨b', x, m', h, hb, hx, hmm, hl'⟩
        · have := hr h m hm'
          cases data hg hs b with
          | same k1 _ _ _ => rw [k1]; exact this
          | stored t' v h0 h0' _ k1 _ _ _ =>
            have : t' = b := (hi2.own t' b v h0).symm
            subst this
            rw [h0'] at hh; simp [TPC.holding] at hh
          | dropped k _ _ k1 _ _ _ => rw [k1, List.length_drop]; omega
        · cases h
        · rw [hm'] at hmm; injection hmm with e; subst e
          have := hi2.ownM b b' h
          subst this
          simp only [SB.items, hb, hx]
          exact hl'
      refine ⟨hg.step hs, hi2.step hg.inv hs (ha a rfl), hau.trans h1, ?_, ?_⟩
      · intro m hm'
        cases data hg hs b with
        | same k1 => rw [k1]; exact hm m hm'
        | stored t v _ _ _ k1 =>
          rw [k1]
          simp only [hm', newest, List.length_drop]
          omega
        | dropped k _ _ k1 => rw [k1, List.length_drop]; have := hm m hm'; omega
      · cases data hg hs b with
        | same k1 k2 k3 => exact ⟨new, lost, bh, by rw [k2, h3], by rw [k3, h4], by rw [k1, h5], h6, h7.imp id hR⟩
        | stored t v h0 h0' _ k1 k2 k3 =>
          have htb : b = t := hi2.own t b v h0
          subst htb
          have hR' : R z'.sb := fun hh => by rw [h0'] at hh; simp [TPC.holding] at hh
          by_cases hroom : newest cfg.maxlen (z.sb.items b ++ [v]) = z.sb.items b ++ [v]
          · refine ⟨new ++ [v], lost, bh, by rw [k2, h3, List.append_assoc], by rw [k3, h4], ?_, h6, .inr hR'⟩
            rw [k1]
            simp only at hroom ⊢
            rw [hroom, ← List.append_assoc, h5]; simp
          · rcases h7 with ⟨rfl, rfl⟩ | h7
            · cases hm' : cfg.maxlen with
              | none => rw [hm'] at hroom; exact absurd rfl hroom
              | some m =>
                refine ⟨new ++ [v], (z.sb.items b ++ [v]).take ((z.sb.items b ++ [v]).length - m), [], by rw [k2, h3, List.append_assoc],
                  by rw [k3, h4], ?_, ?_, .inr hR'⟩
                · rw [k1]
                  simp only [hm', newest, List.append_nil, List.take_append_drop]
                  rw [← List.append_assoc, h5]; simp
                · have := hm m hm'
                  simp only [List.length_take, List.length_append, List.length_cons, List.length_nil]
                  omega
            · exfalso
              apply hroom
              cases hm' : cfg.maxlen with
              | none => rfl
              | some m =>
                have := h7 (by rw [h0]; rfl) m hm'
                have h0 : (z.sb.items b ++ [v]).length - m = 0 := by simp; omega
                simp only [newest, h0, List.drop_zero]
        | dropped k _ _ k1 k2 k3 k4 =>
          by_cases hk : (z.sb.items b).take k = []
          · refine ⟨new, lost, bh, by rw [k2, h3], by rw [k3, h4, hk]; simp, ?_, h6, h7.imp id hR⟩
            have : (z.sb.items b).drop k = z.sb.items b := by
              have := List.take_append_drop k (z.sb.items b)
              rw [hk] at this; simpa using this
            rw [k1, this, h5]
          · refine ⟨new, lost, bh ++ (z.sb.items b).take k, by rw [k2, h3], by rw [k3, h4, List.append_assoc], ?_, h6, .inr ?_⟩
            · rw [k1, h5]; simp
            · intro hh m hm'
              have := hm m hm'
              rw [k1, List.length_drop]
              have : k ≠ 0 := by rintro rfl; simp at hk
              have : z.sb.items b ≠ [] := by rintro h; simp [h] at hk
              have := List.length_pos_iff.2 this
              omega

end

section
variable [LT K] [DecidableLT K] [BEq V] {cfg : SBCfg K V} {s s' : ASB K V I} {as : List (AAct K V I)}

/-- The value `auto_drop` was given last: by the constructor, or by the last assignment. -/
def lastAssigned (d : Bool) : List (AAct K V I) → Bool
  | [] => d
  | .assign x :: as => lastAssigned x as
  | .act _ :: as => lastAssigned d as

/-- **C130** between two assignments, and before the first one, it is a stream buffer constructed with the value assigned last: exactly the same can happen. -/
theorem C130_meanwhile (he : (init cfg).exec cfg as = some s) (bs : List (SBAct K V I)) (x : SB K V I) :
    s.sb.exec { cfg with autoDrop := lastAssigned cfg.autoDrop as } bs = some x ↔
      ∃ s', s.exec cfg (bs.map .act) = some s' ∧ s'.sb = x := by
  have ha : ∀ {as : List (AAct K V I)} {s s' : ASB K V I}, s.exec cfg as = some s' → s'.auto = lastAssigned s.auto as := by
    intro as
    induction as with
    | nil => intro s s' h; simp only [exec, Option.some.injEq] at h; subst h; rfl
    | cons a as ih =>
      intro s s' h
      simp only [exec] at h
      split at h
      · rename_i s1 h1
        rw [ih h]
        cases a with
        | assign x => simp only [step, Option.some.injEq] at h1; subst h1; rfl
        | act a => rw [(step_act h1).1]; rfl
      · cases h
  have hauto : s.auto = lastAssigned cfg.autoDrop as := ha he
  rw [← hauto]
  clear he hauto ha
  induction bs generalizing s with
  | nil => simp [SB.exec, exec]
  | cons b bs ih =>
    simp only [SB.exec, List.map_cons, exec, step]
    cases hb : s.sb.step { cfg with autoDrop := s.auto } b with
    | none => simp
    | some y => exact ih (s := { s with sb := y })

/-- **C130** a thread that waits because the buffer is full goes on reading once `auto_drop` is `True` and the session is not stopped: after three steps
of its own it calls `read()`. -/
theorem C130_resumes (ht : s.auto = true) (hr : s.sb.running = true) (t : Nat) (hs : s.sb.thr t = .sleeping) :
    ∃ s', s.exec cfg [.act (.thr t), .act (.thr t), .act (.thr t)] = some s' ∧ s'.sb.thr t = .reading ∧ s'.sb.buf = s.sb.buf ∧ s'.sb.log = s.sb.log := by
  have hrun := hr
  simp only [SB.running] at hrun
  cases he : s.sb.stopEvent with
  | none => rw [he] at hrun; cases hrun
  | some e =>
    rw [he] at hrun
    simp only [Bool.not_eq_true'] at hrun
    simp [exec, step, SB.step, SB.thrGo, hs, SB.setThr, he, hrun, ht]

end
end ASB
end S2P
