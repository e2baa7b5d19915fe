import Verif.Props.LoopLive
/-
C94: with `auto_drop=True` the keys of everything stored in a session strictly increase, also when threads of two sessions overlap.
C95: whoever waits for data is served: `next`, a `for` loop, a blocking read with something unread get it within four of their own steps.
-/
namespace S2P
open Spec
variable {K V I : Type}
namespace SB
variable [LinearOrder K] [BEq V] [ReflBEq V] {cfg : SBCfg K V} {s s' : SB K V I} {a : SBAct K V I} {as : List (SBAct K V I)}

omit [LinearOrder K] [BEq V] [ReflBEq V] in
theorem newest_last {m : Option Nat} (hm : m ≠ some 0) (l : List V) (v : V) : (newest m (l ++ [v])).getLast? = some v := by
  cases m with
  | none => simp [newest]
  | some m =>
    have : m ≠ 0 := fun h => hm (by rw [h])
    simp only [newest, List.length_append, List.length_singleton]
    rw [List.getLast?_drop, if_neg (by simp; omega)]
    simp

/-- **C94** `auto_drop=True`, `maxlen` not 0: the keys of the items stored in one session's buffer strictly increase, over the whole session and whatever
was evicted meanwhile. Every execution. -/
theorem C94_stored_increasing (hd : cfg.autoDrop = true) (hm : cfg.maxlen ≠ some 0) (he : SB.init.exec cfg as = some s) (b : Nat) :
    (storedIn b s.log).Pairwise (fun v w => cfg.key v < cfg.key w) ∧ (storedIn b s.log).getLast? = (s.items b).getLast? := by
  refine ind (P := fun s : SB K V I => (storedIn b s.log).Pairwise (fun v w => cfg.key v < cfg.key w) ∧
    (storedIn b s.log).getLast? = (s.items b).getLast?) (by simp [SB.init, storedIn, items]) ?_ he
  intro s a s' hg ⟨ih1, ih2⟩ hs
  cases data_step hg.inv hg.bufs hs b with
  | same h1 h2 => rw [h1, h2]; exact ⟨ih1, ih2⟩
  | stored t v _ _ hma h1 h2 =>
    rw [h1, h2, newest_last hm]
    refine ⟨?_, by simp⟩
    rw [List.pairwise_append]
    refine ⟨ih1, by simp, ?_⟩
    intro w hw x hx
    simp only [List.mem_singleton] at hx
    subst hx
    unfold mayAppend at hma
    rw [← ih2] at hma
    obtain ⟨l, z, hl⟩ := List.eq_nil_or_concat (storedIn b s.log) |>.resolve_left (List.ne_nil_of_mem hw)
    rw [hl] at hma hw ih1
    simp only [List.getLast?_concat, List.concat_eq_append, List.getLast?_append, List.getLast?_singleton, Option.some_or, decide_eq_true_eq] at hma
    rw [List.concat_eq_append] at hw ih1
    rcases List.mem_append.1 hw with h | h
    · exact lt_trans ((List.pairwise_append.1 ih1).2.2 w h z (by simp)) hma
    · simp only [List.mem_singleton] at h; rw [h]; exact hma
  | dropped k ha => rw [hd] at ha; simp at ha

/-- What is unread stays so, or is replaced by newer items, as long as the consumer itself does nothing and nothing is dropped. -/
theorem unread_stays (hd : cfg.autoDrop = true) (hm : cfg.maxlen ≠ some 0) (h0 : SB.init.exec cfg as = some s) (hs : s.step cfg a = some s') (b i : Nat)
    (hu : OneUser b i a) (c c' : Cons K V) (hv : s.view b = some c) (hv' : s'.view b = some c') (hgo : isGo b i a = false)
    (hun : unreadOf c.ch i ≠ []) : unreadOf c'.ch i ≠ [] := by
  have hg := good h0
  have h1 : SB.init.exec cfg (as ++ [a]) = some s' := by rw [exec_append, h0]; simp only [Option.bind, SB.exec, hs]
  have hr := view_reach h0 b c hv
  have hr' := view_reach h1 b c' hv'
  have hitems : ∀ (s : SB K V I) c, s.view b = some c → s.items b = c.ch.buf.items := by
    intro s c hv
    obtain ⟨x, hx, rfl⟩ := Option.map_eq_some_iff.1 hv
    simp [items, hx]
  obtain ⟨c2, hv2, hc2⟩ := view_pc hg.inv hs b i c hv
  rw [hv'] at hv2; injection hv2 with hv2; subst hv2
  have hcur : c'.ch.readers i = c.ch.readers i := by
    rcases hc2 with ⟨h, -⟩ | ⟨-, -, -, h⟩
    · rw [hgo] at h; simp at h
    · exact h hu
  rw [unreadOf_eq hr.ch] at hun
  rw [unreadOf_eq hr'.ch, hcur]
  rw [← hitems s c hv] at hun
  rw [← hitems s' c' hv']
  cases data_step hg.inv hg.bufs hs b with
  | same e1 => rw [e1]; exact hun
  | dropped k ha => rw [hd] at ha; simp at ha
  | stored t v _ _ hma e1 =>
    have hlast := newest_last hm (s.items b) v
    have hmem := List.mem_of_getLast? hlast
    rw [e1]
    cases hc : (c.ch.readers i).lastItem with
    | none => exact List.ne_nil_of_mem hmem
    | some w =>
      rw [hc] at hun
      simp only [unread] at hun ⊢
      obtain ⟨x, hx⟩ := List.exists_mem_of_ne_nil _ hun
      rw [List.mem_filter, decide_eq_true_eq] at hx
      refine List.ne_nil_of_mem (a := v) (List.mem_filter.2 ⟨hmem, decide_eq_true ?_⟩)
      refine lt_trans hx.2 ?_
      have hstr : (s.items b).Pairwise (fun v w => cfg.key v < cfg.key w) := by rw [hitems s c hv]; exact hr.ch.sim.strict
      obtain ⟨l, z, hl⟩ := List.eq_nil_or_concat (s.items b) |>.resolve_left (List.ne_nil_of_mem hx.1)
      unfold mayAppend at hma
      have hxm := hx.1
      rw [hl, List.concat_eq_append] at hma hxm hstr
      simp only [List.getLast?_append, List.getLast?_singleton, Option.some_or, decide_eq_true_eq] at hma
      rcases List.mem_append.1 hxm with h | h
      · exact lt_trans ((List.pairwise_append.1 hstr).2.2 x h z (by simp)) hma
      · simp only [List.mem_singleton] at h; rw [h]; exact hma

/-- The consumer is in `next`, a `for` loop or a blocking read (with `strict_n`: of one item), at most `left` steps from its next read, this step included. -/
def left : CPC → Nat
  | .nextRead | .iterRead | .blkRead .. => 1
  | .iterYield | .iterSleep | .blkSleep .. => 2
  | .iterCheck2 | .blkCheck .. => 3
  | .iterCheck => 4
  | _ => 0

/-- Waiting for data. -/
def Waits : CPC → Prop
  | .nextRead | .iterRead | .iterYield | .iterSleep | .iterCheck | .iterCheck2 => True
  | .blkRead n _ st | .blkCheck n _ st | .blkSleep n _ st => st = false ∨ n ≤ 1
  | .idle | .nextCheck => False

/-- About to look at the stop event. -/
def Looks : CPC → Bool
  | .iterCheck | .iterCheck2 | .blkCheck .. => true
  | _ => false

omit [BEq V] [ReflBEq V] in
theorem chunkOf_items_ne {n : Int} {u : List V} (h : u ≠ []) : (chunkOf n u).items ≠ [] := by
  rw [chunkOf_items]
  have := List.length_pos_iff.2 h
  intro h0
  have := congrArg List.length h0
  simp only [List.length_take, chunkSize, List.length_nil] at this
  omega

/-- One step of a waiting consumer with something unread. -/
theorem served_step {c c' : Cons K V} {key : V → K} {kn : Py (Option K)} {m : Option Nat} {rc : Nat → Cfg} (h : c.Reach key kn m rc) (i : Nat)
    (hstr : (rc i).strict = false) (hw : Waits (c.pc i)) (hun : unreadOf c.ch i ≠ []) (hst : Looks (c.pc i) = true → c.stopped = false)
    (hgo : c.go i = some c') :
    (Waits (c'.pc i) ∧ left (c'.pc i) + 1 ≤ left (c.pc i) ∧ (Looks (c.pc i) = false → Looks (c'.pc i) = false) ∧
      c'.evtsOf i = c.evtsOf i ∧ unreadOf c'.ch i ≠ []) ∨
    ∃ e, e.items ≠ [] ∧ c'.evtsOf i = c.evtsOf i ++ [e] := by
  have hev : ∀ (t : Cons K V) (e : CEvt V) (q : CPC), ((t.emit i e).goto i q).evtsOf i = t.evtsOf i ++ [e] := by
    intro t e q
    have : ((t.emit i e).goto i q).evtsOf i = (t.emit i e).evtsOf i := rfl
    rw [this, Cons.evtsOf_emit, if_pos rfl]
  have hne := chunkOf_items_ne (n := (rc i).n) hun
  cases hp : c.pc i with
  | idle => rw [hp] at hw; exact hw.elim
  | nextCheck => rw [hp] at hw; exact hw.elim
  | nextRead | iterRead =>
    right
    have h1 := (call_next h i hstr).1
    simp only [Cons.go, hp] at hgo
    rw [← Prod.eta (c.call _), h1] at hgo
    cases hch : chunkOf (rc i).n (unreadOf c.ch i) with
    | none => rw [hch] at hne; simp [Ret.items] at hne
    | _ =>
      rw [hch] at hgo hne
      injection hgo with hgo
      subst hgo
      exact ⟨_, by simpa only [CEvt.items] using hne, hev _ _ _⟩
  | iterYield | iterSleep | blkSleep =>
    simp only [Cons.go, hp, Option.some.injEq] at hgo
    subst hgo
    rw [hp] at hw
    left
    refine ⟨by simpa [Cons.goto, Waits] using hw, by simp [Cons.goto, left], fun _ => by simp [Cons.goto, Looks], rfl, hun⟩
  | iterCheck | iterCheck2 | blkCheck =>
    rw [hp] at hw
    have hst := hst (by rw [hp]; rfl)
    simp only [Cons.go, hp, hst, Bool.false_eq_true, if_false, Option.some.injEq] at hgo
    subst hgo
    left
    refine ⟨by simpa [Cons.goto, Waits] using hw, by simp [Cons.goto, left], fun h => by simp [Looks] at h, rfl, hun⟩
  | blkRead n p st =>
    right
    rw [hp] at hw
    obtain ⟨t, ht, -, h2, -⟩ := C27_read h i n p st hp
    simp only [Cons.step] at ht
    rw [hgo] at ht; injection ht with ht; subst ht
    refine ⟨_, ?_, (h2 hun (hw.imp id .inl)).2⟩
    exact chunkOf_items_ne hun

theorem served_core {bs : List (SBAct K V I)} (hd : cfg.autoDrop = true) (hm : cfg.maxlen ≠ some 0) (b i : Nat) (hstr : (cfg.rdCfg i).strict = false)
    (hu : ∀ a ∈ bs, OneUser b i a) (hstay : ∀ a ∈ bs, isLeave b i a = false) (h0 : SB.init.exec cfg as = some s) (c : Cons K V) (hv : s.view b = some c) (hw : Waits (c.pc i))
    (hun : unreadOf c.ch i ≠ []) (he : s.exec cfg bs = some s') (hst : Looks (c.pc i) = false ∨ ∀ c', s'.view b = some c' → c'.stopped = false) :
    ∃ c', s'.view b = some c' ∧ ((Waits (c'.pc i) ∧ left (c'.pc i) + bs.countP (isGo b i) ≤ left (c.pc i) ∧
      (Looks (c.pc i) = false → Looks (c'.pc i) = false) ∧ c'.evtsOf i = c.evtsOf i ∧ unreadOf c'.ch i ≠ []) ∨
      ∃ e, e.items ≠ [] ∧ c.evtsOf i ++ [e] <+: c'.evtsOf i) := by
  induction bs using List.reverseRecOn generalizing s' with
  | nil =>
    simp only [SB.exec, Option.some.injEq] at he; subst he
    exact ⟨c, hv, .inl ⟨hw, by simp, id, rfl, hun⟩⟩
  | append_singleton bs a ih =>
    rw [exec_append] at he
    obtain ⟨s1, h1, he⟩ := Option.bind_eq_some_iff.1 he
    have he1 := he
    simp only [SB.exec] at he
    split at he
    swap
    · simp at he
    rename_i s2 hs
    injection he with he; subst he
    have h01 : SB.init.exec cfg (as ++ bs) = some s1 := by rw [exec_append, h0]; exact h1
    have hst1 : Looks (c.pc i) = false ∨ ∀ c', s1.view b = some c' → c'.stopped = false := by
      refine hst.imp id fun hr c1 hv1 => ?_
      obtain ⟨c2, hv2, -⟩ := view_pc (good h01).inv hs b i c1 hv1
      exact view_stopped h01 he1 b c1 c2 hv1 hv2 (hr c2 hv2)
    obtain ⟨c1, hv1, hor⟩ := ih (fun a ha => hu a (by simp [ha])) (fun a ha => hstay a (by simp [ha])) h1 hst1
    obtain ⟨c2, hv2, hgo⟩ := view_pc (good h01).inv hs b i c1 hv1
    refine ⟨c2, hv2, ?_⟩
    rcases hor with ⟨w1, w2, w3, w4, w5⟩ | ⟨e, w1, w2⟩
    · rcases hgo with ⟨hg, hgo⟩ | ⟨hg, hpc, hev, -⟩
      · rw [List.countP_append, List.countP_singleton, if_pos hg]
        rcases served_step (view_reach h01 b c1 hv1) i hstr w1 w5 (fun hl => by
          rcases hst1 with h | h
          · rw [w3 h] at hl; simp at hl
          · exact h c1 hv1) hgo with ⟨k1, k2, k3, k4, k5⟩ | ⟨e, k1, k2⟩
        · exact .inl ⟨k1, by omega, fun h => k3 (w3 h), k4.trans w4, k5⟩
        · exact .inr ⟨e, k1, by rw [k2, w4]; exact List.prefix_refl _⟩
      · rw [List.countP_append, List.countP_singleton, if_neg (by simp [hg])]
        have hpc : c2.pc i = c1.pc i := by
          rcases hpc with h | h | ⟨h, -⟩
          · rw [h] at w1; exact w1.elim
          · exact h
          · rw [hstay a (by simp)] at h; cases h
        refine .inl ?_
        rw [hpc, hev]
        exact ⟨w1, by simpa using w2, w3, w4, unread_stays hd hm h01 hs b i (hu a (by simp)) c1 c2 hv1 hv2 hg w5⟩
    · right
      refine ⟨e, w1, ?_⟩
      rcases hgo with ⟨-, hgo⟩ | ⟨-, -, hev, -⟩
      · rcases step_emits (a := .go i) (cfg := cfg.rdCfg) hgo with h | ⟨j, e', h, -⟩
        · rw [show c2.evtsOf i = c1.evtsOf i by simp only [Cons.evtsOf, h]]; exact w2
        · refine w2.trans ?_
          simp only [Cons.evtsOf, h, List.filter_append, List.map_append]
          exact List.prefix_append _ _
      · rw [hev]; exact w2

/-- **C95** a consumer that waits with `next`, a `for` loop or a blocking read while its reader has something unread is given something within four of its
own steps, whatever all others do (`auto_drop=True`, `maxlen` not 0), if it does not give up its loop or call. It is not about to look at the stop event, or the stream is not stopped. -/
theorem C95_served {bs : List (SBAct K V I)} (hd : cfg.autoDrop = true) (hm : cfg.maxlen ≠ some 0) (b i : Nat) (hstr : (cfg.rdCfg i).strict = false)
    (hu : ∀ a ∈ bs, OneUser b i a) (hstay : ∀ a ∈ bs, isLeave b i a = false) (h0 : SB.init.exec cfg as = some s) (c : Cons K V) (hv : s.view b = some c) (hw : Waits (c.pc i))
    (hun : unreadOf c.ch i ≠ []) (he : s.exec cfg bs = some s') (hst : Looks (c.pc i) = false ∨ ∀ c', s'.view b = some c' → c'.stopped = false)
    (hk : left (c.pc i) ≤ bs.countP (isGo b i)) :
    ∃ c', s'.view b = some c' ∧ ∃ e, e.items ≠ [] ∧ c.evtsOf i ++ [e] <+: c'.evtsOf i := by
  obtain ⟨c', hv', ⟨h1, h2, -⟩ | h⟩ := served_core hd hm b i hstr hu hstay h0 c hv hw hun he hst
  · have : 1 ≤ left (c'.pc i) := by
      cases hp : c'.pc i <;> rw [hp] at h1 <;> simp [Waits, left] at *
    omega
  · exact ⟨c', hv', h⟩

end SB
end S2P
