import Verif.Proofs.EndToEnd
import Verif.Props.Lifecycle
/-
C63: from `source.read()` to the consumer, under every schedule. `received c i` is what consumer `i` was handed by `next`, `for` and blocking reads,
`unreadOf c.ch i` what its reader can still read, `dataRead b log` what the source returned to the thread of session `b`, `storedIn b log` what was
stored in its buffer. `OneUser b i`: reader `i` of session `b` is used by one consumer, which does not peek.
-/
namespace S2P
open Spec
variable {K V I : Type}
namespace SB
variable [LinearOrder K] [BEq V] [ReflBEq V] {cfg : SBCfg K V} {s s' : SB K V I} {a : SBAct K V I} {as : List (SBAct K V I)}

/-- What is known of consumer `i` of session `b`. -/
structure Told (cfg : SBCfg K V) (b i : Nat) (s : SB K V I) (c : Cons K V) : Prop where
  len : c.outs.length = c.ops.length
  quiet : quietPC (c.pc i)
  recv : received c i = delivered cfg.rdCfg i c.ops c.outs
  only : OnlyReads cfg.rdCfg i c.ops
  took : takenAll c.ops c.outs = storedIn b s.log

omit [ReflBEq V] in
theorem no_view_step (hs : s.step cfg a = some s') (b : Nat) (hv : s'.view b = none) : s.view b = none ∧ storedIn b s'.log = storedIn b s.log := by
  have hst := step_to hs
  clear hs
  simp only [view, Option.map_eq_none_iff] at hv ⊢
  cases hst
  all_goals try simp only [say, setThr, setBuf, setEvent, setNext, setDrop, setInfo, newSess, running, storedIn_append] at *
  all_goals first
    | exact ⟨hv, by simp [storedIn]⟩
    | (refine ⟨by grind, ?_⟩
       simp only [storedIn, List.filterMap_cons, List.filterMap_nil]
       try grind)

omit [ReflBEq V] in
/-- Reader calls of one step. -/
theorem Told.step {b i : Nat} {c c' : Cons K V} (h : Told cfg b i s c) (hpk : (cfg.rdCfg i).peek = false) {a : CAct K V} (ha : S2P.OneUser i a)
    (hs : c.step cfg.rdCfg a = some c')
    (hl : storedIn b s'.log = storedIn b s.log ++ c.takes a)
    (hr : a.isReaders = true ∨ a = .setStop ∨ ∃ op, a = .call op) : Told cfg b i s' c' := by
  obtain ⟨h1, h2, h3, h4⟩ := received_delivered_step i hpk ha hs h.len h.quiet h.recv
  refine ⟨h1, h2, h3, fun o ho => (h4 o ho).elim (h.only o) id, ?_⟩
  rw [hl, ← h.took]
  have hrd : a.isReaders = true → takenAll c'.ops c'.outs = takenAll c.ops c.outs := by
    intro ha'
    rcases Cons.step_readers ha' hs with ⟨-, k1, k2⟩ | ⟨j, o, -, k1, k2⟩
    · rw [k1, k2]
    · rw [k1, k2, takenAll_snoc _ _ _ _ h.len]; simp [taken]
  cases a with
  | call op =>
    simp only [Cons.step, Option.some.injEq] at hs
    subst hs
    exact takenAll_snoc _ _ _ _ h.len
  | setStop => simp only [Cons.step, Option.some.injEq] at hs; subst hs; simp [Cons.takes]
  | _ => rw [hrd rfl, Cons.takes, List.append_nil]; all_goals simp

omit [ReflBEq V] in
theorem told (b i : Nat) (hpk : (cfg.rdCfg i).peek = false) (hu : ∀ a ∈ as, OneUser b i a) (he : SB.init.exec cfg as = some s) :
    (∀ c, s.view b = some c → Told cfg b i s c) ∧ (s.view b = none → storedIn b s.log = []) := by
  induction as using List.reverseRecOn generalizing s with
  | nil =>
    simp only [SB.exec, Option.some.injEq] at he; subst he
    exact ⟨fun c hv => by simp [view, SB.init] at hv, fun _ => rfl⟩
  | append_singleton as a ih =>
    rw [exec_append] at he
    obtain ⟨s0, h0, he⟩ := Option.bind_eq_some_iff.1 he
    simp only [SB.exec] at he
    split at he
    swap
    · simp at he
    rename_i s1 hs
    injection he with he; subst he
    obtain ⟨i1, i2⟩ := ih (fun a ha => hu a (by simp [ha])) h0
    refine ⟨fun c' hv => ?_, fun hv => ?_⟩
    · cases view_step' (good h0).inv b i (hu a (by simp)) hs c' hv with
      | same _ hv' hl =>
        obtain ⟨t1, t2, t3, t4, t5⟩ := i1 _ hv'
        exact ⟨t1, t2, t3, t4, by rw [hl]; exact t5⟩
      | step c _ a hv' hs' ha hl hr => exact (i1 c hv').step hpk ha hs' hl hr
      | new hv' f hl =>
        exact ⟨rfl, trivial, rfl, fun o ho => by simp [Cons.init] at ho, by rw [hl, i2 hv']; rfl⟩
    · obtain ⟨k1, k2⟩ := no_view_step hs b hv
      rw [k2]; exact i2 k1

/-- **C63** what a consumer received, followed by what it can still read, is in order and without repetition a part of what was stored in its session.
Every execution, every bound, with manual drops or not. -/
theorem C63_part_of_stored (b i : Nat) (hpk : (cfg.rdCfg i).peek = false) (hu : ∀ a ∈ as, OneUser b i a) (he : SB.init.exec cfg as = some s)
    (c : Cons K V) (hv : s.view b = some c) : (received c i ++ unreadOf c.ch i).Sublist (storedIn b s.log) := by
  have ht := (told b i hpk hu he).1 c hv
  have hr := view_reach he b c hv
  have := part_run (key := cfg.key) (kn := cfg.keyNone) (m := cfg.maxlen) i c.ops ht.only
  rw [hr.run] at this
  rw [unreadOf_eq hr.ch, ht.recv, ← ht.took]
  exact this

/-- **C84** and so, in settled executions, a part of what the source's `read` returned to the thread of that session.
Missing: executions that are not settled (`C76_refuted`). -/
theorem C84_part_of_read_partial (b i : Nat) (hpk : (cfg.rdCfg i).peek = false) (hu : ∀ a ∈ as, OneUser b i a)
    (he : SB.init.exec cfg as = some s) (hset : SB.init.Settled cfg as) (c : Cons K V) (hv : s.view b = some c) :
    (received c i ++ unreadOf c.ch i).Sublist (dataRead b s.log) := by
  have h1 := C63_part_of_stored b i hpk hu he c hv
  rw [(C40_stored_in_order_partial he hset b).1, List.append_assoc]
  exact h1.trans (List.sublist_append_left _ _)

omit [ReflBEq V] in
theorem storedIn_prefix (hs : s.step cfg a = some s') (b : Nat) : storedIn b s.log <+: storedIn b s'.log := by
  have hst := step_to hs
  clear hs
  cases hst
  all_goals simp [say, setThr, setBuf, setEvent, setNext, setDrop, setInfo, newSess, storedIn_append]

theorem whole (b i : Nat) (hpk : (cfg.rdCfg i).peek = false) (hu : ∀ a ∈ as, OneUser b i a) (he : SB.init.exec cfg as = some s)
    (hinc : (storedIn b s.log).Pairwise (fun v w => cfg.key v < cfg.key w))
    (hkeep : ∀ as1 as2 s1 c1, as = as1 ++ as2 → SB.init.exec cfg as1 = some s1 → s1.view b = some c1 →
      (storedIn b s1.log).length ≤ (s1.items b).length + (received c1 i).length) :
    ∀ c, s.view b = some c → Whole cfg.key (s.items b) (c.ch.readers i).lastItem (storedIn b s.log) (received c i) := by
  have hitems : ∀ (s : SB K V I) c, s.view b = some c → s.items b = c.ch.buf.items := by
    intro s c hv
    obtain ⟨x, hx, rfl⟩ := Option.map_eq_some_iff.1 hv
    simp [items, hx]
  induction as using List.reverseRecOn generalizing s with
  | nil =>
    simp only [SB.exec, Option.some.injEq] at he; subst he
    exact fun c hv => by simp [view, SB.init] at hv
  | append_singleton as a ih =>
    have he' := he
    have hu' := hu
    rw [exec_append] at he
    obtain ⟨s0, h0, he⟩ := Option.bind_eq_some_iff.1 he
    simp only [SB.exec] at he
    split at he
    swap
    · simp at he
    rename_i s1 hs
    injection he with he; subst he
    have hinc0 := hinc.sublist (storedIn_prefix hs b).sublist
    have ih := ih (fun a ha => hu a (by simp [ha])) h0 hinc0
      (fun as1 as2 s1 c1 e h1 h2 => hkeep as1 (as2 ++ [a]) s1 c1 (by rw [e, List.append_assoc]) h1 h2)
    intro c' hv
    have ht' := (told b i hpk hu' he').1 c' hv
    rw [hitems _ _ hv]
    cases view_step' (good h0).inv b i (hu a (by simp)) hs c' hv with
    | same _ hv' hl =>
      have := ih c' hv'
      rwa [hl, ← hitems _ _ hv']
    | step c _ a hv' hs' ha hl hr =>
      have ht := (told b i hpk (fun a ha => hu' a (by simp [ha])) h0).1 c hv'
      have hw := ih c hv'
      have hk := hkeep as [_] s0 c rfl h0 hv'
      rw [hitems _ _ hv'] at hw hk
      rcases Cons.step_call hs' with ⟨k1, k2, k3⟩ | ⟨op, k1, k2, k3⟩
      · have e1 : storedIn b s1.log = storedIn b s0.log := by rw [← ht'.took, ← ht.took, k2, k3]
        have e2 : received c' i = received c i := by rw [ht'.recv, ht.recv, k2, k3]
        rw [k1, e1, e2]; exact hw
      · have e1 : storedIn b s1.log = storedIn b s0.log ++ taken op (c.ch.step op).2 := by
          rw [← ht'.took, ← ht.took, k2, k3, takenAll_snoc _ _ _ _ ht.len]
        have e2 : received c' i = received c i ++ handed cfg.rdCfg i op (c.ch.step op).2 := by
          rw [ht'.recv, ht.recv, k2, k3, delivered_snoc _ _ _ _ _ _ ht.len]
        rw [k1, e1, e2]
        refine whole_step (view_reach h0 b c hv').ch i op ?_ hw hinc0 hk
        intro o ho
        exact ht'.only o (by rw [k2, ho]; simp)
    | new hv' f hl =>
      rw [hl, (told b i hpk (fun a ha => hu' a (by simp [ha])) h0).2 hv']
      exact ⟨List.suffix_refl _, rfl, List.prefix_refl _⟩

/-- **C63** a consumer that is never more than the buffer's content behind (`hkeep`: at every moment, what was stored and not received is still
retained) misses nothing: received, then still readable, is exactly what was stored. Every execution; keys of the stored items increase. -/
theorem C63_nothing_missing (b i : Nat) (hpk : (cfg.rdCfg i).peek = false) (hu : ∀ a ∈ as, OneUser b i a) (he : SB.init.exec cfg as = some s)
    (hinc : (storedIn b s.log).Pairwise (fun v w => cfg.key v < cfg.key w))
    (hkeep : ∀ as1 as2 s1 c1, as = as1 ++ as2 → SB.init.exec cfg as1 = some s1 → s1.view b = some c1 →
      (storedIn b s1.log).length ≤ (s1.items b).length + (received c1 i).length)
    (c : Cons K V) (hv : s.view b = some c) : received c i ++ unreadOf c.ch i = storedIn b s.log := by
  have hw := whole b i hpk hu he hinc hkeep c hv
  have := hw.all hinc (hkeep as [] s c (by simp) he hv)
  rw [unreadOf_eq (view_reach he b c hv).ch]
  obtain ⟨x, hx, rfl⟩ := Option.map_eq_some_iff.1 hv
  simpa [items, hx] using this

theorem items_suffix (he : SB.init.exec cfg as = some s) (b : Nat) : s.items b <:+ storedIn b s.log := by
  refine ind (P := fun s : SB K V I => s.items b <:+ storedIn b s.log) (by simp [items, SB.init]) ?_ he
  intro s a s' hg ih hs
  cases data_step hg.inv hg.bufs hs b with
  | same h1 h2 => rw [h1, h2]; exact ih
  | stored t v _ _ _ h1 h2 =>
    rw [h1, h2]
    obtain ⟨t, ht⟩ := ih
    exact (newest_suffix _ _).trans ⟨t, by rw [← ht]; simp⟩
  | dropped k _ _ h1 h2 => rw [h1, h2]; exact (List.drop_suffix _ _).trans ih

/-- If everything stored is retained now, it was retained all along. -/
theorem retained_before {as1 as2 : List (SBAct K V I)} {s1 : SB K V I} (h1 : SB.init.exec cfg as1 = some s1) (h2 : s1.exec cfg as2 = some s)
    (b : Nat) (hr : s.items b = storedIn b s.log) : s1.items b = storedIn b s1.log := by
  have key : ∀ (as2 : List (SBAct K V I)) (as1 : List (SBAct K V I)) (s1 : SB K V I), SB.init.exec cfg as1 = some s1 → s1.exec cfg as2 = some s →
      s1.items b = storedIn b s1.log := by
    intro as2
    induction as2 with
    | nil => intro as1 s1 h1 h2; simp only [SB.exec, Option.some.injEq] at h2; subst h2; exact hr
    | cons a as2 ih =>
      intro as1 s1 h1 h2
      simp only [SB.exec] at h2
      split at h2
      swap
      · simp at h2
      rename_i s2 hs
      have h1' : SB.init.exec cfg (as1 ++ [a]) = some s2 := by rw [exec_append, h1]; simp only [Option.bind, SB.exec, hs]
      have e2 := ih _ s2 h1' h2
      have hsuf := items_suffix h1 b
      have hg := good h1
      cases data_step hg.inv hg.bufs hs b with
      | same k1 k2 => rw [← k1, ← k2]; exact e2
      | stored t v _ _ _ k1 k2 =>
        refine hsuf.eq_of_length ?_
        rw [k1, k2] at e2
        have l1 := congrArg List.length e2
        have l2 := (newest_suffix cfg.maxlen (s1.items b ++ [v])).length_le
        have l3 := hsuf.length_le
        simp at l1 l2
        omega
      | dropped k _ _ k1 k2 =>
        refine hsuf.eq_of_length ?_
        rw [k1, k2] at e2
        have l1 := congrArg List.length e2
        have l3 := hsuf.length_le
        simp at l1
        omega
  exact key as2 as1 s1 h1 h2

/-- **C63** as long as the buffer retains everything stored, a consumer misses nothing. Every execution. -/
theorem C63_all_retained (b i : Nat) (hpk : (cfg.rdCfg i).peek = false) (hu : ∀ a ∈ as, OneUser b i a) (he : SB.init.exec cfg as = some s)
    (hr : s.items b = storedIn b s.log) (c : Cons K V) (hv : s.view b = some c) : received c i ++ unreadOf c.ch i = storedIn b s.log := by
  refine C63_nothing_missing b i hpk hu he ?_ ?_ c hv
  · rw [← hr]
    have hB := (good he).bufs
    obtain ⟨x, hx, rfl⟩ := Option.map_eq_some_iff.1 hv
    obtain ⟨hwf, hk, -⟩ := hB.buf hx
    have := hwf.strict
    rw [hk] at this
    simpa [items, hx] using this
  · intro as1 as2 s1 c1 e h1 _
    rw [e, exec_append, h1] at he
    rw [← retained_before h1 he b hr]
    omega

/-- **C63** with an unbounded buffer and `auto_drop=True` nothing is missing. Every execution. -/
theorem C63_unbounded (hm : cfg.maxlen = none) (hd : cfg.autoDrop = true) (b i : Nat) (hpk : (cfg.rdCfg i).peek = false)
    (hu : ∀ a ∈ as, OneUser b i a) (he : SB.init.exec cfg as = some s) (c : Cons K V) (hv : s.view b = some c) :
    received c i ++ unreadOf c.ch i = storedIn b s.log :=
  C63_all_retained b i hpk hu he (C44_unbounded_auto_partial hm hd he b) c hv

/-- **C84** with `auto_drop=False`, bounded or not, nothing is missing as long as nothing is dropped. Settled executions. -/
theorem C84_no_auto_drop_partial (hd : cfg.autoDrop = false) (b i : Nat) (hpk : (cfg.rdCfg i).peek = false) (hu : ∀ a ∈ as, OneUser b i a)
    (he : SB.init.exec cfg as = some s) (hset : SB.init.Settled cfg as) (hdr : droppedFrom b s.log = []) (c : Cons K V) (hv : s.view b = some c) :
    received c i ++ unreadOf c.ch i = storedIn b s.log :=
  C63_all_retained b i hpk hu he (by have := (room hd he hset).2 b; rw [hdr] at this; simpa using this.symm) c hv

/-- **C84**, whole path in settled executions: with an unbounded buffer, what the source's `read` returned in the session is exactly what the consumer
received, then what it can still read, then the item the reading thread has in its hands, then the item whose key was refused, if any.
Missing: executions that are not settled (`C76_refuted`). -/
theorem C84_source_to_consumer_partial (hm : cfg.maxlen = none) (hd : cfg.autoDrop = true) (b i : Nat) (hpk : (cfg.rdCfg i).peek = false)
    (hu : ∀ a ∈ as, OneUser b i a) (he : SB.init.exec cfg as = some s) (hset : SB.init.Settled cfg as) (c : Cons K V) (hv : s.view b = some c) :
    dataRead b s.log = received c i ++ unreadOf c.ch i ++ (s.thr b).inHand ++ refusedBy b s.log ∧
    ((s.thr b).inHand ++ refusedBy b s.log).length ≤ 1 := by
  obtain ⟨h1, h2, h3⟩ := C40_stored_in_order_partial he hset b
  rw [C63_unbounded hm hd b i hpk hu he c hv]
  refine ⟨h1, ?_⟩
  cases hr : refusedBy b s.log with
  | nil => cases s.thr b <;> simp [TPC.inHand]
  | cons v l =>
    have := h3 (by rw [hr]; simp)
    rw [hr] at h2
    cases ht : s.thr b <;> rw [ht] at this <;> simp_all [TPC.over, TPC.inHand]

end SB
end S2P
