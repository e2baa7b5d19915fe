import Verif.Proofs.Onward
/-
C162: a consumer that starts at any moment, with whatever cursor its reader has then: a reader brought along by `attach_reader`, one whose `last_item` was
assigned, or one used in other ways before. From that moment on it gets the items above the cursor that are retained or stored later.
-/
namespace S2P
open Spec
variable {K V I : Type}

section props
variable [LinearOrder K] [BEq V] {cfg : Nat → Cfg} {s s' : Cons K V}

/-- One step of the machine of readers and consumers, as the call on the buffer and its readers that it makes. -/
theorem one_call (i : Nat) {a : CAct K V} (hpk : (cfg i).peek = false) (ha : OneUser i a) (hs : s.step cfg a = some s')
    (hlen : s.outs.length = s.ops.length) (hq : quietPC (s.pc i))
    (hr : a.isReaders = true ∨ a = .setStop ∨ ∃ op, a = .call op) :
    s'.outs.length = s'.ops.length ∧ quietPC (s'.pc i) ∧
    ((s'.ch = s.ch ∧ received s' i = received s i ∧ s.takes a = []) ∨
      ∃ op, s'.ch = (s.ch.step op).1 ∧ received s' i = received s i ++ handed cfg i op (s.ch.step op).2 ∧
        s.takes a = taken op (s.ch.step op).2 ∧ ∀ o, op = .rd i o → consumes (cfg i) o ∨ peeks (cfg i) o) := by
  obtain ⟨g1, g2, ⟨h, g3, g4⟩, l, g5, g6⟩ := grow_step i hpk ha hs hlen hq
  refine ⟨g1, g2, ?_⟩
  have hnone : s'.ops = s.ops → s'.outs = s.outs → received s' i = received s i := by
    intro e1 e2
    rw [e1, e2] at g4
    have : h = [] := by simpa using g4
    rw [g3, this, List.append_nil]
  have hsome : ∀ op, s'.ops = s.ops ++ [op] → s'.outs = s.outs ++ [(s.ch.step op).2] →
      received s' i = received s i ++ handed cfg i op (s.ch.step op).2 := by
    intro op e1 e2
    rw [e1, e2, delivered_snoc _ _ _ _ _ _ hlen] at g4
    rw [g3, List.append_cancel_left g4]
  have hadd : ∀ op, s'.ops = s.ops ++ [op] → ∀ o, op = .rd i o → consumes (cfg i) o ∨ peeks (cfg i) o := by
    intro op e1 o e2
    rw [e1] at g5
    exact g6 o (by rw [← List.append_cancel_left g5, e2]; simp)
  have hrd : a.isReaders = true → s.takes a = [] →
      (s'.ch = s.ch ∧ received s' i = received s i ∧ s.takes a = []) ∨
      ∃ op, s'.ch = (s.ch.step op).1 ∧ received s' i = received s i ++ handed cfg i op (s.ch.step op).2 ∧
        s.takes a = taken op (s.ch.step op).2 ∧ ∀ o, op = .rd i o → consumes (cfg i) o ∨ peeks (cfg i) o := by
    intro h1 h2
    rcases Cons.step_readers h1 hs with ⟨k0, k1, k2⟩ | ⟨j, o, k0, k1, k2⟩
    · exact .inl ⟨k0, hnone k1 k2, h2⟩
    · exact .inr ⟨_, k0, hsome _ k1 k2, h2, hadd _ k1⟩
  cases a with
  | call op =>
    simp only [Cons.step, Option.some.injEq] at hs
    subst hs
    exact .inr ⟨op, rfl, hsome op rfl rfl, rfl, hadd op rfl⟩
  | setStop =>
    simp only [Cons.step, Option.some.injEq] at hs
    subst hs
    exact .inl ⟨rfl, hnone rfl rfl, rfl⟩
  | _ => exact hrd rfl rfl

theorem above_trans {key : V → K} {cur : Option V} {w v : V} (h1 : w ∈ unread key [w] cur) (h2 : key w < key v) : v ∈ unread key [v] cur := by
  cases cur with
  | none => simp [unread]
  | some c =>
    simp only [unread, List.mem_filter, List.mem_singleton, decide_eq_true_eq, true_and] at h1 ⊢
    exact lt_trans h1 h2

theorem mem_unread {key : V → K} {cur : Option V} {l : List V} {v : V} : v ∈ unread key l cur ↔ v ∈ l ∧ v ∈ unread key [v] cur := by
  cases cur <;> simp [unread]

theorem unread_of_all {key : V → K} {cur : Option V} {l : List V} (h : ∀ v ∈ l, v ∈ unread key [v] cur) : unread key l cur = l := by
  cases cur with
  | none => rfl
  | some c =>
    simp only [unread, List.filter_eq_self]
    intro v hv
    simpa [unread] using h v hv

theorem unread_append {key : V → K} {cur : Option V} (a b : List V) : unread key (a ++ b) cur = unread key a cur ++ unread key b cur := by
  cases cur <;> simp [unread]

/-- What is known of consumer `i` since the moment when its cursor was `cur`, it had received `R`, and the items to come were `A`. -/
structure Since (key : V → K) (cur : Option V) (R A : List V) (i : Nat) (items : List V) (c : Cons K V) (D : List V) : Prop where
  recv : received c i = R ++ D
  last : (c.ch.readers i).lastItem = D.getLast?.or cur
  part : (D ++ unread key items (c.ch.readers i).lastItem).Sublist A
  above : ∀ v ∈ D, v ∈ unread key [v] cur

end props

namespace SB
variable [LinearOrder K] [BEq V] [ReflBEq V] {cfg : SBCfg K V} {s s' s1 s2 : SB K V I} {as as2 : List (SBAct K V I)}

theorem items_view {s : SB K V I} {b : Nat} {c : Cons K V} (hv : s.view b = some c) : s.items b = c.ch.buf.items := by
  obtain ⟨x, hx, rfl⟩ := Option.map_eq_some_iff.1 hv
  simp [items, hx]

theorem view_len (he : SB.init.exec cfg as = some s) {b : Nat} {c : Cons K V} (hv : s.view b = some c) : c.outs.length = c.ops.length := by
  have := (view_reach he b c hv).run
  have h2 := Ch.run_length (Ch.init cfg.key cfg.keyNone cfg.maxlen cfg.rdCfg) c.ops
  rw [this] at h2
  exact h2

theorem since (b i : Nat) (hpk : (cfg.rdCfg i).peek = false) (he : SB.init.exec cfg as = some s1) (c1 : Cons K V) (hv1 : s1.view b = some c1)
    (hidle : c1.pc i = .idle) (hu : ∀ a ∈ as2, OneUser b i a) (he2 : s1.exec cfg as2 = some s2) :
    ∃ c2 D new, s2.view b = some c2 ∧ quietPC (c2.pc i) ∧ storedIn b s2.log = storedIn b s1.log ++ new ∧
      Since cfg.key (c1.ch.readers i).lastItem (received c1 i) (s1.items b ++ new) i (s2.items b) c2 D ∧
      (s2.items b = storedIn b s2.log → D <+: unread cfg.key (storedIn b s2.log) (c1.ch.readers i).lastItem) := by
  induction as2 using List.reverseRecOn generalizing s2 with
  | nil =>
    simp only [SB.exec, Option.some.injEq] at he2; subst he2
    refine ⟨c1, [], [], hv1, by rw [hidle]; trivial, (List.append_nil _).symm, ⟨(List.append_nil _).symm, rfl, ?_, by simp⟩, fun _ => List.nil_prefix⟩
    rw [List.nil_append, List.append_nil]
    exact (by cases (c1.ch.readers i).lastItem <;> simp [unread])
  | append_singleton as2 a ih =>
    rw [exec_append] at he2
    obtain ⟨s0, h0, he2⟩ := Option.bind_eq_some_iff.1 he2
    simp only [SB.exec] at he2
    split at he2
    swap
    · simp at he2
    rename_i s3 hs
    injection he2 with he2; subst he2
    have he0 : SB.init.exec cfg (as ++ as2) = some s0 := by rw [exec_append, he]; exact h0
    have he3 : SB.init.exec cfg (as ++ as2 ++ [a]) = some s3 := by rw [exec_append, he0]; simp only [Option.bind, SB.exec, hs]
    obtain ⟨c0, D, new, hv0, hq0, hst0, h, hret⟩ := ih (fun a ha => hu a (by simp [ha])) h0
    have hsome : ∃ c3, s3.view b = some c3 := by
      cases hc : s3.view b with
      | some c => exact ⟨c, rfl⟩
      | none => rw [(no_view_step hs b hc).1] at hv0; cases hv0
    obtain ⟨c3, hv3⟩ := hsome
    have hback : s3.items b = storedIn b s3.log → s0.items b = storedIn b s0.log := fun hr =>
      retained_before he0 (as2 := [a]) (by simp only [SB.exec, hs]) b hr
    cases view_step' (good he0).inv b i (hu a (by simp)) hs c3 hv3 with
    | new hv' => rw [hv'] at hv0; cases hv0
    | same _ hv' hl =>
      rw [hv'] at hv0; injection hv0 with hv0; subst hv0
      have hi : s3.items b = s0.items b := by rw [items_view hv3, items_view hv']
      refine ⟨c3, D, new, hv3, hq0, by rw [hl, hst0], by rw [hi]; exact h, fun hr => ?_⟩
      rw [hl]; exact hret (hback hr)
    | step c _ a' hv' hs' ha hl hr =>
      rw [hv'] at hv0; injection hv0 with hv0; subst hv0
      obtain ⟨o1, o2, o3⟩ := one_call i hpk ha hs' (view_len he0 hv') hq0 hr
      have hreach := (view_reach he0 b c hv').ch
      rcases o3 with ⟨k1, k2, k3⟩ | ⟨op, k1, k2, k3, k4⟩
      · have hi : s3.items b = s0.items b := by rw [items_view hv3, items_view hv', k1]
        rw [k3, List.append_nil] at hl
        refine ⟨c3, D, new, hv3, o2, by rw [hl, hst0], ⟨by rw [k2]; exact h.recv, by rw [k1]; exact h.last, ?_, h.above⟩, fun hr => ?_⟩
        · rw [hi, k1]; exact h.part
        · rw [hl]; exact hret (hback hr)
      · have hpart : (D ++ unread cfg.key c.ch.buf.items (c.ch.readers i).lastItem).Sublist (s1.items b ++ new) := by
          rw [← items_view hv']; exact h.part
        have hpart' := part_step hreach i op k4 hpart
        rw [k3] at hl
        refine ⟨c3, D ++ handed cfg.rdCfg i op (c.ch.step op).2, new ++ taken op (c.ch.step op).2, hv3, o2, by rw [hl, hst0, List.append_assoc],
          ⟨by rw [k2, h.recv, List.append_assoc], ?_, ?_, ?_⟩, fun hr => ?_⟩
        · rw [k1]
          rcases ch_step hreach i op k4 with ⟨v, h1, h2, -, h3, h4⟩ | ⟨h1, h2, ⟨n, h3⟩, h4⟩ | ⟨h1, h2, h3, h4⟩
          · rw [h2, h4, List.append_nil]; exact h.last
          · rw [h2, h4, List.append_nil]; exact h.last
          · rw [h4, List.getLast?_append]
            cases (handed cfg.rdCfg i op (c.ch.step op).2).getLast? with
            | none => simpa using h.last
            | some z => rfl
        · rw [items_view hv3, k1, ← List.append_assoc]
          exact hpart'
        · intro v hv
          rcases List.mem_append.1 hv with hv | hv
          · exact h.above v hv
          · rcases ch_step hreach i op k4 with ⟨w, h1, h2, -, h3, h4⟩ | ⟨h1, h2, ⟨n, h3⟩, h4⟩ | ⟨h1, h2, h3, h4⟩
            · rw [h2] at hv; cases hv
            · rw [h2] at hv; cases hv
            · have hv' := (mem_unread.1 (h3.subset hv)).2
              rw [h.last] at hv'
              cases hg : D.getLast? with
              | none => rw [hg] at hv'; exact hv'
              | some z =>
                rw [hg] at hv'
                exact above_trans (h.above z (List.mem_of_getLast? hg)) (by simpa [unread] using hv')
        · have hr0 := hback hr
          have hp := hret hr0
          rcases ch_step hreach i op k4 with ⟨w, h1, h2, -, h3, h4⟩ | ⟨h1, h2, ⟨n, h3⟩, h4⟩ | ⟨h1, h2, h3, h4⟩
          · rw [h2, List.append_nil, hl, unread_append]; exact hp.trans (List.prefix_append _ _)
          · rw [h2, List.append_nil, hl, unread_append]; exact hp.trans (List.prefix_append _ _)
          · rw [hl, h1, List.append_nil]
            have hstr := Ch.Sim.strict hreach.sim
            have hi : c.ch.buf.items = storedIn b s0.log := by rw [← items_view hv']; exact hr0
            rw [← hi] at hp ⊢
            obtain ⟨q, hq⟩ := hp
            have : unread cfg.key c.ch.buf.items (c.ch.readers i).lastItem = q := by
              rw [h.last]
              cases hg : D.getLast? with
              | none =>
                have : D = [] := by simpa using hg
                rw [this] at hq; simpa using hq.symm
              | some z => exact unread_after hstr _ _ q z hq.symm hg
            rw [this] at h3
            rw [← hq]
            exact (List.prefix_append_right_inj D).2 h3

/-- **C162** take any reachable state `s1` and a reader `i` of session `b` with no call in progress, wherever its cursor is and whatever it was used for before. If
from then on one consumer uses it, without peeking, then what it receives after `s1`, followed by what it can still read, is in order and without
repetition a part of the items above the cursor among those retained in `s1` and those stored (`new`) since. It is all of the items of the session above the
cursor, as long as the buffer retains all items of the session. Every execution, every bound. -/
theorem C162_from_any_moment (b i : Nat) (hpk : (cfg.rdCfg i).peek = false) (he : SB.init.exec cfg as = some s1) (c1 : Cons K V)
    (hv1 : s1.view b = some c1) (hidle : c1.pc i = .idle) (hu : ∀ a ∈ as2, OneUser b i a) (he2 : s1.exec cfg as2 = some s2) (c2 : Cons K V)
    (hv2 : s2.view b = some c2) :
    ∃ got new, received c2 i = received c1 i ++ got ∧ storedIn b s2.log = storedIn b s1.log ++ new ∧
      (got ++ unreadOf c2.ch i).Sublist (unread cfg.key (s1.items b ++ new) (c1.ch.readers i).lastItem) ∧
      (s2.items b = storedIn b s2.log → got ++ unreadOf c2.ch i = unread cfg.key (storedIn b s2.log) (c1.ch.readers i).lastItem) := by
  obtain ⟨c, D, new, hv, -, hst, h, hret⟩ := since b i hpk he c1 hv1 hidle hu he2
  rw [hv] at hv2; injection hv2 with hv2; subst hv2
  have he' : SB.init.exec cfg (as ++ as2) = some s2 := by rw [exec_append, he]; exact he2
  have hreach := (view_reach he' b c hv).ch
  have hu2 : unreadOf c.ch i = unread cfg.key (s2.items b) (c.ch.readers i).lastItem := by rw [unreadOf_eq hreach, items_view hv]
  refine ⟨D, new, h.recv, hst, ?_, fun hr => ?_⟩
  · rw [hu2]
    have hall : ∀ v ∈ D ++ unread cfg.key (s2.items b) (c.ch.readers i).lastItem, v ∈ unread cfg.key [v] (c1.ch.readers i).lastItem := by
      intro v hv
      rcases List.mem_append.1 hv with hv | hv
      · exact h.above v hv
      · have hv' := (mem_unread.1 hv).2
        rw [h.last] at hv'
        cases hg : D.getLast? with
        | none => rw [hg] at hv'; exact hv'
        | some z =>
          rw [hg] at hv'
          exact above_trans (h.above z (List.mem_of_getLast? hg)) (by simpa [unread] using hv')
    have := unread_sublist cfg.key h.part (c1.ch.readers i).lastItem
    rwa [unread_of_all hall] at this
  · obtain ⟨q, hq⟩ := hret hr
    rw [hu2, hr, ← hq]
    congr 1
    rw [h.last]
    cases hg : D.getLast? with
    | none =>
      have : D = [] := by simpa using hg
      rw [this] at hq; simpa using hq.symm
    | some z =>
      refine unread_after ?_ _ _ q z hq.symm hg
      rw [← hr, items_view hv]
      exact Ch.Sim.strict hreach.sim

/-- **C162** `attach_reader`: reader `i` of an earlier session `b` becomes reader `j` of the current session `b'`. From then on its consumer receives, in order and
without repetition, a part of the items of session `b'`, those retained then and those stored later, that are above the cursor which reader `i` had; and all
the items of the session above it, as long as the buffer retains them. Every execution, every bound. -/
theorem C162_attached (b i j b' : Nat) (hpk : (cfg.rdCfg j).peek = false) (he : SB.init.exec cfg as = some s) (hl : s.start = none)
    (c c' : Cons K V) (hb : s.view b = some c) (hc : current s.log = some b') (hb' : s.view b' = some c') (hidle : c'.pc j = .idle)
    (hs : s.step cfg (.attach b i j) = some s1) (hu : ∀ a ∈ as2, OneUser b' j a) (he2 : s1.exec cfg as2 = some s2) (c2 : Cons K V)
    (hv2 : s2.view b' = some c2) :
    ∃ got new, received c2 j = received c' j ++ got ∧ storedIn b' s2.log = storedIn b' s.log ++ new ∧
      (got ++ unreadOf c2.ch j).Sublist (unread cfg.key (s.items b' ++ new) (c.ch.readers i).lastItem) ∧
      (s2.items b' = storedIn b' s2.log → got ++ unreadOf c2.ch j = unread cfg.key (storedIn b' s2.log) (c.ch.readers i).lastItem) := by
  have hg := good he
  have hsb := hg.log.cur (by simp [hl])
  rw [hc] at hsb
  obtain ⟨x, hx, rfl⟩ := Option.map_eq_some_iff.1 hb
  obtain ⟨x', hx', rfl⟩ := Option.map_eq_some_iff.1 hb'
  have he1 : SB.init.exec cfg (as ++ [.attach b i j]) = some s1 := by rw [exec_append, he]; simp only [Option.bind, SB.exec, hs]
  simp only [step, hl, if_true, hsb, hx, hx', Option.some.injEq] at hs
  obtain ⟨op, hlast, hs⟩ : ∃ op, ((x'.cons.call (.rd j op)).1.ch.readers j).lastItem = (x.cons.ch.readers i).lastItem ∧
      s1 = (s.setBuf b' { x' with cons := (x'.cons.call (.rd j op)).1 }).say (.attached (.ok b')) := by
    refine ⟨_, ?_, hs.symm⟩
    cases (x.cons.ch.readers i).lastItem <;> simp [Cons.call, Ch.step, Ch.rdStep, Reader.setLast, Reader.delLast]
  subst hs
  have hv1 : ((s.setBuf b' { x' with cons := (x'.cons.call (.rd j op)).1 }).say (.attached (.ok b'))).view b' =
      some { (x'.cons.call (.rd j op)).1 with stopped := s.flag x'.evt } := by
    simp only [view, say, setBuf, if_true, Option.map_some, Option.some.injEq]
  obtain ⟨got, new, h1, h2, h3, h4⟩ := C162_from_any_moment b' j hpk he1 _ hv1 hidle hu he2 c2 hv2
  have hit : ((s.setBuf b' { x' with cons := (x'.cons.call (.rd j op)).1 }).say (.attached (.ok b'))).items b' = s.items b' := by
    simp only [items, say, setBuf, if_true, hx', Cons.call]
    rfl
  refine ⟨got, new, h1, ?_, ?_, ?_⟩
  · rw [h2]; simp [say, setBuf, storedIn_append, storedIn]
  · rw [hit] at h3
    exact hlast ▸ h3
  · exact hlast ▸ h4

end SB
end S2P
