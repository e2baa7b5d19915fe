import Verif.Proofs.Mover
/-
C168, C169: a reader is moved to another session by `attach_reader` while its consumer uses it: a loop or a call of `next` is in progress, and the two assignments
of `attach_reader` take effect one after the other.
-/
namespace S2P
open Spec
variable {K V I : Type}

namespace MSB
theorem unread_part [LinearOrder K] (key : V → K) (items : List V) (c : Option V) : (unread key items c).Sublist items := by
  cases c with
  | none => exact List.Sublist.refl _
  | some c => exact List.filter_sublist

variable [LinearOrder K] [BEq V] [ReflBEq V] {cfg : SBCfg K V} {s s' s1 s2 : MSB K V I} {a : MvAct K V I} {as as2 : List (MvAct K V I)}

theorem items_strict (h : Inv cfg s) (b : Nat) : (s.sb.items b).Pairwise fun v w => cfg.key v < cfg.key w := by
  cases hx : s.sb.buf b with
  | none => simp [SB.items, hx]
  | some x =>
    have := Ch.Sim.strict (view_cons h hx).1.ch.sim
    rw [(view_cons h hx).2]
    exact this

omit [ReflBEq V] in
/-- One step of the buffer pointer and the buffer being read. -/
theorem moves (i : Nat) (h : Inv cfg s) (hs : s.step cfg a = some s') (m' : Mover K V) (hm' : s'.rds i = some m') :
    s.rds i = none ∨ ∃ m, s.rds i = some m ∧ m.buf ≤ m'.buf ∧ (a ≠ .attach i → m'.buf = m.buf) ∧
      ∀ it b, m'.pc = .read it b → m.pc = .read it b ∨ b = m.buf := by
  have hle : ∀ i m b, s.rds i = some m → s.sb.sourceBuffer = some b → m.buf ≤ b := by
    intro i m b hm hb
    have hi := h.sbInv
    obtain ⟨h1, h2⟩ := hi.sb b hb
    by_contra hc
    have := hi.noBuf m.buf (by omega)
    have := h.buf i m hm
    simp_all
  have hst := step_to hs
  clear hs h
  have hset : ∀ (j : Nat) (m m2 : Mover K V), s.rds j = some m → (if i = j then some m2 else s.rds i) = some m' →
      m.buf ≤ m2.buf → (a ≠ .attach j → m2.buf = m.buf) → (∀ it b, m2.pc = .read it b → m.pc = .read it b ∨ b = m.buf) →
      s.rds i = none ∨ ∃ m, s.rds i = some m ∧ m.buf ≤ m'.buf ∧ (a ≠ .attach i → m'.buf = m.buf) ∧ ∀ it b, m'.pc = .read it b → m.pc = .read it b ∨ b = m.buf := by
    intro j m m2 hm hset h1 h2 h3
    split at hset
    · rename_i e; subst e; injection hset with hset; subst hset; exact .inr ⟨m, hm, h1, h2, h3⟩
    · exact .inr ⟨m', hset, Nat.le_refl _, fun _ => rfl, fun it b hb => .inl hb⟩
  have hsame : s.rds i = some m' → s.rds i = none ∨ ∃ m, s.rds i = some m ∧ m.buf ≤ m'.buf ∧ (a ≠ .attach i → m'.buf = m.buf) ∧
      ∀ it b, m'.pc = .read it b → m.pc = .read it b ∨ b = m.buf :=
    fun hm => .inr ⟨m', hm, Nat.le_refl _, fun _ => rfl, fun it b hb => .inl hb⟩
  cases hst with
  | sb a y hl hy => exact hsame hm'
  | makeNone j => exact hsame hm'
  | attachNone j => exact hsame hm'
  | make j b x _ _ hn =>
    simp only [set] at hm'
    split at hm'
    · rename_i e; subst e; exact .inl hn
    · exact hsame hm'
  | attach j m b _ _ hm hb => exact hset j m _ hm hm' (hle j m b hm hb) (by simp) (fun it c hc => .inl hc)
  | look j m it hm hp => exact hset j m _ hm hm' (Nat.le_refl _) (fun _ => rfl) (fun it c hc => .inr (by cases hc; rfl))
  | readErr j m it b x e rd hm hp hx hr => exact hset j m _ hm hm' (Nat.le_refl _) (fun _ => rfl) (by simp)
  | readNone j m it b x rd hm hp hx hr => exact hset j m _ hm hm' (Nat.le_refl _) (fun _ => rfl) (by simp)
  | readItem j m it b x r rd hm hp hx hr hn => exact hset j m _ hm hm' (Nat.le_refl _) (fun _ => rfl) (by cases it <;> simp)
  | attachGo j b m x _ hm => exact hset j m _ hm hm' (Nat.le_refl _) (fun _ => rfl) (fun it c hc => .inl hc)
  | next j m hm => exact hset j m _ hm hm' (Nat.le_refl _) (fun _ => rfl) (by simp)
  | loop j m hm => exact hset j m _ hm hm' (Nat.le_refl _) (fun _ => rfl) (by simp)
  | checkEnd j m it hm => exact hset j m _ hm hm' (Nat.le_refl _) (fun _ => rfl) (by simp)
  | checkOn j m hm => exact hset j m _ hm hm' (Nat.le_refl _) (fun _ => rfl) (by simp)
  | checkNone j m hm => exact hset j m _ hm hm' (Nat.le_refl _) (fun _ => rfl) (by simp)
  | check2End j m hm => exact hset j m _ hm hm' (Nat.le_refl _) (fun _ => rfl) (by simp)
  | check2On j m hm => exact hset j m _ hm hm' (Nat.le_refl _) (fun _ => rfl) (by simp)
  | turn j m hm => exact hset j m _ hm hm' (Nat.le_refl _) (fun _ => rfl) (by simp)
  | leave j m hm => exact hset j m _ hm hm' (Nat.le_refl _) (fun _ => rfl) (by simp)

omit [ReflBEq V] in
/-- What a step does to the stream buffer. -/
theorem sb_step (hs : s.step cfg a = some s') : s'.sb = s.sb ∨ ∃ x, a = .sb x ∧ s.sb.step cfg x = some s'.sb ∧ s'.rds = s.rds ∧ s'.evs = s.evs := by
  have hst := step_to hs
  cases hst
  case sb x y _ hy => exact .inr ⟨x, rfl, hy, rfl, rfl⟩
  all_goals exact .inl rfl

theorem stored_sub (h : Inv cfg s) (hs : s.step cfg a = some s') (b : Nat) : storedIn b s.sb.log <+: storedIn b s'.sb.log := by
  rcases sb_step hs with e | ⟨x, -, hx, -, -⟩
  · rw [e]; exact List.prefix_refl _
  · obtain ⟨as, has⟩ := h.reach
    cases SB.data_step (SB.good has).inv (SB.good has).bufs hx b with
    | same h1 h2 => rw [h2]; exact List.prefix_refl _
    | stored t v _ _ _ h1 h2 => rw [h2]; exact List.prefix_append _ _
    | dropped k _ _ h1 h2 => rw [h2]; exact List.prefix_refl _

/-- What consumer `i` was handed is in order. -/
structure Ordered (cfg : SBCfg K V) (i : Nat) (s : MSB K V I) : Prop where
  cur : s.cursor i = (gotBy i s.evs).getLast?.map (·.2)
  pw : (gotBy i s.evs).Pairwise fun p q => p.1 ≤ q.1 ∧ cfg.key p.2 < cfg.key q.2
  low : ∀ m, s.rds i = some m → ∀ p ∈ gotBy i s.evs, p.1 ≤ m.buf ∧ ∀ it b, m.pc = .read it b → p.1 ≤ b
  non : s.rds i = none → gotBy i s.evs = []
  mem : ∀ p ∈ gotBy i s.evs, p.2 ∈ storedIn p.1 s.sb.log

theorem none_before (i : Nat) (hs : s.step cfg a = some s') (h : s'.rds i = none) : s.rds i = none := by
  have hst := step_to hs
  clear hs
  cases hst <;> simp only [set, say] at h <;> first | exact h | (split at h <;> first | cases h | exact h)

theorem pairwise_chunk {key : V → K} {items : List V} (hs : items.Pairwise (fun v w => key v < key w)) (c : Option V) (b : Nat) (got : List (Nat × V)) (vs : List V)
    (hc : c = got.getLast?.map (·.2)) (hp : got.Pairwise fun p q => p.1 ≤ q.1 ∧ key p.2 < key q.2) (hb : ∀ p ∈ got, p.1 ≤ b) (hv : vs <+: unread key items c) :
    (got ++ vs.map (b, ·)).Pairwise fun p q => p.1 ≤ q.1 ∧ key p.2 < key q.2 := by
  have hvs : vs.Pairwise fun v w => key v < key w := hs.sublist (hv.sublist.trans (unread_part key items c))
  rw [List.pairwise_append]
  refine ⟨hp, ?_, ?_⟩
  · rw [List.pairwise_map]
    exact hvs.imp fun h => ⟨Nat.le_refl _, h⟩
  · intro p hpm q hq
    obtain ⟨v, hv1, rfl⟩ := List.mem_map.1 hq
    refine ⟨hb p hpm, ?_⟩
    have hun := hv.subset hv1
    cases hg : got.getLast? with
    | none => simp at hg; subst hg; cases hpm
    | some z =>
      rw [hc, hg, Option.map_some, unread, List.mem_filter, decide_eq_true_eq] at hun
      obtain ⟨g, rfl⟩ := List.getLast?_eq_some_iff.1 hg
      rcases List.mem_append.1 hpm with h | h
      · exact lt_trans ((List.pairwise_append.1 hp).2.2 p h z (by simp)).2 hun.2
      · simp only [List.mem_singleton] at h; subst h; exact hun.2

theorem Ordered.step (i : Nat) (h : Inv cfg s) (hk : AllOk cfg i s) (hpk : (cfg.rdCfg i).peek = false) (ho : Ordered cfg i s) (hs : s.step cfg a = some s') :
    Ordered cfg i s' := by
  have hmem : ∀ p ∈ gotBy i s.evs, p.2 ∈ storedIn p.1 s'.sb.log := fun p hp => (stored_sub h hs p.1).subset (ho.mem p hp)
  cases eff i h hk hpk hs with
  | quiet h1 h2 =>
    refine ⟨by rw [h1, h2, ho.cur], by rw [h1]; exact ho.pw, ?_, ?_, by rw [h1]; exact hmem⟩
    · intro m' hm' p hp
      rw [h1] at hp
      rcases moves i h hs m' hm' with hn | ⟨m, hm, h3, -, h4⟩
      · rw [ho.non hn] at hp; cases hp
      · refine ⟨((ho.low m hm p hp).1).trans h3, fun it b hb => ?_⟩
        rcases h4 it b hb with h4 | h4
        · exact (ho.low m hm p hp).2 it b h4
        · rw [h4]; exact (ho.low m hm p hp).1
    · intro hn; rw [h1]; exact ho.non (none_before i hs hn)
  | read m it b vs hm hp hsb h1 h2 h3 h4 =>
    obtain ⟨as, has⟩ := h.reach
    obtain ⟨hbx, hbb⟩ := h.pc i m it b hm hp
    obtain ⟨x, hx⟩ := Option.isSome_iff_exists.1 hbx
    obtain ⟨hr, hit⟩ := view_cons h hx
    have hstr := Ch.Sim.strict hr.ch.sim
    rw [hit] at h3
    refine ⟨?_, ?_, ?_, ?_, ?_⟩
    · rw [h1, h2, List.getLast?_append, ho.cur]
      cases hv : vs.getLast? <;> simp [List.getLast?_map, hv]
    · rw [h1]
      exact pairwise_chunk hstr _ b _ vs ho.cur ho.pw (fun p hpm => (ho.low m hm p hpm).2 it b hp) h3
    · intro m' hm' p hpm
      obtain ⟨m2, e1, e2, -, e3⟩ := h4
      rw [e1] at hm'; injection hm' with hm'; subst hm'
      refine ⟨?_, fun it b hb => absurd hb (e3 it b)⟩
      rw [e2]
      rw [h1] at hpm
      rcases List.mem_append.1 hpm with hpm | hpm
      · exact (ho.low m hm p hpm).1
      · obtain ⟨v, -, rfl⟩ := List.mem_map.1 hpm
        exact hbb
    · intro hn
      rw [none_before i hs hn] at hm; cases hm
    · rw [h1]
      intro p hpm
      rcases List.mem_append.1 hpm with hpm | hpm
      · exact hmem p hpm
      · obtain ⟨v, hv, rfl⟩ := List.mem_map.1 hpm
        rw [hsb]
        refine (SB.items_suffix has b).subset ?_
        rw [hit]
        exact (unread_part _ _ _).subset (h3.subset hv)

theorem reached (i : Nat) (hpk : (cfg.rdCfg i).peek = false) (he : MSB.init.exec cfg as = some s) : Inv cfg s ∧ AllOk cfg i s ∧ Ordered cfg i s :=
  exec_ind (P := fun s : MSB K V I => Inv cfg s ∧ AllOk cfg i s ∧ Ordered cfg i s) (fun _ _ _ h hs => ⟨h.1.step hs, h.2.1.step i h.1 hpk hs, h.2.2.step i h.1 h.2.1 hpk hs⟩)
    ⟨Inv.init, by simp [AllOk, MSB.init], ⟨rfl, List.Pairwise.nil, by simp [MSB.init], by simp [MSB.init, gotBy], by simp [MSB.init, gotBy]⟩⟩ he

/-- **C168** the stream buffer goes through an execution of Model/StreamBuffer.lean: readers that are moved about take nothing away from what is proved of it. -/
theorem C168_stream_buffer (he : MSB.init.exec cfg as = some s) : ∃ as', SB.init.exec cfg as' = some s.sb := (inv he).reach

/-- **C168** whatever the calls of `attach_reader` on reader `i`, and whenever they are made and take effect: all that its consumer is handed over time, out of all
sessions, is in strictly increasing order of keys, so never the same item twice. It never goes back to an earlier session, and each item was stored in the
session which it was read from. -/
theorem C168_in_order (i : Nat) (hpk : (cfg.rdCfg i).peek = false) (he : MSB.init.exec cfg as = some s) :
    (gotBy i s.evs).Pairwise (fun p q => p.1 ≤ q.1 ∧ cfg.key p.2 < cfg.key q.2) ∧ ∀ p ∈ gotBy i s.evs, p.2 ∈ storedIn p.1 s.sb.log :=
  ⟨(reached i hpk he).2.2.pw, (reached i hpk he).2.2.mem⟩

/-- What has happened to consumer `i` on buffer `b` since its cursor was `cur` and it had been handed `R`, the items to come being `A`. -/
structure SinceM (cfg : SBCfg K V) (i b : Nat) (cur : Option V) (R : List (Nat × V)) (A D : List V) (s : MSB K V I) : Prop where
  recv : gotBy i s.evs = R ++ D.map (b, ·)
  last : s.cursor i = D.getLast?.or cur
  part : (D ++ unread cfg.key (s.sb.items b) (s.cursor i)).Sublist A
  above : ∀ v ∈ D, v ∈ unread cfg.key [v] cur
  ret : s.sb.items b = storedIn b s.sb.log → D <+: unread cfg.key (storedIn b s.sb.log) cur

theorem last_unread {key : V → K} {items : List V} (hs : items.Pairwise (fun v w => key v < key w)) (c : Option V) (p q : List V)
    (hu : unread key items c = p ++ q) : unread key items (p.getLast?.or c) = q := by
  cases hg : p.getLast? with
  | none =>
    have : p = [] := by simpa using hg
    subst this; simpa using hu
  | some z => exact unread_after hs c p q z hu hg

theorem since (i b : Nat) (hpk : (cfg.rdCfg i).peek = false) (he : MSB.init.exec cfg as = some s1) (m1 : Mover K V) (hm1 : s1.rds i = some m1) (hb : m1.buf = b)
    (hrd : ∀ it b', m1.pc = .read it b' → b' = b) (hna : MvAct.attach i ∉ as2) (he2 : s1.exec cfg as2 = some s2) :
    ∃ m2 D new, s2.rds i = some m2 ∧ m2.buf = b ∧ (∀ it b', m2.pc = .read it b' → b' = b) ∧ storedIn b s2.sb.log = storedIn b s1.sb.log ++ new ∧
      SinceM cfg i b (s1.cursor i) (gotBy i s1.evs) (s1.sb.items b ++ new) D s2 := by
  induction as2 using List.reverseRecOn generalizing s2 with
  | nil =>
    simp only [exec, Option.some.injEq] at he2; subst he2
    refine ⟨m1, [], [], hm1, hb, hrd, (List.append_nil _).symm, ⟨by simp, rfl, ?_, by simp, fun _ => List.nil_prefix⟩⟩
    rw [List.nil_append, List.append_nil]
    exact unread_part _ _ _
  | append_singleton as2 a ih =>
    rw [exec_append] at he2
    obtain ⟨s0, h0, he2⟩ := Option.bind_eq_some_iff.1 he2
    simp only [exec] at he2
    split at he2
    swap
    · simp at he2
    rename_i s3 hs
    injection he2 with he2; subst he2
    have he0 : MSB.init.exec cfg (as ++ as2) = some s0 := by rw [exec_append, he]; exact h0
    obtain ⟨hI, hK, hO⟩ := reached i hpk he0
    obtain ⟨m0, D, new, hm0, hb0, hp0, hst0, h⟩ := ih (fun hm => hna (by simp [hm])) h0
    have hne : a ≠ .attach i := fun e => hna (by simp [e])
    have hsome : ∃ m3, s3.rds i = some m3 := by
      cases hc : s3.rds i with
      | some m => exact ⟨m, rfl⟩
      | none => rw [none_before i hs hc] at hm0; cases hm0
    obtain ⟨m3, hm3⟩ := hsome
    have hmv : m3.buf = b ∧ ∀ it b', m3.pc = .read it b' → b' = b := by
      rcases moves i hI hs m3 hm3 with hn | ⟨m, hm, -, k1, k2⟩
      · rw [hn] at hm0; cases hm0
      · rw [hm] at hm0; injection hm0 with hm0; subst hm0
        refine ⟨(k1 hne).trans hb0, fun it b' hb' => ?_⟩
        rcases k2 it b' hb' with k2 | k2
        · exact hp0 it b' k2
        · rw [k2, hb0]
    refine ⟨m3, ?_⟩
    obtain ⟨as0, has0⟩ := hI.reach
    rcases sb_step hs with e | ⟨x, -, hx, hrds, hevs⟩
    · cases eff i hI hK hpk hs with
      | quiet h1 h2 =>
        exact ⟨D, new, hm3, hmv.1, hmv.2, by rw [e]; exact hst0, ⟨by rw [h1]; exact h.recv, by rw [h2]; exact h.last, by rw [e, h2]; exact h.part, h.above,
          by rw [e]; exact h.ret⟩⟩
      | read m it b' vs hm hp _ h1 h2 h3 =>
        rw [hm] at hm0; injection hm0 with hm0; subst hm0
        have hbb := hp0 it b' hp
        subst hbb
        have hstr := items_strict hI b'
        obtain ⟨q, hq⟩ := h3
        have hlast : s3.cursor i = (D ++ vs).getLast?.or (s1.cursor i) := by
          rw [h2, h.last, List.getLast?_append]
          cases vs.getLast? <;> simp
        refine ⟨D ++ vs, new, hm3, hmv.1, hmv.2, by rw [e]; exact hst0, ⟨by rw [h1, h.recv, List.map_append, List.append_assoc], hlast, ?_, ?_, ?_⟩⟩
        · rw [e, h2, last_unread hstr (s0.cursor i) vs q hq.symm, List.append_assoc, hq]
          exact h.part
        · intro v hv
          rcases List.mem_append.1 hv with hv | hv
          · exact h.above v hv
          · have hv' : v ∈ unread cfg.key [v] (s0.cursor i) := (mem_unread.1 (hq ▸ List.mem_append_left _ hv)).2
            rw [h.last] at hv'
            cases hg : D.getLast? with
            | none => rw [hg] at hv'; exact hv'
            | some z =>
              rw [hg] at hv'
              exact above_trans (h.above z (List.mem_of_getLast? hg)) (by simpa [unread] using hv')
        · intro hret
          rw [e] at hret ⊢
          obtain ⟨p, hp'⟩ := h.ret hret
          rw [hret] at hq hstr
          have := last_unread hstr _ _ _ hp'.symm
          rw [← h.last, ← hq] at this
          rw [← hp', ← this, ← List.append_assoc]
          exact List.prefix_append _ _
    · have hcur : s3.cursor i = s0.cursor i := by simp [cursor, hrds]
      have hback : s3.sb.items b = storedIn b s3.sb.log → s0.sb.items b = storedIn b s0.sb.log := fun hr =>
        SB.retained_before has0 (as2 := [x]) (by simp only [SB.exec, hx]) b hr
      have hlog : ∃ l, storedIn b s3.sb.log = storedIn b s0.sb.log ++ l ∧
          (unread cfg.key (s3.sb.items b) (s0.cursor i)).Sublist (unread cfg.key (s0.sb.items b) (s0.cursor i) ++ l) := by
        cases SB.data_step (SB.good has0).inv (SB.good has0).bufs hx b with
        | same h1 h2 => exact ⟨[], by rw [h2, List.append_nil], by rw [h1, List.append_nil]; exact List.Sublist.refl _⟩
        | dropped k _ _ h1 h2 =>
          refine ⟨[], by rw [h2, List.append_nil], ?_⟩
          rw [h1, List.append_nil]; exact unread_sublist cfg.key (List.drop_sublist _ _) _
        | stored t v _ _ _ h1 h2 =>
          refine ⟨[v], h2, ?_⟩
          rw [h1]
          exact (unread_sublist cfg.key (newest_suffix _ _).sublist _).trans (unread_snoc cfg.key _ _ _)
      obtain ⟨l, hl1, hl2⟩ := hlog
      refine ⟨D, new ++ l, hm3, hmv.1, hmv.2, by rw [hl1, hst0, List.append_assoc], ⟨by rw [hevs]; exact h.recv, by rw [hcur]; exact h.last, ?_, h.above, ?_⟩⟩
      · rw [hcur, ← List.append_assoc]
        refine ((List.Sublist.refl D).append hl2).trans ?_
        rw [← List.append_assoc]
        exact h.part.append (List.Sublist.refl _)
      · intro hret
        rw [hl1, unread_append]
        exact (h.ret (hback hret)).trans (List.prefix_append _ _)

/-- **C168** take any reachable state `s1`, with the loop or call of `next` of consumer `i` wherever it is (but not with a read of an earlier session's buffer pending),
and any `s2` later, reader `i` not being attached to another session in between. With `b` the session of reader `i`, what the consumer is handed in between, followed
by what its reader can read in `s2`, is in order and without repetition a part of the items of session `b` above its cursor: those retained in `s1` and those
stored (`new`) since. It is all of the items of the session above that cursor, as long as the buffer retains them. -/
theorem C168_moved (i b : Nat) (hpk : (cfg.rdCfg i).peek = false) (he : MSB.init.exec cfg as = some s1) (m1 : Mover K V) (hm1 : s1.rds i = some m1)
    (hb : m1.buf = b) (hrd : ∀ it b', m1.pc = .read it b' → b' = b) (hna : MvAct.attach i ∉ as2) (he2 : s1.exec cfg as2 = some s2) (m2 : Mover K V)
    (hm2 : s2.rds i = some m2) :
    ∃ got new, gotBy i s2.evs = gotBy i s1.evs ++ got.map (b, ·) ∧ storedIn b s2.sb.log = storedIn b s1.sb.log ++ new ∧
      (got ++ unread cfg.key (s2.sb.items b) m2.rd.lastItem).Sublist (unread cfg.key (s1.sb.items b ++ new) m1.rd.lastItem) ∧
      (s2.sb.items b = storedIn b s2.sb.log →
        got ++ unread cfg.key (s2.sb.items b) m2.rd.lastItem = unread cfg.key (storedIn b s2.sb.log) m1.rd.lastItem) := by
  obtain ⟨m, D, new, hm, hmb, -, hst, h⟩ := since i b hpk he m1 hm1 hb hrd hna he2
  rw [hm] at hm2; injection hm2 with hm2; subst hm2
  have he' : MSB.init.exec cfg (as ++ as2) = some s2 := by rw [exec_append, he]; exact he2
  have hI := inv he'
  have hc1 : s1.cursor i = m1.rd.lastItem := by simp [cursor, hm1]
  have hc2 : s2.cursor i = m.rd.lastItem := by simp [cursor, hm]
  have hstr := items_strict hI b
  refine ⟨D, new, h.recv, hst, ?_, fun hret => ?_⟩
  · rw [← hc1, ← hc2]
    have hall : ∀ v ∈ D ++ unread cfg.key (s2.sb.items b) (s2.cursor i), v ∈ unread cfg.key [v] (s1.cursor i) := by
      intro v hv
      rcases List.mem_append.1 hv with hv | hv
      · exact h.above v hv
      · have hv' := (mem_unread.1 hv).2
        rw [h.last] at hv'
        cases hg : D.getLast? with
        | none => rw [hg] at hv'; exact hv'
        | some z =>
          rw [hg] at hv'
          exact above_trans (h.above z (List.mem_of_getLast? hg)) (by simpa [unread] using hv')
    have := unread_sublist cfg.key h.part (s1.cursor i)
    rwa [unread_of_all hall] at this
  · obtain ⟨q, hq⟩ := h.ret hret
    rw [hret] at hstr
    rw [← hc1, ← hc2, hret, h.last, last_unread hstr _ _ _ hq.symm, hq]

theorem evs_step (hs : s.step cfg a = some s') : ∃ l, s'.evs = s.evs ++ l := by
  have hst := step_to hs
  cases hst <;> first | exact ⟨[], (List.append_nil _).symm⟩ | exact ⟨_, rfl⟩

/-- Reader `i` is attached to session `b`, wholly. -/
def On (i b : Nat) (s : MSB K V I) : Prop := (∃ m, s.rds i = some m ∧ m.buf = b ∧ m.evt = b) ∧ ∀ c, s.attaching ≠ some (i, c)

theorem on_step (i b : Nat) (h : Inv cfg s) (ho : On i b s) (hne : a ≠ .attach i) (hs : s.step cfg a = some s') : On i b s' := by
  obtain ⟨⟨m, hm, hb, he⟩, hat⟩ := ho
  have hev := h.sbInv.evt
  have hst := step_to hs
  clear hs h
  have hset : ∀ (j : Nat) (m0 m2 : Mover K V) (t : MSB K V I), s.rds j = some m0 → (∀ k, t.rds k = if k = j then some m2 else s.rds k) →
      (j = i → m2.buf = m0.buf ∧ m2.evt = m0.evt) → (∀ c, t.attaching ≠ some (i, c)) → On i b t := by
    intro j m0 m2 t h0 ht h2 hta
    refine ⟨?_, hta⟩
    by_cases hj : i = j
    · subst hj
      rw [hm] at h0; injection h0 with h0; subst h0
      exact ⟨m2, by rw [ht, if_pos rfl], (h2 rfl).1.trans hb, (h2 rfl).2.trans he⟩
    · exact ⟨m, by rw [ht, if_neg hj]; exact hm, hb, he⟩
  cases hst with
  | sb a y hl hy => exact ⟨⟨m, hm, hb, he⟩, hat⟩
  | makeNone j => exact ⟨⟨m, hm, hb, he⟩, hat⟩
  | attachNone j => exact ⟨⟨m, hm, hb, he⟩, hat⟩
  | make j c x _ _ hn =>
    refine ⟨⟨m, ?_, hb, he⟩, hat⟩
    simp only [set]
    rw [if_neg (by rintro rfl; rw [hm] at hn; cases hn)]
    exact hm
  | attach j m0 c _ _ h0 =>
    have hj : j ≠ i := fun e => hne (by rw [e])
    exact hset j m0 _ _ h0 (fun _ => rfl) (fun e => absurd e hj) (by simp [hj])
  | attachGo j c m0 x ha h0 hx =>
    have hj : j ≠ i := fun e => hat c (by rw [ha, e])
    exact hset j m0 _ _ h0 (fun _ => rfl) (fun e => absurd e hj) (by simp [say, set])
  | look j m0 it h0 => exact hset j m0 _ _ h0 (fun _ => rfl) (fun _ => ⟨rfl, rfl⟩) hat
  | readErr j m0 it c x e rd h0 => exact hset j m0 _ _ h0 (fun _ => rfl) (fun _ => ⟨rfl, rfl⟩) hat
  | readNone j m0 it c x rd h0 => exact hset j m0 _ _ h0 (fun _ => rfl) (fun _ => ⟨rfl, rfl⟩) hat
  | readItem j m0 it c x r rd h0 => exact hset j m0 _ _ h0 (fun _ => rfl) (fun _ => ⟨rfl, rfl⟩) hat
  | next j m0 h0 => exact hset j m0 _ _ h0 (fun _ => rfl) (fun _ => ⟨rfl, rfl⟩) hat
  | loop j m0 h0 => exact hset j m0 _ _ h0 (fun _ => rfl) (fun _ => ⟨rfl, rfl⟩) hat
  | checkEnd j m0 it h0 => exact hset j m0 _ _ h0 (fun _ => rfl) (fun _ => ⟨rfl, rfl⟩) hat
  | checkOn j m0 h0 => exact hset j m0 _ _ h0 (fun _ => rfl) (fun _ => ⟨rfl, rfl⟩) hat
  | checkNone j m0 h0 => exact hset j m0 _ _ h0 (fun _ => rfl) (fun _ => ⟨rfl, rfl⟩) hat
  | check2End j m0 h0 => exact hset j m0 _ _ h0 (fun _ => rfl) (fun _ => ⟨rfl, rfl⟩) hat
  | check2On j m0 h0 => exact hset j m0 _ _ h0 (fun _ => rfl) (fun _ => ⟨rfl, rfl⟩) hat
  | turn j m0 h0 => exact hset j m0 _ _ h0 (fun _ => rfl) (fun _ => ⟨rfl, rfl⟩) hat
  | leave j m0 h0 => exact hset j m0 _ _ h0 (fun _ => rfl) (fun _ => ⟨rfl, rfl⟩) hat

theorem flag_log (h : Inv cfg s) (e : Nat) : s.sb.flag e = true ↔ Ev.eventSet e ∈ s.sb.log := by
  obtain ⟨as, has⟩ := h.reach
  exact (SB.good has).log.flag e

theorem end_step (i b : Nat) (h : Inv cfg s) (ho : On i b s) (hs : s.step cfg a = some s') (l : List (Nat × MvEv V)) (hl : s'.evs = s.evs ++ l)
    (e : Nat × MvEv V) (hm : e ∈ l) (he : isEnd i e = true) : Ev.eventSet b ∈ s'.sb.log := by
  obtain ⟨⟨m, hm0, hb, hev⟩, -⟩ := ho
  have hfl := fun e => flag_log h e
  have hst := step_to hs
  clear hs
  cases hst with
  | checkEnd j m0 it h0 hp hf =>
    simp only [say, set, List.append_cancel_left_eq] at hl ⊢
    subst hl
    simp only [List.mem_singleton] at hm; subst hm
    have hj : j = i := by cases it <;> simpa [isEnd] using he
    subst hj
    rw [hm0] at h0; injection h0 with h0; subst h0
    rw [hev] at hf; exact (hfl b).1 hf
  | check2End j m0 h0 hp hf =>
    simp only [say, set, List.append_cancel_left_eq] at hl ⊢
    subst hl
    simp only [List.mem_singleton] at hm; subst hm
    have hj : j = i := by simpa [isEnd] using he
    subst hj
    rw [hm0] at h0; injection h0 with h0; subst h0
    rw [hev] at hf; exact (hfl b).1 hf
  | sb a y hla hy =>
    have : l = [] := by simpa using hl
    subst this; cases hm
  | _ =>
    simp only [say, set, List.append_cancel_left_eq, List.self_eq_append_right] at hl
    subst hl
    first
      | cases hm; done
      | (simp only [List.mem_singleton] at hm; subst hm; simp [isEnd] at he; done)

/-- **C168** while no call of `attach_reader` on reader `i` is in progress, its `is_stopped` tells whether the session that it reads from has stopped. -/
theorem C168_is_stopped (i : Nat) (he : MSB.init.exec cfg as = some s) (m : Mover K V) (hm : s.rds i = some m) (hat : ∀ b, s.attaching ≠ some (i, b)) :
    s.sb.flag m.evt = true ↔ Ev.eventSet m.buf ∈ s.sb.log := by
  have hI := inv he
  rw [flag_log hI]
  rcases hI.evt i m hm with h | ⟨b, h⟩
  · rw [h]
  · exact absurd h (hat b)

theorem on_of (i : Nat) (he : MSB.init.exec cfg as = some s) (m : Mover K V) (hm : s.rds i = some m) (hat : ∀ b, s.attaching ≠ some (i, b)) : On i m.buf s := by
  rcases (inv he).evt i m hm with h | ⟨b, h⟩
  · exact ⟨⟨m, hm, rfl, h⟩, hat⟩
  · exact absurd h (hat b)

theorem flag_stays (h : Inv cfg s) (hs : s.step cfg a = some s') (e : Nat) (hf : Ev.eventSet e ∈ s.sb.log) : Ev.eventSet e ∈ s'.sb.log := by
  rw [← flag_log (h.step hs)]
  rw [← flag_log h] at hf
  rcases sb_step hs with e | ⟨x, -, hx, -, -⟩
  · rw [e]; exact hf
  · exact SB.flag_step h.sbInv hx _ hf

/-- **C168** once `attach_reader` has returned, and until it is called on the reader again, the consumer's loop ends by itself, and its `next` raises `StopIteration`,
only after the session to which the reader was moved has stopped: not because the session it came from has, even if the loop was waiting there. -/
theorem C168_ends_with_its_session (i : Nat) (he : MSB.init.exec cfg as = some s1) (m1 : Mover K V) (hm1 : s1.rds i = some m1)
    (hat : ∀ b, s1.attaching ≠ some (i, b)) (hna : MvAct.attach i ∉ as2) (he2 : s1.exec cfg as2 = some s2) :
    ∃ new, s2.evs = s1.evs ++ new ∧ ((∃ e ∈ new, isEnd i e = true) → Ev.eventSet m1.buf ∈ s2.sb.log) := by
  have key : ∃ new, s2.evs = s1.evs ++ new ∧ On i m1.buf s2 ∧ ((∃ e ∈ new, isEnd i e = true) → Ev.eventSet m1.buf ∈ s2.sb.log) := by
    induction as2 using List.reverseRecOn generalizing s2 with
    | nil =>
      simp only [exec, Option.some.injEq] at he2; subst he2
      exact ⟨[], (List.append_nil _).symm, on_of i he m1 hm1 hat, by simp⟩
    | append_singleton as2 a ih =>
      rw [exec_append] at he2
      obtain ⟨s0, h0, he2⟩ := Option.bind_eq_some_iff.1 he2
      simp only [exec] at he2
      split at he2
      swap
      · simp at he2
      rename_i s3 hs
      injection he2 with he2; subst he2
      have he0 : MSB.init.exec cfg (as ++ as2) = some s0 := by rw [exec_append, he]; exact h0
      have hI := inv he0
      obtain ⟨new, hn, ho, hend⟩ := ih (fun hm => hna (by simp [hm])) h0
      obtain ⟨l, hl⟩ := evs_step hs
      refine ⟨new ++ l, by rw [hl, hn, List.append_assoc], on_step i _ hI ho (fun e => hna (by simp [e])) hs, ?_⟩
      rintro ⟨e, hm, he⟩
      rcases List.mem_append.1 hm with hm | hm
      · exact flag_stays hI hs _ (hend ⟨e, hm, he⟩)
      · exact end_step i _ hI ho hs l hl e hm he
  obtain ⟨new, h1, -, h2⟩ := key
  exact ⟨new, h1, h2⟩

/-- In a `for` loop over the reader. -/
def _root_.S2P.MvPC.looping : MvPC → Bool
  | .idle => false
  | .look it | .read it _ | .check it => it
  | .check2 | .sleep | .body => true

/-- How many statements the consumer of reader `i` has done. -/
def goes (i : Nat) (as : List (MvAct K V I)) : Nat := (as.filter fun a => match a with | .go j => j == i | _ => false).length

/-- Statements left before the next look at an empty buffer, but for those spent on items. -/
def weight (buf : Nat) : MvPC → Nat
  | .idle => 0
  | .check _ | .check2 => 1
  | .read _ b => if b = buf then 2 else 5
  | .look _ => 3
  | .sleep | .body => 4

def fuel (cfg : SBCfg K V) (s : MSB K V I) (m : Mover K V) : Nat := weight m.buf m.pc + 3 * (unread cfg.key (s.sb.items m.buf) m.rd.lastItem).length

omit [ReflBEq V] in
theorem unread_shrinks {cfg : SBCfg K V} {items items' : List V} {c : Option V} {vs : List V} (hv : vs <+: unread cfg.key items' c) :
    (unread cfg.key items (vs.getLast?.or c)).length ≤ (unread cfg.key items c).length := by
  cases hg : vs.getLast? with
  | none => exact Nat.le_refl _
  | some z =>
    have hz : z ∈ unread cfg.key [z] c := (mem_unread.1 (hv.subset (List.mem_of_getLast? hg))).2
    refine List.Sublist.length_le ?_
    cases c with
    | none => exact unread_part _ _ _
    | some w =>
      simp only [unread, List.mem_filter, decide_eq_true_eq] at hz
      simp only [Option.or, unread]
      have : items.filter (fun v => decide (cfg.key z < cfg.key v)) =
          (items.filter fun v => decide (cfg.key w < cfg.key v)).filter fun v => decide (cfg.key z < cfg.key v) := by
        rw [List.filter_filter]
        refine List.filter_congr fun v _ => ?_
        by_cases hv : cfg.key z < cfg.key v
        · simp [hv, lt_trans hz.2 hv]
        · simp [hv]
      rw [this]
      exact List.filter_sublist

theorem wind_step (i b : Nat) (h : Inv cfg s) (hk : AllOk cfg i s) (hpk : (cfg.rdCfg i).peek = false) (ho : On i b s) (m : Mover K V) (hm : s.rds i = some m)
    (hl : m.pc.looping = true) (hf : s.sb.flag b = true) (hs : s.step cfg a = some s') (ha : a ≠ .attach i) (ha' : a ≠ .leave i)
    (hst0 : storedIn b s'.sb.log = storedIn b s.sb.log) :
    (∃ l, s'.evs = s.evs ++ l ∧ ((∃ e, (i, .raised e) ∈ l) ∨ (i, .loopDone) ∈ l)) ∨
    ∃ m', s'.rds i = some m' ∧ m'.pc.looping = true ∧ fuel cfg s' m' + goes i [a] ≤ fuel cfg s m := by
  obtain ⟨⟨m0, hm0, hb, hev⟩, hat⟩ := ho
  rw [hm] at hm0; injection hm0 with hm0; subst hm0
  have hst := step_to hs
  have hgn : (∀ j, a = .go j → j ≠ i) → goes i [a] = 0 := by
    intro hg
    cases a with
    | go j => simp [goes, hg j rfl]
    | _ => rfl
  have hother : s'.rds i = s.rds i → s'.sb = s.sb → (∀ j, a = .go j → j ≠ i) → ∃ m', s'.rds i = some m' ∧ m'.pc.looping = true ∧ fuel cfg s' m' + goes i [a] ≤ fuel cfg s m := by
    intro h1 h2 hg
    refine ⟨m, by rw [h1]; exact hm, hl, ?_⟩
    rw [hgn hg, fuel, fuel, h2]
    exact Nat.le_refl _
  have hset : ∀ (j : Nat) (m0 m2 : Mover K V), s.rds j = some m0 → (∀ k, s'.rds k = if k = j then some m2 else s.rds k) → s'.sb = s.sb → (∀ k, a = .go k → k = j) →
      (j = i → m2.pc.looping = true ∧ fuel cfg s m2 + goes i [a] ≤ fuel cfg s m0) →
      ∃ m', s'.rds i = some m' ∧ m'.pc.looping = true ∧ fuel cfg s' m' + goes i [a] ≤ fuel cfg s m := by
    intro j m0 m2 h0 ht hsb hgo h2
    by_cases hj : j = i
    · subst hj
      rw [hm] at h0; injection h0 with h0; subst h0
      refine ⟨m2, by rw [ht, if_pos rfl], (h2 rfl).1, ?_⟩
      have := (h2 rfl).2
      simp only [fuel, hsb] at this ⊢
      exact this
    · exact hother (by rw [ht, if_neg (Ne.symm hj)]) hsb (fun k hk => by rw [hgo k hk]; exact hj)
  have hg1 : goes i [MvAct.go (K := K) (V := V) (I := I) i] = 1 := by simp [goes]
  have hgj : ∀ j k, (MvAct.go j : MvAct K V I) = .go k → k = j := by intro j k e; injection e with e; exact e.symm
  cases hst with
  | sb a y hla hy =>
    right
    refine ⟨m, hm, hl, ?_⟩
    rw [hgn (by simp), Nat.add_zero]
    simp only [fuel, hb]
    refine Nat.add_le_add_left (Nat.mul_le_mul_left 3 (List.Sublist.length_le ?_)) _
    obtain ⟨as, has⟩ := h.reach
    refine unread_sublist cfg.key ?_ _
    cases SB.data_step (SB.good has).inv (SB.good has).bufs hy b with
    | same h1 h2 => rw [h1]; exact List.Sublist.refl _
    | dropped k _ _ h1 h2 => rw [h1]; exact List.drop_sublist _ _
    | stored t v _ _ _ h1 h2 =>
      have h3 := congrArg List.length h2
      have h4 := congrArg List.length hst0
      simp only [List.length_append, List.length_singleton] at h3 h4
      omega
  | makeNone j => exact .inr (hother rfl rfl (by simp))
  | attachNone j => exact .inr (hother rfl rfl (by simp))
  | make j c x _ _ hn =>
    refine .inr (hother ?_ rfl (by simp))
    simp only [set]
    rw [if_neg (by rintro rfl; rw [hm] at hn; cases hn)]
  | attach j m1 c _ _ h1 => exact .inr (hset j m1 _ h1 (fun _ => rfl) rfl (by simp) (fun e => absurd (by rw [e]) ha))
  | attachGo j c m1 x hat1 h1 => exact .inr (hset j m1 _ h1 (fun _ => rfl) rfl (by simp) (fun e => absurd (by rw [hat1, e]) (hat c)))
  | next j m1 h1 hp =>
    exact .inr (hset j m1 _ h1 (fun _ => rfl) rfl (by simp) (fun e => by subst e; rw [hm] at h1; injection h1 with h1; subst h1; rw [hp] at hl; cases hl))
  | loop j m1 h1 hp =>
    exact .inr (hset j m1 _ h1 (fun _ => rfl) rfl (by simp) (fun e => by subst e; rw [hm] at h1; injection h1 with h1; subst h1; rw [hp] at hl; cases hl))
  | leave j m1 h1 hp => exact .inr (hset j m1 _ h1 (fun _ => rfl) rfl (by simp) (fun e => absurd (by rw [e]) ha'))
  | look j m1 it h1 hp =>
    refine .inr (hset j m1 _ h1 (fun _ => rfl) rfl (hgj j) (fun e => ?_))
    subst e; rw [hm] at h1; injection h1 with h1; subst h1
    rw [hp] at hl
    refine ⟨hl, ?_⟩
    simp only [fuel, hp, weight, if_true, hg1]; omega
  | readErr j m1 it c x e rd h1 hp hx hr =>
    by_cases hj : j = i
    · subst hj; exact .inl ⟨_, rfl, .inl ⟨e, by simp⟩⟩
    · exact .inr (hset j m1 _ h1 (fun _ => rfl) rfl (hgj j) (fun e => absurd e hj))
  | readNone j m1 it c x rd h1 hp hx hr =>
    refine .inr (hset j m1 _ h1 (fun _ => rfl) rfl (hgj j) (fun e => ?_))
    subst e; rw [hm] at h1; injection h1 with h1; subst h1
    rw [hp] at hl
    refine ⟨hl, ?_⟩
    obtain ⟨-, k2, k3, -, -⟩ := read_any (view_cons h hx).1 j hpk (hk m hm) hr
    have hle := unread_shrinks (cfg := cfg) (items := s.sb.items m.buf) k2
    simp only [fuel, hp, weight, hg1, k3]
    split <;> omega
  | readItem j m1 it c x r rd h1 hp hx hr hn =>
    refine .inr (hset j m1 _ h1 (fun _ => rfl) rfl (hgj j) (fun e => ?_))
    subst e; rw [hm] at h1; injection h1 with h1; subst h1
    rw [hp] at hl
    simp only [MvPC.looping] at hl; subst hl
    refine ⟨rfl, ?_⟩
    obtain ⟨-, k2, k3, -, k5⟩ := read_any (view_cons h hx).1 j hpk (hk m hm) hr
    have hle := unread_shrinks (cfg := cfg) (items := s.sb.items m.buf) k2
    simp only [fuel, hp, weight, hg1, k3, if_true]
    split
    · rename_i hc
      subst hc
      have hlen : 0 < (outItems (.ok r)).length := List.length_pos_iff.2 (k5 r rfl hn)
      obtain ⟨q, hq⟩ := k2
      have hstr := items_strict h m.buf
      have hit : s.sb.items m.buf = x.cons.ch.buf.items := (view_cons h hx).2
      change outItems (.ok r) ++ q = unread cfg.key x.cons.ch.buf.items m.rd.lastItem at hq
      rw [← hit] at hq
      rw [last_unread hstr _ _ _ hq.symm, ← hq, List.length_append]
      omega
    · omega
  | checkEnd j m1 it h1 hp hff =>
    by_cases hj : j = i
    · subst hj
      rw [hm] at h1; injection h1 with h1; subst h1
      rw [hp] at hl
      simp only [MvPC.looping] at hl; subst hl
      exact .inl ⟨_, rfl, .inr (by simp)⟩
    · exact .inr (hset j m1 _ h1 (fun _ => rfl) rfl (hgj j) (fun e => absurd e hj))
  | check2End j m1 h1 hp hff =>
    by_cases hj : j = i
    · subst hj; exact .inl ⟨_, rfl, .inr (by simp)⟩
    · exact .inr (hset j m1 _ h1 (fun _ => rfl) rfl (hgj j) (fun e => absurd e hj))
  | checkOn j m1 h1 hp hff =>
    refine .inr (hset j m1 _ h1 (fun _ => rfl) rfl (hgj j) (fun e => ?_))
    subst e; rw [hm] at h1; injection h1 with h1; subst h1
    rw [hev, hf] at hff; cases hff
  | checkNone j m1 h1 hp hff =>
    refine .inr (hset j m1 _ h1 (fun _ => rfl) rfl (hgj j) (fun e => ?_))
    subst e; rw [hm] at h1; injection h1 with h1; subst h1
    rw [hev, hf] at hff; cases hff
  | check2On j m1 h1 hp hff =>
    refine .inr (hset j m1 _ h1 (fun _ => rfl) rfl (hgj j) (fun e => ?_))
    subst e; rw [hm] at h1; injection h1 with h1; subst h1
    rw [hev, hf] at hff; cases hff
  | turn j m1 h1 hp =>
    refine .inr (hset j m1 _ h1 (fun _ => rfl) rfl (hgj j) (fun e => ?_))
    subst e; rw [hm] at h1; injection h1 with h1; subst h1
    refine ⟨rfl, ?_⟩
    rcases hp with hp | hp <;> simp only [fuel, hp, weight, hg1] <;> omega

theorem go_enabled (i : Nat) (h : Inv cfg s) (m : Mover K V) (hm : s.rds i = some m) (hp : m.pc ≠ .idle) : (s.step cfg (.go i)).isSome := by
  simp only [step, hm, go]
  cases hc : m.pc with
  | idle => exact absurd hc hp
  | read it b =>
    obtain ⟨x, hx⟩ := Option.isSome_iff_exists.1 (h.pc i m it b hm hc).1
    simp only [hx]
    split <;> rfl
  | check it => simp only; split; · rfl
                · cases it <;> rfl
  | check2 => simp only; split <;> rfl
  | _ => rfl

/-- **C168** the session which the reader has been moved to has stopped, and nothing more is stored in it. Wherever the consumer's `for` loop was when the reader was moved, it
ends after a bounded number of its own statements, and until then it can always go on: it is not left waiting. -/
theorem C168_loop_ends (i : Nat) (hpk : (cfg.rdCfg i).peek = false) (he : MSB.init.exec cfg as = some s1) (m1 : Mover K V) (hm1 : s1.rds i = some m1)
    (hat : ∀ b, s1.attaching ≠ some (i, b)) (hl : m1.pc.looping = true) (hstop : Ev.eventSet m1.buf ∈ s1.sb.log)
    (hna : MvAct.attach i ∉ as2) (hnl : MvAct.leave i ∉ as2) (he2 : s1.exec cfg as2 = some s2)
    (hsto : storedIn m1.buf s2.sb.log = storedIn m1.buf s1.sb.log) :
    ∃ new, s2.evs = s1.evs ++ new ∧ ((i, .loopDone) ∈ new ∨ (∃ e, (i, .raised e) ∈ new) ∨
      (goes i as2 ≤ 5 + 3 * (unread cfg.key (s1.sb.items m1.buf) m1.rd.lastItem).length ∧ (s2.step cfg (.go i)).isSome)) := by
  have key : On i m1.buf s2 ∧ Ev.eventSet m1.buf ∈ s2.sb.log ∧ storedIn m1.buf s1.sb.log <+: storedIn m1.buf s2.sb.log ∧
      ∃ new, s2.evs = s1.evs ++ new ∧ (storedIn m1.buf s2.sb.log = storedIn m1.buf s1.sb.log → (i, .loopDone) ∈ new ∨ (∃ e, (i, .raised e) ∈ new) ∨
        ∃ m2, s2.rds i = some m2 ∧ m2.pc.looping = true ∧ fuel cfg s2 m2 + goes i as2 ≤ fuel cfg s1 m1) := by
    clear hsto
    induction as2 using List.reverseRecOn generalizing s2 with
    | nil =>
      simp only [exec, Option.some.injEq] at he2; subst he2
      exact ⟨on_of i he m1 hm1 hat, hstop, List.prefix_refl _, [], (List.append_nil _).symm, fun _ => .inr (.inr ⟨m1, hm1, hl, Nat.le_refl _⟩)⟩
    | append_singleton as2 a ih =>
      rw [exec_append] at he2
      obtain ⟨s0, h0, he2⟩ := Option.bind_eq_some_iff.1 he2
      simp only [exec] at he2
      split at he2
      swap
      · simp at he2
      rename_i s3 hs
      injection he2 with he2; subst he2
      have he0 : MSB.init.exec cfg (as ++ as2) = some s0 := by rw [exec_append, he]; exact h0
      obtain ⟨hI, hK, -⟩ := reached i hpk he0
      obtain ⟨ho, hset, hsub, new, hn, hend⟩ := ih (fun hm => hna (by simp [hm])) (fun hm => hnl (by simp [hm])) h0
      have hna' : a ≠ .attach i := fun e => hna (by simp [e])
      have hnl' : a ≠ .leave i := fun e => hnl (by simp [e])
      obtain ⟨l, hl'⟩ := evs_step hs
      have hsub' := stored_sub hI hs m1.buf
      refine ⟨on_step i _ hI ho hna' hs, flag_stays hI hs _ hset, hsub.trans hsub', new ++ l, by rw [hl', hn, List.append_assoc], fun hst => ?_⟩
      have hst0 : storedIn m1.buf s0.sb.log = storedIn m1.buf s1.sb.log := by
        refine (hsub.eq_of_length_le ?_).symm
        rw [← hst]; exact hsub'.length_le
      rcases hend hst0 with hd | ⟨e, hd⟩ | ⟨m0, hm0, hl0, hf0⟩
      · exact .inl (by simp [hd])
      · exact .inr (.inl ⟨e, by simp [hd]⟩)
      · rcases wind_step i m1.buf hI hK hpk ho m0 hm0 hl0 ((flag_log hI _).2 hset) hs hna' hnl' (hst.trans hst0.symm) with ⟨l2, e2, hd⟩ | ⟨m3, h1, h2, h3⟩
        · rw [e2] at hl'
          have := List.append_cancel_left hl'
          subst this
          rcases hd with ⟨e, hd⟩ | hd
          · exact .inr (.inl ⟨e, by simp [hd]⟩)
          · exact .inl (by simp [hd])
        · refine .inr (.inr ⟨m3, h1, h2, ?_⟩)
          have : goes i (as2 ++ [a]) = goes i as2 + goes i [a] := by simp [goes]
          omega
  obtain ⟨-, -, -, new, hn, hd⟩ := key
  refine ⟨new, hn, ?_⟩
  rcases hd hsto with hd | hd | ⟨m2, h1, h2, h3⟩
  · exact .inl hd
  · exact .inr (.inl hd)
  · refine .inr (.inr ⟨?_, ?_⟩)
    · have : weight m1.buf m1.pc ≤ 5 := by
        unfold weight
        split <;> first | omega | (split <;> omega)
      simp only [fuel] at h3
      omega
    · have he' : MSB.init.exec cfg (as ++ as2) = some s2 := by rw [exec_append, he]; exact he2
      exact go_enabled i (inv he') m2 h1 (fun e => by rw [e] at h2; cases h2)

/-- **C169** (the part that holds) a loop ends by itself, or `next` raises `StopIteration`, in a step made while no call of `attach_reader` on the reader is in progress: then the
session from which the reader reads has stopped. Not proved, because it is false (`C169_refuted`): the same while such a call is in progress. -/
theorem C169_ends_with_its_session_partial (i : Nat) (he : MSB.init.exec cfg as = some s) (m : Mover K V) (hm : s.rds i = some m) (hat : ∀ b, s.attaching ≠ some (i, b))
    (hs : s.step cfg a = some s') (e : Nat × MvEv V) (hl : s'.evs = s.evs ++ [e]) (hend : isEnd i e = true) : Ev.eventSet m.buf ∈ s.sb.log := by
  have := end_step i m.buf (inv he) (on_of i he m hm hat) hs [e] hl e (by simp) hend
  rcases sb_step hs with h | ⟨x, -, -, -, h⟩
  · rw [h] at this; exact this
  · rw [h] at hl; simp at hl

end MSB
end S2P
