import Verif.Proofs.Simply
import Mathlib.Data.Prod.Lex
/-
C51-C53: mk_stream_buffer.
-/
namespace S2P
open Spec
variable {K D I : Type}

namespace Simp

theorem enumerated_snoc (l : List (Option D)) (d : Option D) : enumerated (l ++ [d]) = enumerated l ++ [.pair l.length d] := by
  simp [enumerated, List.mapIdx_append]

/-- The data that reach the buffer's thread, given the reads of `read_stream`. -/
def handed (en : Bool) (l : List (Option D)) : List (SItem D) := if en then enumerated l else l.filterMap (·.map .raw)

theorem handed_snoc (en : Bool) (l : List (Option D)) (d : Option D) : handed en (l ++ [d]) = handed en l ++ (simpRead en l.length d).toList := by
  unfold handed simpRead
  cases en
  · cases d <;> simp
  · simp [enumerated_snoc]

section
variable [LinearOrder K] [BEq D] [ReflBEq D] {en : Bool} {cfg : SBCfg K (SItem D)} {s s' : Simp K D I} {xs : List (SimpAct K D I)}

/-- Reads are numbered per session. -/
structure Num (en : Bool) (sb : SB K (SItem D) I) (ri : Nat) (raw : Nat → List (Option D)) : Prop where
  data : ∀ t, dataRead t sb.log = handed en (raw t)
  idx : ∀ t, (sb.thr t).idle = false → ri = (raw t).length
  young : ∀ t, sb.thr t = .unborn ∨ sb.thr t = .fresh → raw t = []
  late : sb.start = some .opening ∨ sb.start = some .mkBuf ∨ sb.start = some .launch → ri = 0

omit [ReflBEq D] in
set_option maxHeartbeats 8000000 in
theorem Num.act {sb sb' : SB K (SItem D) I} {ri ri' : Nat} {raw : Nat → List (Option D)} {a : SBAct K (SItem D) I} (h : Num en sb ri raw)
    (hi : sb.Inv) (h2 : sb.Inv2) (h0 : a.notRead = true) (hs : sb.step cfg a = some sb')
    (hr1 : a = .startGo ∧ sb'.start = some .opening → ri' = 0)
    (hr2 : ¬(a = .startGo ∧ sb'.start = some .opening) → ri' = ri) (hwipe : a = .startGo → sb.start = some .wipe → ∀ t, (sb.thr t).idle = true) :
    Num en sb' ri' raw := by
  have hp := hi.ph
  have hq := h2.quiet
  have hn := hi.noThr
  clear hi h2
  obtain ⟨k1, k2, k3, k4⟩ := h
  have hst := SB.step_to hs
  clear hs
  cases hst
  all_goals
    try simp only [SB.say, SB.setThr, SB.setBuf, SB.setEvent, SB.setNext, SB.setDrop, SB.setInfo, SB.newSess, SB.running] at *
  all_goals
    try simp only [dataRead_append] at *
  all_goals
    refine ⟨?_, ?_, ?_, ?_⟩ <;> dsimp only
  all_goals first
    | assumption
    | grind [SB.PhaseOk, TPC.idle, StartPC.late, SBAct.notRead, dataRead]

omit [ReflBEq D] in
theorem Num.read {sb sb' : SB K (SItem D) I} {ri : Nat} {raw : Nat → List (Option D)} {t : Nat} {d : Option D} (h : Num en sb ri raw)
    (hi : sb.Inv) (h2 : sb.Inv2) (hs : sb.step cfg (.readOk t (simpRead en ri d)) = some sb') :
    Num en sb' (ri + 1) (fun j => if j = t then raw j ++ [d] else raw j) := by
  obtain ⟨k1, k2, k3, k4⟩ := h
  have hq := h2.quiet
  have hsolo := h2.solo
  have hst := SB.step_to hs
  clear hs hi h2
  generalize hw : simpRead en ri d = w at hst
  have hr : sb.thr t = .reading := by cases hst <;> assumption
  have hlen : ri = (raw t).length := k2 t (by rw [hr]; rfl)
  have hlog : sb'.log = sb.log ++ [.read t w] := by cases hst <;> simp_all [SB.say, SB.setThr]
  have hstart : sb'.start = sb.start := by cases hst <;> simp [SB.say, SB.setThr]
  have hthr : ∀ u, u ≠ t → sb'.thr u = sb.thr u := by intro u hu; cases hst <;> simp [SB.say, SB.setThr, hu]
  have hthr' : sb'.thr t ≠ .unborn ∧ sb'.thr t ≠ .fresh := by cases hst <;> simp [SB.say, SB.setThr]
  refine ⟨?_, ?_, ?_, ?_⟩
  · intro u
    rw [hlog, dataRead_append, k1]
    by_cases hu : u = t
    · subst hu
      rw [if_pos rfl, handed_snoc, ← hlen, hw]
      congr 1
      cases w <;> simp [dataRead]
    · rw [if_neg hu]
      cases w <;> simp [dataRead, Ne.symm hu]
  · intro u hu
    by_cases hut : u = t
    · subst hut; simp [hlen]
    · rw [hthr u hut] at hu
      have h1 := hsolo u hu
      have h2 := hsolo t (by rw [hr]; rfl)
      omega
  · intro u hu
    by_cases hut : u = t
    · subst hut; simp [hthr'.1, hthr'.2] at hu
    · rw [hthr u hut] at hu; simp only [if_neg hut]; exact k3 u hu
  · intro hl
    rw [hstart] at hl
    have : ∀ p, sb.start = some p → p.late = true → False := by
      intro p hp hp'
      have := hq p hp hp' t
      rw [hr] at this; simp [TPC.idle] at this
    rcases hl with hl | hl | hl <;> exact (this _ hl rfl).elim

/-- Invariants of settled executions. -/
structure Acc (en : Bool) (cfg : SBCfg K (SItem D)) (s : Simp K D I) : Prop where
  real : RealS cfg s.sb
  num : Num en s.sb s.readIdx s.raw
  kept : ∀ b, ∀ v ∈ s.sb.items b, v ∈ storedIn b s.sb.log

theorem kept_step {sb sb' : SB K (SItem D) I} {a : SBAct K (SItem D) I} (hg : sb.Good cfg) (hs : sb.step cfg a = some sb')
    (h : ∀ b, ∀ v ∈ sb.items b, v ∈ storedIn b sb.log) (b : Nat) : ∀ v ∈ sb'.items b, v ∈ storedIn b sb'.log := by
  have hn : ∀ l : List (SItem D), ∀ v ∈ newest cfg.maxlen l, v ∈ l := by
    intro l v hv
    unfold newest at hv
    cases hm : cfg.maxlen with
    | none => simpa [hm] using hv
    | some m => rw [hm] at hv; exact List.mem_of_mem_drop hv
  cases SB.data_step hg.inv hg.bufs hs b with
  | same h1 h2 => rw [h1, h2]; exact h b
  | stored t v h0 h0' hm h1 h2 =>
    rw [h1, h2]
    intro w hw
    rcases List.mem_append.1 (hn _ w hw) with hw | hw
    · exact List.mem_append_left _ (h b w hw)
    · exact List.mem_append_right _ hw
  | dropped k ha hb h1 h2 =>
    rw [h1, h2]; exact fun w hw => h b w (List.mem_of_mem_drop hw)

theorem Acc.init : (Simp.init : Simp K D I).Acc en cfg :=
  ⟨⟨[], rfl, trivial⟩, ⟨fun t => by cases en <;> rfl, fun t h => by simp [Simp.init, SB.init, TPC.idle] at h, fun _ _ => rfl, fun _ => rfl⟩,
    fun b v h => by simp [Simp.init, SB.init, SB.items] at h⟩

theorem Acc.step {x : SimpAct K D I} (h : s.Acc en cfg) (hs : s.step en cfg x = some s') (hset : s.SettledAt x) : s'.Acc en cfg := by
  have hb := below hs
  have hreal' := h.real.step hb hset
  obtain ⟨bs, he, hbs⟩ := h.real
  have hg := SB.good he
  have h2 := (SB.inv2_exec he hbs).2
  refine ⟨hreal', ?_, ?_⟩
  · cases hb with
    | none h1 h2 h3 => rw [h1, h2, h3]; exact h.num
    | act a h0 h0' h1 h3 h4 => rw [h4]; exact h.num.act hg.inv h2 h0 h1 h3.1 h3.2 (fun ha hw => hset (h0' ha) hw)
    | read t d h1 h3 h4 => rw [h3, h4]; exact h.num.read hg.inv h2 h1
  · cases hb with
    | none h1 => rw [h1]; exact h.kept
    | act a h0 h0' h1 => exact kept_step hg h1 h.kept
    | read t d h1 => exact kept_step hg h1 h.kept

theorem acc (he : init.exec en cfg xs = some s) (hset : (init : Simp K D I).Settled en cfg xs) : s.Acc en cfg :=
  exec_ind_settled (P := fun s => s.Acc en cfg) (fun _ _ _ _ h hs hset => h.step hs hset) Acc.init he hset

/-! ### C51 -/

omit [LinearOrder K] [BEq D] [ReflBEq D] in
theorem mem_snoc_ne {e f : Ev (SItem D) I} {l : List (Ev (SItem D) I)} (h : e ∈ l ++ [f]) (hne : e ≠ f) : e ∈ l := by
  rcases List.mem_append.1 h with h | h
  · exact h
  · exact (hne (List.mem_singleton.1 h)).elim

omit [ReflBEq D] in
theorem refused_origin {sb sb' : SB K (SItem D) I} {a : SBAct K (SItem D) I} (hs : sb.step cfg a = some sb') (t b : Nat) (v : SItem D) (e : PyErr)
    (h : Ev.refused t b v e ∈ sb'.log) :
    Ev.refused t b v e ∈ sb.log ∨ a.isKeyRaise = true ∨ (a = .thr t ∧ sb.thr t = .storing b v ∧ Ev.refused t b v e ∈ sb'.log) := by
  have hst := SB.step_to hs
  clear hs
  cases hst
  all_goals try simp only [SB.say, SB.setThr, SB.setBuf, SB.setEvent, SB.setNext, SB.setDrop, SB.setInfo, SB.newSess, SB.running] at *
  all_goals first
    | exact .inl h
    | exact .inr (.inl rfl)
    | grind

/-- The append of no item raises. -/
def NoRefusal (s : SB K (SItem D) I) : Prop := ∀ t b v e, Ev.refused t b v e ∉ s.log

theorem mem_enumerated {l : List (Option D)} {v : SItem D} : v ∈ enumerated l ↔ ∃ i, ∃ h : i < l.length, v = .pair i l[i] := by
  simp only [enumerated, List.mem_mapIdx]
  constructor
  · rintro ⟨i, h, rfl⟩; exact ⟨i, h, rfl⟩
  · rintro ⟨i, h, rfl⟩; exact ⟨i, h, rfl⟩

theorem no_refusal_step {x : SimpAct K D I} (hkey : ∀ i j d d', i < j → cfg.key (.pair i d) < cfg.key (.pair j d')) (h : s.Acc true cfg)
    (hn : NoRefusal s.sb) (hs : s.step true cfg x = some s') (hx : ∀ a, x = .sb a → a.isKeyRaise = false) : NoRefusal s'.sb := by
  obtain ⟨bs, he, hbs⟩ := h.real
  have hC := SB.C40_stored_in_order_partial he hbs
  have h2 := (SB.inv2_exec he hbs).2
  -- an item about to be stored may be appended
  have hmay : ∀ t b v, s.sb.thr t = .storing b v → mayAppend cfg.key (s.sb.items b) v = true := by
    intro t b v ht
    obtain rfl := h2.own t b v ht
    have h1 := (hC b).1
    have hr : refusedBy b s.sb.log = [] := by
      simp only [refusedBy, List.filterMap_eq_nil_iff]
      intro e he'
      cases e <;> simp
      rename_i t' b' v' e'
      exact (hn t' b' v' e' he').elim
    rw [h.num.data b, hr, ht] at h1
    simp only [handed, if_true, TPC.inHand, List.append_nil] at h1
    have hlen : (enumerated (s.raw b)).length = (s.raw b).length := by simp [enumerated]
    -- v is the last one read
    have hv : v = .pair ((s.raw b).length - 1) ((s.raw b)[(s.raw b).length - 1]?.join) ∧ 0 < (s.raw b).length := by
      have hl : (s.raw b).length = (storedIn b s.sb.log).length + 1 := by rw [← hlen, h1]; simp
      have hg : (enumerated (s.raw b))[(storedIn b s.sb.log).length]? = some v := by rw [h1]; simp
      refine ⟨?_, by omega⟩
      have hlt : (storedIn b s.sb.log).length < (s.raw b).length := by omega
      simp only [enumerated, List.getElem?_mapIdx, List.getElem?_eq_getElem hlt, Option.map_some, Option.some.injEq] at hg
      rw [hl]; simp only [Nat.add_sub_cancel, List.getElem?_eq_getElem hlt, Option.join_some]
      exact hg.symm
    have hmem : ∀ w ∈ s.sb.items b, ∃ i d, w = .pair i d ∧ i < (s.raw b).length - 1 := by
      intro w hw
      have hw' := h.kept b w hw
      obtain ⟨i, hi, hwi⟩ := List.getElem_of_mem hw'
      have hlt : i < (s.raw b).length := by rw [← hlen, h1]; simp; omega
      have hlt2 : i < (enumerated (s.raw b)).length := by omega
      have : (enumerated (s.raw b))[i]'hlt2 = w := by
        rw [← hwi]
        simp only [h1]
        exact List.getElem_append_left hi
      refine ⟨i, (s.raw b)[i], ?_, ?_⟩
      · rw [← this]; simp [enumerated]
      · have : (s.raw b).length = (storedIn b s.sb.log).length + 1 := by rw [← hlen, h1]; simp
        omega
    unfold mayAppend
    split
    · rfl
    · rename_i w hw
      obtain ⟨i, d, rfl, hi⟩ := hmem w (List.mem_of_getLast? hw)
      rw [hv.1]
      exact decide_eq_true (hkey _ _ _ _ hi)
  have hstep : ∀ a, s.sb.step cfg a = some s'.sb → a.isKeyRaise = false → NoRefusal s'.sb := by
    intro a ha hk t b v e hmem
    rcases refused_origin ha t b v e hmem with h | h | ⟨rfl, hst, _⟩
    · exact hn t b v e h
    · rw [hk] at h; simp at h
    · obtain ⟨s2, h3, -, h4⟩ := SB.C40_decision he t b v hst
      rw [ha] at h3
      obtain rfl := Option.some.inj h3
      rw [hmay t b v hst] at h4
      rcases h4 with ⟨-, hlog, -⟩ | ⟨h, -⟩
      · rw [hlog] at hmem
        exact hn t b v e (mem_snoc_ne hmem (by simp))
      · simp at h
  cases below hs with
  | none h1 => rw [h1]; exact hn
  | act a h0 h0' h1 h3 h4 hkr =>
    refine hstep a h1 ?_
    cases hka : a.isKeyRaise with
    | false => rfl
    | true => rw [← hka]; exact hx a (hkr hka)
  | read t d h1 => exact hstep _ h1 rfl

/-- **C82**, settled executions: with `enumerate_data` and a key that is increasing in the index (see `C51_first_component`, `C51_default_key`), whatever
`read_stream` returns, and whatever consumers and the body do: in every session `t`, the `n`-th read `d` of `read_stream` is stored as `(n, d)`, in order, but
for the one that the thread has in its hands; and no append is rejected. `keyRaise`: the user's key function or a comparison of keys raises.
Missing: executions that are not settled, see `C82_refuted`. -/
theorem C82_restarts_partial (hkey : ∀ i j d d', i < j → cfg.key (.pair i d) < cfg.key (.pair j d')) (he : init.exec true cfg xs = some s)
    (hset : (init : Simp K D I).Settled true cfg xs) (hk : ∀ a, .sb a ∈ xs → a.isKeyRaise = false) :
    (∀ t, storedIn t s.sb.log ++ (s.sb.thr t).inHand = enumerated (s.raw t)) ∧ ∀ t b v e, Ev.refused t b v e ∉ s.sb.log := by
  have h : s.Acc true cfg ∧ NoRefusal s.sb := by
    refine exec_ind_settled (P := fun s => s.Acc true cfg ∧ NoRefusal s.sb) (fun s x s' hx h hs hset => ?_) ⟨Acc.init, ?_⟩ he hset
    · exact ⟨h.1.step hs hset, no_refusal_step hkey h.1 h.2 hs (fun a ha => hk a (ha ▸ hx))⟩
    · intro t b v e h; simp [Simp.init, SB.init] at h
  refine ⟨fun t => ?_, h.2⟩
  obtain ⟨bs, hb, hbs⟩ := h.1.real
  have hr : refusedBy t s.sb.log = [] := by
    simp only [refusedBy, List.filterMap_eq_nil_iff]
    intro e he'
    cases e <;> simp
    rename_i t' b' v' e'
    exact (h.2 t' b' v' e' he').elim
  have := (SB.C40_stored_in_order_partial hb hbs t).1
  rw [h.1.num.data t, hr, List.append_nil] at this
  simpa [handed] using this.symm

omit [ReflBEq D] in
theorem stays_idle {sb sb' : SB K (SItem D) I} {a : SBAct K (SItem D) I} (hs : sb.step cfg a = some sb') (ha : a.isStart = false) :
    (sb.start = none → sb'.start = none ∧ sb'.n = sb.n) ∧
    (sb.start ≠ none → (∀ t, (sb.thr t).idle = true) → sb'.start ≠ none → ∀ t, (sb'.thr t).idle = true) := by
  have hst := SB.step_to hs
  clear hs
  cases hst
  all_goals try simp only [SB.say, SB.setThr, SB.setBuf, SB.setEvent, SB.setNext, SB.setDrop, SB.setInfo, SB.newSess, SB.running] at *
  all_goals grind [TPC.idle, SBAct.isStart]

omit [LinearOrder K] [ReflBEq D] in
theorem pc_before [LinearOrder K] {x : SimpAct K D I} (hs : s.step en cfg x = some s') (hp : s'.pc = .before) : s.pc = .before ∧ x ≠ .enter := by
  unfold step at hs
  cases x <;> dsimp only at hs
  all_goals
    try split at hs
  all_goals
    try split at hs
  all_goals
    simp only [Option.some.injEq, Option.map_eq_some_iff, reduceCtorEq] at hs
    try (first | subst hs | (obtain ⟨y, hy, rfl⟩ := hs))
  all_goals first
    | exact ⟨hp, by simp⟩
    | cases hp

/-- Nothing runs before the `with` statement starts the stream, and then only the one `start()`. -/
def Once (cfg : SBCfg K (SItem D)) (s : Simp K D I) : Prop :=
  Real cfg s.sb ∧ (s.pc = .before → s.sb.n = 0 ∧ s.sb.start = none) ∧ (s.sb.start ≠ none → ∀ t, (s.sb.thr t).idle = true)

omit [ReflBEq D] in
theorem Once.step {x : SimpAct K D I} (hx : x ≠ .sb .start) (h : s.Once cfg) (hs : s.step en cfg x = some s') : s'.Once cfg := by
  obtain ⟨hr, h1, h2⟩ := h
  have hb := below hs
  obtain ⟨bs, hbs⟩ := id hr
  have hnt := (SB.inv_exec hbs).noThr
  have key : ∀ a, s.sb.step cfg a = some s'.sb → (a.isStart = true → x = .enter) → s'.Once cfg := by
    intro a ha hst
    refine ⟨hr.step hb, fun hp => ?_, fun hn => ?_⟩
    · obtain ⟨hp', hne⟩ := pc_before hs hp
      have hia : a.isStart = false := by
        cases h : a.isStart
        · rfl
        · exact (hne (hst h)).elim
      obtain ⟨h3, h4⟩ := h1 hp'
      have := (stays_idle ha hia).1 h4
      exact ⟨this.2.trans h3, this.1⟩
    · by_cases hia : a.isStart = true
      · have hxe := hst hia
        subst hxe
        have hpc : s.pc = .before := by
          by_contra hne
          unfold Simp.step at hs
          dsimp only at hs
          rw [if_neg hne] at hs
          simp at hs
        have h0 := h1 hpc
        have hthr : s'.sb.thr = s.sb.thr := by
          cases a <;> simp only [SBAct.isStart, Bool.false_eq_true] at hia
          simp only [SB.step] at ha
          rw [if_pos h0.2] at ha
          rw [← Option.some.inj ha]
        intro t
        rw [hthr, hnt t (by omega)]; rfl
      · have hia : a.isStart = false := by simpa using hia
        obtain ⟨h3, h4⟩ := stays_idle ha hia
        by_cases hsn : s.sb.start = none
        · exact (hn (h3 hsn).1).elim
        · exact h4 hsn (h2 hsn) hn
  have hr' := hr.step hb
  cases hb with
  | none g1 g2 g3 =>
    exact ⟨hr', fun hp => g1 ▸ h1 (pc_before hs hp).1, fun hn => by rw [g1] at hn ⊢; exact h2 hn⟩
  | act a g0 g0' g1 g2 g3 g4 g5 =>
    refine key a g1 fun hia => ?_
    have : a = .start := by cases a <;> simp_all [SBAct.isStart]
    exact (g5 this).resolve_right hx
  | read t d g1 => exact key _ g1 (by simp [SBAct.isStart])

omit [ReflBEq D] in
/-- Without a second `start()` by the body every execution is settled. -/
theorem settled_of_no_restart (hn : SimpAct.sb SBAct.start ∉ xs) : (init : Simp K D I).Settled en cfg xs := by
  have key : ∀ (xs : List (SimpAct K D I)) (s : Simp K D I), .sb .start ∉ xs → s.Once cfg → s.Settled en cfg xs := by
    intro xs
    induction xs with
    | nil => intros; trivial
    | cons x xs ih =>
      intro s hx hO
      simp only [List.mem_cons, not_or] at hx
      exact ⟨fun _ hw => hO.2.2 (by simp [hw]), fun s' hs => ih s' hx.2 (hO.step (Ne.symm hx.1) hs)⟩
  exact key xs _ hn ⟨⟨[], rfl⟩, fun _ => ⟨rfl, rfl⟩, fun h => by simp [Simp.init, SB.init] at h⟩

/-- **C51**, when the body does not restart the stream: every execution, every schedule. -/
theorem C51_never_rejects (hkey : ∀ i j d d', i < j → cfg.key (.pair i d) < cfg.key (.pair j d'))
    (he : init.exec true cfg xs = some s) (hn : SimpAct.sb SBAct.start ∉ xs) (hk : ∀ a, .sb a ∈ xs → a.isKeyRaise = false) :
    (∀ t, storedIn t s.sb.log ++ (s.sb.thr t).inHand = enumerated (s.raw t)) ∧ ∀ t b v e, Ev.refused t b v e ∉ s.sb.log :=
  C82_restarts_partial hkey he (settled_of_no_restart hn) hk

/-! ### C52 -/

/-- **C52** for `enumerate_data=False`: the data stored by session `t` and in its hands and refused are exactly what `read_stream` returned other than
`None`. (Settled executions: `C76_refuted`.) -/
theorem C52_none_skipped_partial (he : init.exec false cfg xs = some s) (hset : (init : Simp K D I).Settled false cfg xs) (t : Nat) :
    storedIn t s.sb.log ++ (s.sb.thr t).inHand ++ refusedBy t s.sb.log = (s.raw t).filterMap (·.map .raw) := by
  have h := acc he hset
  obtain ⟨bs, hb, hbs⟩ := h.real
  rw [← (SB.C40_stored_in_order_partial hb hbs t).1, h.num.data t]
  simp [handed]

/-- **C52** is false for `enumerate_data=True`, the default: every `None` that `read_stream` returned is handed to the buffer as a datum, `(n, None)`:
it is stored, in the hands of the thread, or refused. -/
theorem C52_refuted (he : init.exec true cfg xs = some s) (hset : (init : Simp K D I).Settled true cfg xs) (t n : Nat)
    (hn : (s.raw t)[n]? = some none) :
    SItem.pair n none ∈ storedIn t s.sb.log ++ (s.sb.thr t).inHand ++ refusedBy t s.sb.log := by
  have h := acc he hset
  obtain ⟨bs, hb, hbs⟩ := h.real
  rw [← (SB.C40_stored_in_order_partial hb hbs t).1, h.num.data t]
  simp only [handed, if_true, mem_enumerated]
  obtain ⟨hlt, hv⟩ := List.getElem?_eq_some_iff.1 hn
  exact ⟨n, hlt, by rw [hv]⟩

/-! ### C53 -/

/-- What the `with` statement knows. -/
structure WInv (cfg : SBCfg K (SItem D)) (s : Simp K D I) : Prop where
  real : Real cfg s.sb
  begun : s.pc ≠ .before → s.sb.start = none → 0 < s.sb.n
  over : ∀ exc, s.pc = .stopping exc ∨ s.pc = .done exc → s.sb.start = none ∧ s.sb.flag (s.sb.n - 1) = true
  busy : ∀ exc, s.pc = .stopping exc → 0 < s.sb.stopping
  wlog0 : s.pc = .before ∨ s.pc = .starting ∨ s.pc = .body → s.wlog = []
  wlog1 : ∀ exc, s.pc = .stopping exc → s.wlog = [.bodyEnded exc] ∨ ∃ e, exc = some e ∧ s.wlog = [.startRaised e]
  wlog2 : ∀ exc, s.pc = .done exc → s.wlog = [.bodyEnded exc, .left exc] ∨ ∃ e, exc = some e ∧ s.wlog = [.startRaised e, .left exc]

omit [ReflBEq D] in
theorem sb_facts {sb sb' : SB K (SItem D) I} {a : SBAct K (SItem D) I} (hi : sb.Inv) (hs : sb.step cfg a = some sb') :
    (sb.start ≠ none → sb'.start = none → 0 < sb'.n) ∧ (a.isStart = true → sb'.start ≠ none) ∧ sb.n ≤ sb'.n ∧
    (sb.flag (sb.n - 1) = true → sb'.flag (sb.n - 1) = true) ∧
    (a.isStopEnd = false → sb.stopping ≤ sb'.stopping) ∧ (a.isStopEnd = true → sb'.stopping = sb.stopping - 1) := by
  have hph := hi.ph
  have hst := SB.step_to hs
  clear hs hi
  cases hst
  all_goals try simp only [SB.say, SB.setThr, SB.setBuf, SB.setEvent, SB.setNext, SB.setDrop, SB.setInfo, SB.newSess, SB.running] at *
  all_goals grind [SB.PhaseOk, SBAct.isStart, SBAct.isStopEnd]

omit [ReflBEq D] in
/-- `stop()` after a `start()`. -/
theorem stop_step {sb : SB K (SItem D) I} (hi : sb.Inv) (hl : sb.start = none) (hn : 0 < sb.n) :
    ∃ sb', sb.step cfg .stop = some sb' ∧ sb'.start = none ∧ sb'.n = sb.n ∧ sb'.flag (sb.n - 1) = true ∧ 0 < sb'.stopping := by
  have hph := hi.ph
  rw [hl] at hph
  simp only [SB.PhaseOk] at hph
  have he : sb.stopEvent = some (sb.n - 1) := by
    rcases hph with h | h
    · omega
    · exact h.1
  refine ⟨_, by simp only [SB.step, he]; rfl, ?_, ?_, ?_, ?_⟩
  · simpa [SB.say, SB.setEvent] using hl
  · simp [SB.say, SB.setEvent]
  · simp [SB.say, SB.setEvent]
  · simp [SB.say, SB.setEvent]

omit [ReflBEq D] in
theorem WInv.step {x : SimpAct K D I} (h : s.WInv cfg) (hs : s.step en cfg x = some s') : s'.WInv cfg := by
  have hreal := h.real.step (below hs)
  obtain ⟨bs, hbs⟩ := h.real
  have hi := SB.inv_exec hbs
  unfold Simp.step at hs
  cases x with
  | enter =>
    dsimp only at hs
    split at hs
    · rename_i hpc
      obtain ⟨y, hy, rfl⟩ := Option.map_eq_some_iff.1 hs
      have hf := sb_facts hi hy
      exact ⟨hreal, fun _ hl => (hf.2.1 rfl hl).elim, by simp, by simp, fun _ => h.wlog0 (.inl hpc), by simp, by simp⟩
    · simp at hs
  | entered e =>
    dsimp only at hs
    split at hs
    · rename_i hpc
      have hn := h.begun (by simp [hpc.1]) hpc.2
      split at hs
      · simp only [Option.some.injEq] at hs
        subst hs
        exact ⟨hreal, fun _ _ => hn, by simp, by simp, fun _ => h.wlog0 (.inr (.inl hpc.1)), by simp, by simp⟩
      · obtain ⟨y, hy, rfl⟩ := Option.map_eq_some_iff.1 hs
        obtain ⟨z, hz, h1, h2, h3, h4⟩ := stop_step (cfg := cfg) hi hpc.2 hn
        rw [hy] at hz
        obtain rfl := Option.some.inj hz
        refine ⟨hreal, fun _ _ => by simp [h2, hn], fun exc _ => ⟨h1, by simpa [h2] using h3⟩, fun _ _ => h4, by simp, ?_, by simp⟩
        intro exc hexc
        simp only [WithPC.stopping.injEq] at hexc
        subst hexc
        exact .inr ⟨e, rfl, by simp [h.wlog0 (.inr (.inl hpc.1))]⟩
    · simp at hs
  | leave exc =>
    dsimp only at hs
    split at hs
    · rename_i hpc
      have hn := h.begun (by simp [hpc.1]) hpc.2
      obtain ⟨y, hy, rfl⟩ := Option.map_eq_some_iff.1 hs
      obtain ⟨z, hz, h1, h2, h3, h4⟩ := stop_step (cfg := cfg) hi hpc.2 hn
      rw [hy] at hz
      obtain rfl := Option.some.inj hz
      refine ⟨hreal, fun _ _ => by simp [h2, hn], fun exc _ => ⟨h1, by simpa [h2] using h3⟩, fun _ _ => h4, by simp, ?_, by simp⟩
      intro exc' hexc
      simp only [WithPC.stopping.injEq] at hexc
      subst hexc
      exact .inl (by simp [h.wlog0 (.inr (.inr hpc.1))])
    · simp at hs
  | leftStop =>
    dsimp only at hs
    split at hs
    · rename_i exc hpc
      obtain ⟨y, hy, rfl⟩ := Option.map_eq_some_iff.1 hs
      have hf := sb_facts hi hy
      have ho := h.over exc (.inl hpc)
      have hst := (stays_idle hy rfl).1 ho.1
      refine ⟨hreal, fun _ _ => ?_, fun _ _ => ⟨hst.1, ?_⟩, by simp, by simp, by simp, ?_⟩
      · show 0 < y.n
        rw [hst.2]; exact h.begun (by simp [hpc]) ho.1
      · show y.flag (y.n - 1) = true
        rw [hst.2]; exact hf.2.2.2.1 ho.2
      · intro exc' hexc
        simp only [WithPC.done.injEq] at hexc
        subst hexc
        rcases h.wlog1 _ hpc with hw | ⟨e, he, hw⟩
        · exact .inl (by simp [hw])
        · exact .inr ⟨e, he, by simp [hw]⟩
    · simp at hs
  | read t d =>
    dsimp only at hs
    obtain ⟨y, hy, rfl⟩ := Option.map_eq_some_iff.1 hs
    have hf := sb_facts hi hy
    have hst := (stays_idle hy rfl).1
    refine ⟨hreal, fun hp hl => ?_, fun exc hp => ?_, fun exc hp => Nat.lt_of_lt_of_le (h.busy exc hp) (hf.2.2.2.2.1 rfl), h.wlog0, h.wlog1, h.wlog2⟩
    · by_cases hsn : s.sb.start = none
      · exact Nat.lt_of_lt_of_le (h.begun hp hsn) hf.2.2.1
      · exact hf.1 hsn hl
    · have ho := h.over exc hp
      refine ⟨(hst ho.1).1, ?_⟩
      show y.flag (y.n - 1) = true
      rw [(hst ho.1).2]; exact hf.2.2.2.1 ho.2
  | sb a =>
    dsimp only at hs
    split at hs
    · rename_i hc
      obtain ⟨y, hy, rfl⟩ := Option.map_eq_some_iff.1 hs
      have hf := sb_facts hi hy
      refine ⟨hreal, fun hp hl => ?_, fun exc hp => ?_, fun exc hp => ?_, h.wlog0, h.wlog1, h.wlog2⟩
      · by_cases hsn : s.sb.start = none
        · exact Nat.lt_of_lt_of_le (h.begun hp hsn) hf.2.2.1
        · exact hf.1 hsn hl
      · have ho := h.over exc hp
        have hia : a.isStart = false := by
          cases hia : a.isStart
          · rfl
          · have := hc.2.1 hia
            rw [this] at hp; simp at hp
        have hst := (stays_idle hy hia).1
        refine ⟨(hst ho.1).1, ?_⟩
        show y.flag (y.n - 1) = true
        rw [(hst ho.1).2]; exact hf.2.2.2.1 ho.2
      · have hb := h.busy exc hp
        show 0 < y.stopping
        cases hse : a.isStopEnd
        · exact Nat.lt_of_lt_of_le hb (hf.2.2.2.2.1 hse)
        · have hpc : s.pc = .stopping exc := hp
          have := hc.2.2 hse (by rw [hpc]; rfl)
          rw [hf.2.2.2.2.2 hse]; omega
    · simp at hs

omit [ReflBEq D] in
theorem winv (he : init.exec en cfg xs = some s) : s.WInv cfg :=
  exec_ind (P := fun s : Simp K D I => s.WInv cfg) (fun _ _ _ _ h hs => h.step hs)
    ⟨⟨[], rfl⟩, fun h => (h rfl).elim, fun exc h => by simp [Simp.init] at h, fun exc h => by simp [Simp.init] at h, fun _ => rfl,
      fun exc h => by simp [Simp.init] at h, fun exc h => by simp [Simp.init] at h⟩ he

omit [ReflBEq D] in
/-- **C53**: whatever `open_stream`, `info`, `read_stream` and the body do, and in any schedule: when the `with` statement has ended, by whatever route, there is
a stop event, every stop event ever made is set (so `is_running` is False and every reader's `is_stopped` is True), and the exception it ended with is that of
the body if it ended (none if it ended normally), or of `start()` if that raised. -/
theorem C53_always_stopped (he : init.exec en cfg xs = some s) (exc : Option PyErr) (hd : s.pc = .done exc) :
    s.sb.running = false ∧ s.sb.stopEvent ≠ none ∧ (∀ b c, s.sb.view b = some c → c.stopped = true) ∧
    (s.wlog = [.bodyEnded exc, .left exc] ∨ ∃ e, exc = some e ∧ s.wlog = [.startRaised e, .left exc]) := by
  have h := winv he
  obtain ⟨bs, hbs⟩ := h.real
  have hi := SB.inv_exec hbs
  have ho := h.over exc (.inr hd)
  have hn := h.begun (by simp [hd]) ho.1
  have hph := hi.ph
  rw [ho.1] at hph
  simp only [SB.PhaseOk] at hph
  have hse : s.sb.stopEvent = some (s.sb.n - 1) := by
    rcases hph with h | h
    · omega
    · exact h.1
  refine ⟨by simp [SB.running, hse, ho.2], by simp [hse], fun b c hv => ?_, h.wlog2 exc hd⟩
  simp only [SB.view, Option.map_eq_some_iff] at hv
  obtain ⟨x, hx, rfl⟩ := hv
  show s.sb.flag x.evt = true
  rw [hi.evt b x hx]
  have hb : b < s.sb.n := by
    by_contra hb
    rw [hi.noBuf b (by omega)] at hx; simp at hx
  by_cases hb1 : b + 1 < s.sb.n
  · exact hi.oldFlag b hb1
  · have : b = s.sb.n - 1 := by omega
    rw [this]; exact ho.2

omit [ReflBEq D] in
/-- **C53**: nothing keeps the `with` statement from ending: when `start()` has ended, it goes on to the body or, if it raised, to `stop()`; the body can end in
any way; `stop()` then returns, and the statement ends with the very exception it was on the way out with. -/
theorem C53_can_leave (he : init.exec en cfg xs = some s) :
    (s.pc = .starting → s.sb.start = none → ∀ e, ∃ s' : Simp K D I, s.step en cfg (.entered e) = some s' ∧ (s'.pc = .body ∨ s'.pc = .stopping (some e))) ∧
    (s.pc = .body → s.sb.start = none → ∀ exc, ∃ s' : Simp K D I, s.step en cfg (.leave exc) = some s' ∧ s'.pc = .stopping exc) ∧
    (∀ exc, s.pc = .stopping exc → ∃ s' : Simp K D I, s.step en cfg .leftStop = some s' ∧ s'.pc = .done exc) := by
  have h := winv he
  obtain ⟨bs, hbs⟩ := h.real
  have hi := SB.inv_exec hbs
  refine ⟨fun hp hl e => ?_, fun hp hl exc => ?_, fun exc hp => ?_⟩
  · by_cases hsb : s.sb.sourceBuffer.isSome = true
    · exact ⟨{ s with pc := .body }, by simp [Simp.step, hp, hl, hsb], .inl rfl⟩
    · obtain ⟨z, hz, -⟩ := stop_step (cfg := cfg) hi hl (h.begun (by simp [hp]) hl)
      exact ⟨_, by simp only [Simp.step, hp, hl, hsb, hz]; rfl, .inr rfl⟩
  · obtain ⟨z, hz, -⟩ := stop_step (cfg := cfg) hi hl (h.begun (by simp [hp]) hl)
    exact ⟨_, by simp only [Simp.step, hp, hl, hz]; rfl, rfl⟩
  · have hb := h.busy exc hp
    have hb' : s.sb.stopping ≠ 0 := by omega
    exact ⟨_, by simp only [Simp.step, hp, SB.step, if_neg hb']; rfl, rfl⟩

end

/-! ### Keys and witnesses -/

/-- **C51** with `key = lambda x: x[0]`. -/
theorem C51_first_component [BEq D] [ReflBEq D] {cfg : SBCfg Nat (SItem D)} {s : Simp Nat D I} {xs : List (SimpAct Nat D I)}
    (hkey : ∀ i d, cfg.key (.pair i d) = i) (he : init.exec true cfg xs = some s) (hn : SimpAct.sb SBAct.start ∉ xs)
    (hk : ∀ a, .sb a ∈ xs → a.isKeyRaise = false) :
    (∀ t, storedIn t s.sb.log ++ (s.sb.thr t).inHand = enumerated (s.raw t)) ∧ ∀ t b v e, Ev.refused t b v e ∉ s.sb.log :=
  C51_never_rejects (fun i j d d' h => by rw [hkey, hkey]; exact h) he hn hk

/-- **C51** with the default key, the item itself: pairs compare by their first components when these differ, as they do within a session, whatever the data
compare like (`E`: any order on the data). -/
theorem C51_default_key {E : Type} [LinearOrder E] [BEq D] [ReflBEq D] {cfg : SBCfg (Nat ×ₗ E) (SItem D)} {s : Simp (Nat ×ₗ E) D I}
    {xs : List (SimpAct (Nat ×ₗ E) D I)} (f : Option D → E) (hkey : ∀ i d, cfg.key (.pair i d) = toLex (i, f d))
    (he : init.exec true cfg xs = some s) (hn : SimpAct.sb SBAct.start ∉ xs)
    (hk : ∀ a, .sb a ∈ xs → a.isKeyRaise = false) :
    (∀ t, storedIn t s.sb.log ++ (s.sb.thr t).inHand = enumerated (s.raw t)) ∧ ∀ t b v e, Ev.refused t b v e ∉ s.sb.log :=
  C51_never_rejects (fun i j d d' h => by rw [hkey, hkey]; exact Prod.Lex.toLex_lt_toLex.2 (.inl h)) he hn hk

end Simp
end S2P
