import Verif.Proofs.SourceObj
import Verif.Props.EndToEnd
/-
C64: a source object and its stream buffer.
-/
namespace S2P
open Spec
variable {σ K V I : Type}
namespace SB
variable [LinearOrder K] [BEq V] [ReflBEq V] {cfg : SBCfg K V} {s s' : SB K V I} {a : SBAct K V I} {as : List (SBAct K V I)}

omit [ReflBEq V] in
theorem refused_origin' (hs : s.step cfg a = some s') (t b : Nat) (v : V) (e : PyErr) (h : Ev.refused t b v e ∈ s'.log) :
    Ev.refused t b v e ∈ s.log ∨ (a = .keyRaise t e ∧ s.thr t = .storing b v) ∨ (a = .thr t ∧ s.thr t = .storing b v) := by
  have hst := step_to hs
  clear hs
  cases hst
  all_goals try simp only [say, setThr, setBuf, setEvent, setNext, setDrop, setInfo, newSess, running] at *
  all_goals first
    | exact .inl h
    | grind

/-- If the keys of what was read increase, the append in progress is accepted. -/
theorem may_of_increasing (he : SB.init.exec cfg as = some s) (hset : SB.init.Settled cfg as) (t b : Nat) (v : V) (ht : s.thr t = .storing b v)
    (hinc : (dataRead t s.log).Pairwise (fun v w => cfg.key v < cfg.key w)) : b = t ∧ v ∈ dataRead t s.log ∧ mayAppend cfg.key (s.items b) v = true := by
  obtain rfl := (inv2_exec he hset).2.own t b v ht
  have h1 := (C40_stored_in_order_partial he hset b).1
  rw [ht] at h1
  simp only [TPC.inHand] at h1
  refine ⟨rfl, by rw [h1]; simp, ?_⟩
  rw [h1] at hinc
  have hp := (List.pairwise_append.1 hinc).1
  have hp2 := (List.pairwise_append.1 hp).2.2
  unfold mayAppend
  split
  · rfl
  · rename_i w hw
    exact decide_eq_true (hp2 w ((items_suffix he b).subset (List.mem_of_getLast? hw)) v (by simp))

omit [ReflBEq V] in
theorem dataRead_prefix (hs : s.step cfg a = some s') (t : Nat) : dataRead t s.log <+: dataRead t s'.log := by
  have hst := step_to hs
  clear hs
  cases hst
  all_goals simp [say, setThr, setBuf, setEvent, setNext, setDrop, setInfo, newSess, dataRead_append]

end SB

namespace ObjSB
section
variable [LinearOrder K] [BEq V] [ReflBEq V] {o : SrcObj σ K V I} {cfg : SBCfg K V} {s s' : ObjSB σ K V I} {x : ObjAct K V I} {xs : List (ObjAct K V I)}

/-- The buffer's key function is the object's, where that does not raise. -/
def Fits (o : SrcObj σ K V I) (cfg : SBCfg K V) : Prop := ∀ v k, o.key v = .ok k → cfg.key v = k

/-- An object is *orderly* if, after a successful `open`, its `read` never raises, and the data it returns have keys, which strictly increase. -/
structure Orderly (o : SrcObj σ K V I) : Prop where
  noRaise : ∀ x st n e, o.open' x = (.ok (), st) → .error e ∉ answers o.read st n
  keys : ∀ x st n v, o.open' x = (.ok (), st) → v ∈ dataOf (answers o.read st n) → ∃ k, o.key v = .ok k
  incr : ∀ x st n, o.open' x = (.ok (), st) →
    (dataOf (answers o.read st n)).Pairwise fun v w => ∀ k l, o.key v = .ok k → o.key w = .ok l → k < l

/-- As `Orderly`, but `read` may raise. -/
structure Rising (o : SrcObj σ K V I) : Prop where
  keys : ∀ x st n v, o.open' x = (.ok (), st) → v ∈ dataOf (answers o.read st n) → ∃ k, o.key v = .ok k
  incr : ∀ x st n, o.open' x = (.ok (), st) →
    (dataOf (answers o.read st n)).Pairwise fun v w => ∀ k l, o.key v = .ok k → o.key w = .ok l → k < l

omit [BEq V] [ReflBEq V] in
theorem Orderly.rising (h : Orderly o) : Rising o := ⟨h.keys, h.incr⟩

omit [ReflBEq V] in
/-- Every `start()` that gets as far as making a session calls `open` once: the number of calls is the number of sessions, less the one about to be opened. -/
theorem opens_count {y y' : SB K V I} {a : SBAct K V I} (hs : y.step cfg a = some y') (c : Nat)
    (ha : a ≠ .openOk ∧ a ≠ .openRaise)
    (h : c + (if y.start = some .mkEvt ∨ y.start = some .opening then 1 else 0) = y.n) :
    c + (if y'.start = some .mkEvt ∨ y'.start = some .opening then 1 else 0) = y'.n := by
  have hst := SB.step_to hs
  clear hs
  cases hst
  all_goals try simp only [SB.say, SB.setThr, SB.setBuf, SB.setEvent, SB.setNext, SB.setDrop, SB.setInfo, SB.newSess, SB.running] at *
  all_goals first
    | exact h
    | (simp at ha; done)
    | (simp_all; done)
    | grind

/-- Invariants of settled executions. -/
structure Acc (o : SrcObj σ K V I) (cfg : SBCfg K V) (s : ObjSB σ K V I) : Prop where
  real : RealS cfg s.sb
  knows : Knows o s
  from' : ∀ t st, s.opened t = some st → ∃ x, o.open' x = (.ok (), st)
  info : ∀ t i, Ev.bufferMade t i ∈ s.sb.log → ∃ st, s.opened t = some st ∧ o.info st = .ok i

omit [LinearOrder K] [ReflBEq V] in
theorem opened_step [LinearOrder K] (hb : Below o cfg s s' x) (t : Nat) (st : σ) (h : s'.opened t = some st) :
    s.opened t = some st ∨ (x = .open' ∧ t + 1 = s.sb.n ∧ s.sb.start = some .opening ∧ o.open' s.st = (.ok (), st)) := by
  cases hb with
  | openOk hx hs h0 e2 =>
    rw [e2] at h
    dsimp only at h
    split at h
    · injection h with h; subst h
      refine .inr ⟨hx, ‹_›, ?_, h0⟩
      have hst := SB.step_to hs
      generalize s'.sb = y at hst
      cases hst; assumption
    · exact .inl h
  | other _ _ _ _ _ _ _ e2 => rw [e2] at h; exact .inl h
  | openRaise _ _ _ _ e2 => rw [e2] at h; exact .inl h
  | bufOk _ _ _ _ _ e2 => rw [e2] at h; exact .inl h
  | bufRaise _ _ _ _ _ e2 => rw [e2] at h; exact .inl h
  | readOk _ _ _ _ _ e2 => rw [e2] at h; exact .inl h
  | readRaise _ _ _ _ _ e2 => rw [e2] at h; exact .inl h
  | close _ _ _ _ _ _ e2 => rw [e2] at h; exact .inl h

omit [LinearOrder K] [ReflBEq V] in
theorem opened_keep [LinearOrder K] (hk : Knows o s) (hb : Below o cfg s s' x) (t : Nat) (st : σ) (h : s.opened t = some st) :
    s'.opened t = some st := by
  cases hb with
  | openOk hx hs h0 e2 =>
    rw [e2]
    dsimp only
    split
    · have hst := SB.step_to hs
      generalize s'.sb = y at hst
      have hs : s.sb.start = some .opening := by cases hst; assumption
      have := hk.notYet (.inr hs)
      rw [show s.sb.n - 1 = t by omega, h] at this; simp at this
    · exact h
  | other _ _ _ _ _ _ _ e2 => rw [e2]; exact h
  | openRaise _ _ _ _ e2 => rw [e2]; exact h
  | bufOk _ _ _ _ _ e2 => rw [e2]; exact h
  | bufRaise _ _ _ _ _ e2 => rw [e2]; exact h
  | readOk _ _ _ _ _ e2 => rw [e2]; exact h
  | readRaise _ _ _ _ _ e2 => rw [e2]; exact h
  | close _ _ _ _ _ _ e2 => rw [e2]; exact h

omit [LinearOrder K] [ReflBEq V] in
theorem made_origin [LinearOrder K] {y y' : SB K V I} {a : SBAct K V I} (hs : y.step cfg a = some y') (t : Nat) (i : I)
    (h : Ev.bufferMade t i ∈ y'.log) : Ev.bufferMade t i ∈ y.log ∨ (a = .bufOk i ∧ t = y.n - 1 ∧ y.start = some .mkBuf) := by
  have hst := SB.step_to hs
  clear hs
  cases hst
  all_goals try simp only [SB.say, SB.setThr, SB.setBuf, SB.setEvent, SB.setNext, SB.setDrop, SB.setInfo, SB.newSess, SB.running] at *
  all_goals first
    | exact .inl h
    | grind

omit [ReflBEq V] in
theorem Acc.init (st : σ) : Acc o cfg (ObjSB.init st) :=
  ⟨⟨[], rfl, trivial⟩, Knows.init st, fun t st h => by simp [ObjSB.init] at h, fun t i h => by simp [ObjSB.init, SB.init] at h⟩

omit [ReflBEq V] in
theorem Acc.step (h : Acc o cfg s) (hs : s.step o cfg x = some s') (hset : s.SettledAt x) : Acc o cfg s' := by
  have hb := below hs
  have hreal' := h.real.step hb hset
  obtain ⟨bs, he, hbs⟩ := h.real
  have h2 := SB.inv2_exec he hbs
  refine ⟨hreal', h.knows.step h2.1 h2.2 hb, fun t st ht => ?_, fun t i ht => ?_⟩
  · rcases opened_step hb t st ht with h' | ⟨-, -, -, h'⟩
    · exact h.from' t st h'
    · exact ⟨_, h'⟩
  · have old : Ev.bufferMade t i ∈ s.sb.log → ∃ st, s'.opened t = some st ∧ o.info st = .ok i := fun hm => by
      obtain ⟨st, k1, k2⟩ := h.info t i hm
      exact ⟨st, opened_keep h.knows hb t st k1, k2⟩
    cases hb with
    | bufOk hx i' hs' h0 e1 e2 =>
      rcases made_origin hs' t i ht with hm | ⟨ha, rfl, hp⟩
      · exact old hm
      · injection ha with ha; subst ha
        obtain ⟨st, hst⟩ := Option.isSome_iff_exists.1 (h.knows.made (.inl hp))
        refine ⟨st, by rw [e2]; exact hst, ?_⟩
        have hn := h.knows.new _ (by rw [hst]; rfl)
        have hph := h2.1.ph
        rw [hp] at hph
        have hfresh : s.sb.thr (s.sb.n - 1) = .fresh := by simp only [SB.PhaseOk] at hph; grind
        have := h.knows.st (s.sb.n - 1) st (by omega) hst (by rw [hfresh]; simp)
        rw [h.knows.fresh _ (.inr hfresh)] at this
        rw [← h0, this]; rfl
    | other a hx ha hk hr hs' =>
      rcases made_origin hs' t i ht with hm | ⟨rfl, -⟩
      · exact old hm
      · simp [SBAct.noCall] at ha
    | openOk hx hs' => exact old ((made_origin hs' t i ht).elim id fun h => by simp at h)
    | openRaise hx e hs' => exact old ((made_origin hs' t i ht).elim id fun h => by simp at h)
    | bufRaise hx e hs' => exact old ((made_origin hs' t i ht).elim id fun h => by simp at h)
    | readOk t hx r hs' => exact old ((made_origin hs' _ i ht).elim id fun h => by simp at h)
    | readRaise t hx e hs' => exact old ((made_origin hs' _ i ht).elim id fun h => by simp at h)
    | close t hx ok hs' => exact old ((made_origin hs' _ i ht).elim id fun h => by simp at h)

omit [ReflBEq V] in
theorem acc {st : σ} (he : (ObjSB.init st).exec o cfg xs = some s) (hset : (ObjSB.init st : ObjSB σ K V I).Settled o cfg xs) : Acc o cfg s :=
  exec_ind_settled (P := Acc o cfg) (fun _ _ _ _ h hs hset => h.step hs hset) (Acc.init st) he hset

omit [ReflBEq V] in
/-- **C64** every session reads a freshly opened source from its beginning: what `read` answered to the thread of session `t` is what `read`
answers, called again and again, starting from the state that some successful `open` left. Missing: executions that are not settled (`C64_refuted`). -/
theorem C64_fresh_start_partial {st : σ} (he : (ObjSB.init st).exec o cfg xs = some s)
    (hset : (ObjSB.init st : ObjSB σ K V I).Settled o cfg xs) (t : Nat) (ht : answered t s.sb.log ≠ []) :
    ∃ x0 st0, o.open' x0 = (.ok (), st0) ∧ answered t s.sb.log = answers o.read st0 (answered t s.sb.log).length := by
  have h := acc he hset
  have h1 : s.sb.thr t ≠ .unborn := fun e => ht (h.knows.fresh t (.inl e))
  have h2 : s.sb.thr t ≠ .fresh := fun e => ht (h.knows.fresh t (.inr e))
  obtain ⟨st0, hst0⟩ := Option.isSome_iff_exists.1 (h.knows.live t h1 h2)
  obtain ⟨x0, hx0⟩ := h.from' t st0 hst0
  exact ⟨x0, st0, hx0, h.knows.seen t st0 hst0⟩

omit [ReflBEq V] in
/-- **C64** and the info of the session is that of the same freshly opened source, as it was before the first `read`. Missing: as above. -/
theorem C64_info_of_open_partial {st : σ} (he : (ObjSB.init st).exec o cfg xs = some s)
    (hset : (ObjSB.init st : ObjSB σ K V I).Settled o cfg xs) (t : Nat) (i : I) (ht : Ev.bufferMade t i ∈ s.sb.log) :
    ∃ x0 st0, o.open' x0 = (.ok (), st0) ∧ o.info st0 = .ok i ∧ answered t s.sb.log = answers o.read st0 (answered t s.sb.log).length := by
  have h := acc he hset
  obtain ⟨st0, k1, k2⟩ := h.info t i ht
  obtain ⟨x0, hx0⟩ := h.from' t st0 k1
  exact ⟨x0, st0, hx0, k2, h.knows.seen t st0 k1⟩

omit [BEq V] [ReflBEq V] [LinearOrder K] in
theorem dataOf_nil : dataOf ([] : List (Py (Option V))) = [] := rfl

/-- What the sessions of such an object read. -/
theorem Rising.data (ho : Rising o) (h : Acc o cfg s) (t : Nat) :
    (∀ v ∈ dataRead t s.sb.log, ∃ k, o.key v = .ok k) ∧
    (dataRead t s.sb.log).Pairwise fun v w => ∀ k l, o.key v = .ok k → o.key w = .ok l → k < l := by
  rw [dataRead_eq]
  by_cases ht : answered t s.sb.log = []
  · rw [ht]; simp [dataOf]
  have h1 : s.sb.thr t ≠ .unborn := fun e => ht (h.knows.fresh t (.inl e))
  have h2 : s.sb.thr t ≠ .fresh := fun e => ht (h.knows.fresh t (.inr e))
  obtain ⟨st0, hst0⟩ := Option.isSome_iff_exists.1 (h.knows.live t h1 h2)
  obtain ⟨x0, hx0⟩ := h.from' t st0 hst0
  rw [h.knows.seen t st0 hst0]
  exact ⟨fun v => ho.keys x0 st0 _ v hx0, ho.incr x0 st0 _ hx0⟩

/-- No `read` of an orderly object raises. -/
theorem Orderly.noErr (ho : Orderly o) (h : Acc o cfg s) (t : Nat) : ∀ e, .error e ∉ answered t s.sb.log := by
  by_cases ht : answered t s.sb.log = []
  · rw [ht]; simp
  have h1 : s.sb.thr t ≠ .unborn := fun e => ht (h.knows.fresh t (.inl e))
  have h2 : s.sb.thr t ≠ .fresh := fun e => ht (h.knows.fresh t (.inr e))
  obtain ⟨st0, hst0⟩ := Option.isSome_iff_exists.1 (h.knows.live t h1 h2)
  obtain ⟨x0, hx0⟩ := h.from' t st0 hst0
  rw [h.knows.seen t st0 hst0]
  exact fun e => ho.noRaise x0 st0 _ e hx0

theorem Rising.inc (ho : Rising o) (hf : Fits o cfg) (h : Acc o cfg s) (t : Nat) :
    (dataRead t s.sb.log).Pairwise (fun v w => cfg.key v < cfg.key w) := by
  obtain ⟨h2, h3⟩ := ho.data h t
  refine h3.imp_of_mem fun {v w} hv hw hvw => ?_
  obtain ⟨k, hk⟩ := h2 v hv
  obtain ⟨l, hl⟩ := h2 w hw
  rw [hf v k hk, hf w l hl]
  exact hvw k l hk hl

theorem rising_no_refusal (ho : Rising o) (hf : Fits o cfg) {st : σ} (he : (ObjSB.init st).exec o cfg xs = some s)
    (hset : (ObjSB.init st : ObjSB σ K V I).Settled o cfg xs) (t b : Nat) (v : V) (e : PyErr) : Ev.refused t b v e ∉ s.sb.log := by
  refine (exec_ind_settled (P := fun s => Acc o cfg s ∧ ∀ t b v e, Ev.refused t b v e ∉ s.sb.log) ?_ ⟨Acc.init st, ?_⟩ he hset).2 t b v e
  · intro s x s' _ ⟨hacc, ih⟩ hs hset
    refine ⟨hacc.step hs hset, fun t b v e hm => ?_⟩
    have hb := below hs
    obtain ⟨bs, he', hbs⟩ := hacc.real
    have hinc := ho.inc hf hacc
    have key : ∀ a, s.sb.step cfg a = some s'.sb → (∀ t e, a = .keyRaise t e → ∃ b v, s.sb.thr t = .storing b v ∧ o.key v = .error e) → False := by
      intro a ha hka
      rcases SB.refused_origin' ha t b v e hm with h | ⟨rfl, hst⟩ | ⟨rfl, hst⟩
      · exact ih t b v e h
      · obtain ⟨-, hmem, -⟩ := SB.may_of_increasing he' hbs t b v hst (hinc t)
        obtain ⟨k, hk⟩ := (ho.data hacc t).1 v hmem
        obtain ⟨b', v', h1, h2⟩ := hka t e rfl
        rw [hst] at h1; injection h1 with h1 h3; subst h3
        rw [hk] at h2; simp at h2
      · obtain ⟨rfl, -, hmay⟩ := SB.may_of_increasing he' hbs t b v hst (hinc t)
        obtain ⟨s2, h3, -, h4⟩ := SB.C40_decision he' b b v hst
        rw [ha] at h3
        obtain rfl := Option.some.inj h3
        rw [hmay] at h4
        rcases h4 with ⟨-, hlog, -⟩ | ⟨h, -⟩
        · rw [hlog] at hm
          rcases List.mem_append.1 hm with h | h
          · exact ih b b v e h
          · simp at h
        · simp at h
    cases hb with
    | other a hx ha hk hr hs' => exact key a hs' hr
    | openOk hx hs' => exact key _ hs' (by simp)
    | openRaise hx e hs' => exact key _ hs' (by simp)
    | bufOk hx i hs' => exact key _ hs' (by simp)
    | bufRaise hx e hs' => exact key _ hs' (by simp)
    | readOk t hx r hs' => exact key _ hs' (by simp)
    | readRaise t hx e hs' => exact key _ hs' (by simp)
    | close t hx ok hs' => exact key _ hs' (by simp)
  · intro t b v e h; simp [ObjSB.init, SB.init] at h

omit [ReflBEq V] [BEq V] [LinearOrder K] in
theorem readRaised_answered {t : Nat} {e : PyErr} {l : List (Ev V I)} (h : Ev.readRaised t e ∈ l) : .error e ∈ answered t l := by
  simp only [answered, List.mem_filterMap]
  exact ⟨_, h, by simp⟩

omit [ReflBEq V] [BEq V] [LinearOrder K] in
theorem refusedBy_nil {t : Nat} {l : List (Ev V I)} (h : ∀ b v e, Ev.refused t b v e ∉ l) : refusedBy t l = [] := by
  simp only [refusedBy, List.filterMap_eq_nil_iff]
  intro e he'
  cases e <;> simp
  rename_i t' b' v' e'
  rintro rfl
  exact (h b' v' e' he').elim

/-- **C64** an orderly source (its `read` does not raise, its keys increase) never kills the stream: no thread ever leaves its loop by an exception,
for every setting but `maxlen=None` with `auto_drop=False` (C44). Missing: executions that are not settled (`C64_refuted`). -/
theorem C64_orderly_never_dies_partial (ho : Orderly o) (hf : Fits o cfg) (hc : cfg.maxlen ≠ none ∨ cfg.autoDrop = true) {st : σ}
    (he : (ObjSB.init st).exec o cfg xs = some s) (hset : (ObjSB.init st : ObjSB σ K V I).Settled o cfg xs) : ∀ e ∈ s.sb.log, isDeath e = false := by
  intro ev hev
  have h := acc he hset
  obtain ⟨bs, hb, hbs⟩ := h.real
  cases ev <;> try rfl
  · exact absurd (readRaised_answered hev) (ho.noErr h _ _)
  · exact absurd hev (rising_no_refusal ho.rising hf he hset _ _ _ _)
  · exact absurd hev (SB.C44_no_crash_partial hc hb hbs _ _)

/-- **C64** and everything an orderly source returned is stored, in order, but for the item the thread has in its hands. Missing: as above. -/
theorem C64_orderly_all_stored_partial (ho : Orderly o) (hf : Fits o cfg) {st : σ}
    (he : (ObjSB.init st).exec o cfg xs = some s) (hset : (ObjSB.init st : ObjSB σ K V I).Settled o cfg xs) (t : Nat) :
    storedIn t s.sb.log ++ (s.sb.thr t).inHand = dataRead t s.sb.log := by
  obtain ⟨bs, hb, hbs⟩ := (acc he hset).real
  rw [(SB.C40_stored_in_order_partial hb hbs t).1, refusedBy_nil fun b v e => rising_no_refusal ho.rising hf he hset t b v e, List.append_nil]

omit [ReflBEq V] in
/-- There is a settled execution of the stream buffer alone in which reader `i` of session `b` has one user as well. -/
theorem real_one {b i : Nat} {st : σ} (he : (ObjSB.init st).exec o cfg xs = some s)
    (hset : (ObjSB.init st : ObjSB σ K V I).Settled o cfg xs) (hu : ∀ a, .other a ∈ xs → SB.OneUser b i a) :
    ∃ bs, SB.init.exec cfg bs = some s.sb ∧ SB.init.Settled cfg bs ∧ ∀ a ∈ bs, SB.OneUser b i a := by
  refine exec_ind_settled (P := fun s => ∃ bs, SB.init.exec cfg bs = some s.sb ∧ SB.init.Settled cfg bs ∧ ∀ a ∈ bs, SB.OneUser b i a) ?_
    ⟨[], rfl, trivial, by simp⟩ he hset
  intro s x s' hx ⟨bs, he, hs, hone⟩ hstep hset
  have key : ∀ a, s.sb.step cfg a = some s'.sb → (a = .startGo → x = .other .startGo) → SB.OneUser b i a →
      ∃ bs, SB.init.exec cfg bs = some s'.sb ∧ SB.init.Settled cfg bs ∧ ∀ a ∈ bs, SB.OneUser b i a := by
    intro a ha hx' hone'
    refine ⟨bs ++ [a], SB.exec_snoc he ha, hs.snoc he fun e hw t => ?_, fun a' ha' => ?_⟩
    · rcases hset .startGo (hx' e) rfl hw t with h | h | h <;> rw [h] <;> rfl
    · rcases List.mem_append.1 ha' with h | h
      · exact hone a' h
      · rw [List.mem_singleton.1 h]; exact hone'
  cases below hstep with
  | other a hxa ha hk hr hs' =>
    refine key a hs' (fun e => by subst e; simpa using hxa) ?_
    rcases hxa with h | ⟨t, h⟩ | ⟨t, e, h⟩
    · exact hu a (h ▸ hx)
    · rw [h]; trivial
    · rw [h]; trivial
  | openOk hx hs' => exact key _ hs' (by simp) trivial
  | openRaise hx e hs' => exact key _ hs' (by simp) trivial
  | bufOk hx i hs' => exact key _ hs' (by simp) trivial
  | bufRaise hx e hs' => exact key _ hs' (by simp) trivial
  | readOk t hx r hs' => exact key _ hs' (by simp) trivial
  | readRaise t hx e hs' => exact key _ hs' (by simp) trivial
  | close t hx ok hs' => exact key _ hs' (by simp) trivial

omit [ReflBEq V] in
theorem buf_made {y y' : SB K V I} {a : SBAct K V I} (hs : y.step cfg a = some y') (b : Nat) (h : (y'.buf b).isSome) :
    (y.buf b).isSome ∨ (y.start = some .mkBuf ∧ b = y.n - 1) := by
  have hst := SB.step_to hs
  clear hs
  cases hst
  all_goals try simp only [SB.say, SB.setThr, SB.setBuf, SB.setEvent, SB.setNext, SB.setDrop, SB.setInfo, SB.newSess, SB.running] at *
  all_goals first
    | exact .inl h
    | grind

omit [ReflBEq V] in
theorem buf_opened {st : σ} (he : (ObjSB.init st).exec o cfg xs = some s) (hset : (ObjSB.init st : ObjSB σ K V I).Settled o cfg xs) (b : Nat)
    (h : (s.sb.buf b).isSome) : (s.opened b).isSome := by
  refine (exec_ind_settled (P := fun s => Acc o cfg s ∧ ∀ b, (s.sb.buf b).isSome → (s.opened b).isSome) ?_ ⟨Acc.init st, ?_⟩ he hset).2 b h
  · intro s x s' _ ⟨hacc, ih⟩ hs hset
    refine ⟨hacc.step hs hset, fun b hb => ?_⟩
    have hbel := below hs
    obtain ⟨a, ha, -⟩ := hbel.sb
    have : (s.opened b).isSome := by
      rcases buf_made ha b hb with h | ⟨h, rfl⟩
      · exact ih b h
      · exact hacc.knows.made (.inl h)
    obtain ⟨st, hst⟩ := Option.isSome_iff_exists.1 this
    rw [opened_keep hacc.knows hbel b st hst]; rfl
  · intro b h; simp [ObjSB.init, SB.init] at h

/-- **C64**, whole path: an orderly source, an unbounded buffer, one consumer. What the consumer received, then what it can still read, then the item in
the thread's hands, is what a freshly opened source returns, from its first datum on, without a gap. Missing: as above. -/
theorem C64_source_object_to_consumer_partial (ho : Orderly o) (hf : Fits o cfg) (hm : cfg.maxlen = none) (hd : cfg.autoDrop = true) (b i : Nat)
    (hpk : (cfg.rdCfg i).peek = false) {st : σ} (he : (ObjSB.init st).exec o cfg xs = some s)
    (hset : (ObjSB.init st : ObjSB σ K V I).Settled o cfg xs) (hu : ∀ a, .other a ∈ xs → SB.OneUser b i a) (c : Cons K V)
    (hv : s.sb.view b = some c) :
    ∃ x0 st0, o.open' x0 = (.ok (), st0) ∧
      received c i ++ unreadOf c.ch i ++ (s.sb.thr b).inHand = dataOf (answers o.read st0 (answered b s.sb.log).length) := by
  obtain ⟨bs, h1, h2, h3⟩ := real_one he hset hu
  have hall := C64_orderly_all_stored_partial ho hf he hset b
  rw [← SB.C63_unbounded hm hd b i hpk h3 h1 c hv] at hall
  have h := acc he hset
  obtain ⟨x, hx, -⟩ := Option.map_eq_some_iff.1 hv
  obtain ⟨st0, hst0⟩ : ∃ st0, s.opened b = some st0 := by
    have := buf_opened he hset b (by rw [hx]; rfl)
    exact Option.isSome_iff_exists.1 this
  obtain ⟨x0, hx0⟩ := h.from' b st0 hst0
  refine ⟨x0, st0, hx0, ?_⟩
  rw [← h.knows.seen b st0 hst0, ← dataRead_eq]
  exact hall

end
end ObjSB
end S2P
