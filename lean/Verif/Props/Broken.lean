import Verif.Props.Alive
import Verif.Props.HttpSource
/-
C110: a source whose `read()` raises; C111: HTTP streams on a network with errors.
-/
namespace S2P
open Spec
variable {σ K V I : Type}

namespace SB
section
variable [LinearOrder K] [BEq V] {cfg : SBCfg K V} {s s' : SB K V I} {a : SBAct K V I} {as : List (SBAct K V I)}

/-- A step gives at most one answer of `read()`. -/
theorem answered_step (hs : s.step cfg a = some s') (t : Nat) : ∃ l, s'.log = s.log ++ l ∧ (answered t l).length ≤ 1 := by
  have h1 : ∀ e : Ev V I, (answered t [e]).length ≤ 1 := fun e => List.length_filterMap_le _ _
  have hst := step_to hs
  clear hs
  cases hst
  all_goals try simp only [say, setThr, setBuf, setEvent, setNext, setDrop, setInfo, newSess, running] at *
  all_goals first
    | exact ⟨[], (List.append_nil _).symm, by simp [answered]⟩
    | exact ⟨_, rfl, h1 _⟩
    | exact ⟨_, List.append_assoc _ _ _, by simp [answered]⟩

theorem answered_error {t : Nat} {e : PyErr} {l : List (Ev V I)} (h : .error e ∈ answered t l) : Ev.readRaised t e ∈ l := by
  simp only [answered, List.mem_filterMap] at h
  obtain ⟨x, hx, h⟩ := h
  cases x <;> simp at h
  obtain ⟨rfl, rfl⟩ := h
  exact hx

/-- An exception from `read()` is the last answer a thread gets. -/
theorem raise_last (he : SB.init.exec cfg as = some s) (t : Nat) : ∀ pre e post, answered t s.log = pre ++ .error e :: post → post = [] := by
  refine (exec_ind_acts (P := fun _ s => ∀ pre e post, answered t s.log = pre ++ .error e :: post → post = []) ?_ ?_ as s he)
  · intro pre e post h; simp [SB.init, answered] at h
  · intro as a s s' he ih hs pre e post h
    by_cases hd : ∃ e, .error e ∈ answered t s.log
    · obtain ⟨e', he'⟩ := hd
      have hl := died_leaving he t ⟨_, answered_error he', rfl, by simp [byThread]⟩
      obtain ⟨-, -, l, e1, hc⟩ := leaving_step (good he).inv hs t hl
      have : answered t l = [] := by
        rw [answered, List.filterMap_eq_nil_iff]
        intro x hx
        have := hc x hx
        cases x <;> try rfl
        all_goals
          rename_i t' _
          simp only [byThread, isCloseBy, decide_eq_true_eq, Bool.false_eq_true, imp_false] at this
          simp only [ite_eq_right_iff, reduceCtorEq, imp_false]
          exact fun e => this (by first | exact e | exact e.symm)
      rw [e1, answered_append, this, List.append_nil] at h
      exact ih _ _ _ h
    · obtain ⟨l, e1, hle⟩ := answered_step hs t
      rw [e1, answered_append] at h
      have hno : ∀ e, .error e ∉ answered t s.log := fun e he => hd ⟨e, he⟩
      cases h2 : answered t l with
      | nil => rw [h2, List.append_nil] at h; exact absurd (by rw [h]; simp) (hno e)
      | cons y ys =>
        rw [h2] at hle
        have : ys = [] := by cases ys with | nil => rfl | cons => simp at hle
        subst this
        rw [h2] at h
        by_contra hp
        obtain ⟨post', z, rfl⟩ := List.eq_nil_or_concat post |>.resolve_left hp
        have : answered t s.log = pre ++ .error e :: post' := by
          have h3 : (answered t s.log ++ [y]).dropLast = (pre ++ .error e :: (post' ++ [z])).dropLast := by
            rw [h]; simp
          rw [List.dropLast_concat] at h3
          rw [h3, show pre ++ .error e :: (post' ++ [z]) = (pre ++ .error e :: post') ++ [z] by simp, List.dropLast_concat]
        exact hno e (by rw [this]; simp)

end
end SB

namespace ObjSB
section
variable [LinearOrder K] [BEq V] [ReflBEq V] {o : SrcObj σ K V I} {cfg : SBCfg K V} {s s' : ObjSB σ K V I} {x : ObjAct K V I} {xs : List (ObjAct K V I)}

theorem died_empty (hc : (s.sb.thr t).leaving = true) : (s.sb.thr t).inHand = [] := by
  cases h : s.sb.thr t <;> rw [h] at hc <;> simp_all [TPC.leaving, TPC.inHand]

theorem broken (ho : Rising o) (hf : Fits o cfg) {st : σ} (he : (ObjSB.init st).exec o cfg xs = some s)
    (hc : (ObjSB.init st : ObjSB σ K V I).Calm o cfg xs) (t : Nat) (ht : Ev.launched t ∈ s.sb.log) :
    ∃ st0, s.opened t = some st0 ∧ (∃ x0, o.open' x0 = (.ok (), st0)) ∧
      storedIn t s.sb.log ++ (s.sb.thr t).inHand = dataOf (answers o.read st0 (answered t s.sb.log).length) ∧
      (∀ e, Ev.readRaised t e ∈ s.sb.log →
        (answers o.read st0 (answered t s.sb.log).length).getLast? = some (.error e) ∧
        storedIn t s.sb.log = dataOf (answers o.read st0 ((answered t s.sb.log).length - 1))) ∧
      (∀ j e, j + 1 < (answered t s.sb.log).length → (answers o.read st0 (answered t s.sb.log).length)[j]? ≠ some (.error e)) := by
  have hset := calm_settled he hc
  have h := acc he hset
  obtain ⟨bs, hb, hbs⟩ := h.real
  have ht := (SB.good hb).log.launched t ht
  obtain ⟨st0, hst0⟩ := Option.isSome_iff_exists.1 (h.knows.live t ht.1 ht.2)
  obtain ⟨x0, hx0⟩ := h.from' t st0 hst0
  have hall : storedIn t s.sb.log ++ (s.sb.thr t).inHand = dataRead t s.sb.log := by
    rw [(SB.C40_stored_in_order_partial hb hbs t).1, refusedBy_nil fun b v e => rising_no_refusal ho hf he hset t b v e, List.append_nil]
  have hlast := SB.raise_last hb t
  have hseen := h.knows.seen t st0 hst0
  refine ⟨st0, hst0, ⟨x0, hx0⟩, ?_, ?_, ?_⟩
  · rw [hall, dataRead_eq, ← hseen]
  · intro e hev
    have hmem := readRaised_answered hev
    obtain ⟨pre, post, hp⟩ := List.append_of_mem hmem
    obtain rfl := hlast _ _ _ hp
    have hl := died_empty (SB.died_leaving hb t ⟨_, hev, rfl, by simp [byThread]⟩)
    rw [hl, List.append_nil] at hall
    rw [← hseen, hp]
    refine ⟨by simp, ?_⟩
    rw [hall, dataRead_eq, hp]
    have hn : (pre ++ [Except.error e] : List (Py (Option V))).length - 1 = pre.length := by simp
    rw [hn]
    have : answers o.read st0 (pre.length + 1) = pre ++ [.error e] := by
      rw [← hp, hseen, hp]; simp
    rw [answers_snoc] at this
    have := (List.append_inj' this (by simp)).1
    rw [this]
    simp [dataOf]
  · intro j e hj hje
    rw [← hseen] at hje
    obtain ⟨hlt, hje⟩ := List.getElem?_eq_some_iff.1 hje
    have h1 : answered t s.sb.log = (answered t s.sb.log).take j ++ .error e :: (answered t s.sb.log).drop (j + 1) := by
      rw [← hje, List.getElem_cons_drop, List.take_append_drop]
    have h2 := hlast _ _ _ h1
    rw [List.drop_eq_nil_iff] at h2
    omega

/-- **C110** a source whose `read()` may raise (the keys of what it returns increase): what is stored, with the item on its way, is all the data that
`read()` returned since the `open()` of the session. If a `read()` raised, that was the last one, and what it returned before is stored, all of it.
`start()` is called only when no earlier thread is alive. -/
theorem C110_nothing_lost (ho : Rising o) (hf : Fits o cfg) {st : σ} (he : (ObjSB.init st).exec o cfg xs = some s)
    (hc : (ObjSB.init st : ObjSB σ K V I).Calm o cfg xs) (t : Nat) (ht : Ev.launched t ∈ s.sb.log) :
    ∃ x0 st0, o.open' x0 = (.ok (), st0) ∧
      storedIn t s.sb.log ++ (s.sb.thr t).inHand = dataOf (answers o.read st0 (answered t s.sb.log).length) ∧
      (∀ e, Ev.readRaised t e ∈ s.sb.log →
        (answers o.read st0 (answered t s.sb.log).length).getLast? = some (.error e) ∧
        storedIn t s.sb.log = dataOf (answers o.read st0 ((answered t s.sb.log).length - 1))) ∧
      (∀ j e, j + 1 < (answered t s.sb.log).length → (answers o.read st0 (answered t s.sb.log).length)[j]? ≠ some (.error e)) := by
  obtain ⟨st0, -, ⟨x0, hx0⟩, h⟩ := broken ho hf he hc t ht
  exact ⟨x0, st0, hx0, h⟩

/-- If the object answers, up to the first exception, with `out 0`, `out 1`, ..., then these are stored one after the other up to the first exception, and that
is the one that ends the session. -/
theorem torn (ho : Rising o) (hf : Fits o cfg) {st : σ} (he : (ObjSB.init st).exec o cfg xs = some s)
    (hc : (ObjSB.init st : ObjSB σ K V I).Calm o cfg xs) (t : Nat) (ht : Ev.launched t ∈ s.sb.log) {st0 : σ} (hst0 : s.opened t = some st0)
    (out : Nat → Py V) (hans : ∀ n, (∀ j e, j + 1 < n → (answers o.read st0 n)[j]? ≠ some (.error e)) →
      answers o.read st0 n = (List.range n).map fun (j : Nat) => (out j).map some) :
    ∃ n, (storedIn t s.sb.log ++ (s.sb.thr t).inHand).map .ok = (List.range n).map out ∧
      ∀ e, Ev.readRaised t e ∈ s.sb.log → (s.sb.thr t).inHand = [] ∧ out n = .error e := by
  have hset := calm_settled he hc
  obtain ⟨st1, hst1, -, h1, h2, h3⟩ := broken ho hf he hc t ht
  obtain rfl : st0 = st1 := by rw [hst0] at hst1; exact Option.some.inj hst1
  generalize hN : (answered t s.sb.log).length = N at h1 h2 h3
  have ha := hans N h3
  have okmap : ∀ M, (∀ (j : Nat), j < M → ∀ e, out j ≠ .error e) →
      (dataOf ((List.range M).map fun (j : Nat) => (out j).map some)).map .ok = (List.range M).map out := by
    intro M
    induction M with
    | zero => intro _; rfl
    | succ M ih =>
      intro hM
      have h0 := ih fun j hj => hM j (by omega)
      rw [List.range_succ, List.map_append, List.map_append, ← h0]
      simp only [dataOf, List.filterMap_append, List.map_append]
      congr 1
      have hM' := hM M (by omega)
      cases ho : out M with
      | error e => exact absurd ho (hM' e)
      | ok r => simp [ho, Except.map]
  have hok : ∀ (j : Nat), j + 1 < N → ∀ e, out j ≠ .error e := by
    intro j hj e hje
    refine h3 j e hj ?_
    rw [ha, List.getElem?_map, List.getElem?_range (by omega)]
    simp [hje, Except.map]
  by_cases hd : ∃ e, Ev.readRaised t e ∈ s.sb.log
  · obtain ⟨e, hev⟩ := hd
    obtain ⟨h4, h5⟩ := h2 e hev
    have hN0 : 0 < N := by
      rw [← hN]; exact List.length_pos_of_mem (readRaised_answered hev)
    obtain ⟨M, rfl⟩ : ∃ M, N = M + 1 := ⟨N - 1, by omega⟩
    have hlast : out M = .error e := by
      rw [ha, List.range_succ] at h4
      simp only [List.map_append, List.map_cons, List.map_nil, List.getLast?_append, List.getLast?_singleton, Option.some_or, Option.some.injEq] at h4
      cases ho : out M with
      | error e' => rw [ho] at h4; simpa [Except.map] using h4
      | ok r => rw [ho] at h4; simp [Except.map] at h4
    have h6 : (s.sb.thr t).inHand = [] := by
      obtain ⟨bs, hb', -⟩ := (acc he hset).real
      exact died_empty (SB.died_leaving hb' t ⟨_, hev, rfl, by simp [byThread]⟩)
    refine ⟨M, ?_, fun e' he' => ⟨h6, ?_⟩⟩
    · rw [h6, List.append_nil, h5]
      have hM : answers o.read st0 M = (List.range M).map fun (j : Nat) => (out j).map some := by
        rw [answers_snoc, List.range_succ, List.map_append] at ha
        exact (List.append_inj' ha (by simp)).1
      rw [Nat.add_sub_cancel, hM]
      exact okmap M fun j hj => hok j (by omega)
    · have := (h2 e' he').1
      rw [h4] at this
      simp only [Option.some.injEq, Except.error.injEq] at this
      rw [hlast, this]
  · refine ⟨N, ?_, fun e he' => absurd ⟨e, he'⟩ hd⟩
    rw [h1, ha]
    refine okmap N fun j hj e hje => ?_
    by_cases hj' : j + 1 < N
    · exact hok j hj' e hje
    · have hmem : .error e ∈ answered t s.sb.log := by
        have hj2 : (answers o.read st0 N)[j]? = some (.error e) := by
          rw [ha, List.getElem?_map, List.getElem?_range hj]
          simp [hje, Except.map]
        rw [(acc he hset).knows.seen t _ hst0, hN]
        exact List.mem_of_getElem? hj2
      exact hd ⟨e, SB.answered_error hmem⟩

end
end ObjSB

namespace HttpSrc
section
variable {T B R : Type} [LinearOrder T] {w : Web T B} {decode : List B → Py R}

/-- What the `j`-th `read()` of a response amounts to: the pieces it gives, decoded; after them nothing, decoded; or the exception raised on the way. -/
def outcome (decode : List B → Py R) (l : List (Py (List B))) (j : Nat) : Py R :=
  match l[j]? with
  | none => decode []
  | some (.ok p) => decode p
  | some (.error e) => .error e

omit [LinearOrder T] in
theorem read_first (l : List (Py (List B))) (opens ticks : Nat) :
    (read w decode ⟨some l, opens, ticks⟩).1 = (outcome decode l 0).map fun r => some (w.clock ticks, r) := by
  cases l with
  | nil => simp only [read, piece, outcome, List.getElem?_nil]; cases decode [] <;> rfl
  | cons p l =>
    cases p with
    | error e => rfl
    | ok p => simp only [read, piece, outcome, List.getElem?_cons_zero]; cases decode p <;> rfl

omit [LinearOrder T] in
theorem read_rest (l : List (Py (List B))) (opens ticks : Nat) (h : ∀ e, (read w decode ⟨some l, opens, ticks⟩).1 ≠ .error e) :
    (read w decode ⟨some l, opens, ticks⟩).2 = ⟨some l.tail, opens, ticks + 1⟩ := by
  cases l with
  | nil => simp only [read, piece] at h ⊢; cases hd : decode [] <;> rfl
  | cons p l =>
    cases p with
    | error e => exact absurd rfl (h e)
    | ok p => simp only [read, piece] at h ⊢; cases hd : decode p <;> rfl

omit [LinearOrder T] in
/-- The answers up to the first exception. -/
theorem answers_outcome (n : Nat) : ∀ (l : List (Py (List B))) (opens ticks : Nat),
    (∀ j e, j + 1 < n → (answers (read w decode) ⟨some l, opens, ticks⟩ n)[j]? ≠ some (.error e)) →
    answers (read w decode) ⟨some l, opens, ticks⟩ n = (List.range n).map fun (j : Nat) => (outcome decode l j).map fun r => some (w.clock (ticks + j), r) := by
  induction n with
  | zero => intros; rfl
  | succ n ih =>
    intro l opens ticks h
    rw [answers, List.range_succ_eq_map, List.map_cons, List.map_map, read_first]
    congr 1
    cases n with
    | zero => rfl
    | succ n =>
      have h0 : ∀ e, (read w decode ⟨some l, opens, ticks⟩).1 ≠ .error e := fun e he => by
        refine h 0 e (by omega) ?_
        rw [answers, List.getElem?_cons_zero, he]
      rw [answers, read_rest l opens ticks h0] at h
      rw [read_rest l opens ticks h0, ih l.tail opens (ticks + 1) fun j e hj => by
        have := h (j + 1) e (by omega)
        rwa [List.getElem?_cons_succ] at this]
      refine List.map_congr_left fun j _ => ?_
      simp only [Function.comp, Nat.succ_eq_add_one, outcome, List.getElem?_tail]
      rw [show ticks + (j + 1) = ticks + 1 + j by omega]

omit [LinearOrder T] in
theorem read_ticks (s : St B) : s.ticks ≤ (read w decode s).2.ticks ∧
    ∀ v, (read w decode s).1 = .ok (some v) → v.1 = w.clock s.ticks ∧ (read w decode s).2.ticks = s.ticks + 1 := by
  unfold read
  split
  · simp
  · unfold piece; dsimp only; split <;> simp
  · unfold piece; dsimp only; split <;> simp
  · simp

omit [LinearOrder T] in
theorem times (n : Nat) : ∀ s : St B, ∀ v ∈ dataOf (answers (read w decode) s n), ∃ k, s.ticks ≤ k ∧ v.1 = w.clock k := by
  induction n with
  | zero => intro s v hv; simp [answers, dataOf] at hv
  | succ n ih =>
    intro s v hv
    have hr := read_ticks (w := w) (decode := decode) s
    rw [answers] at hv
    simp only [dataOf, List.mem_filterMap, List.mem_cons] at hv
    obtain ⟨x, hx | hx, hv⟩ := hv
    · subst hx
      split at hv
      · rename_i y heq
        injection hv with hv; subst hv
        exact ⟨s.ticks, le_refl _, (hr.2 _ heq).1⟩
      · simp at hv
    · obtain ⟨k, hk, e⟩ := ih (read w decode s).2 v (by simp only [dataOf, List.mem_filterMap]; exact ⟨x, hx, hv⟩)
      exact ⟨k, le_trans hr.1 hk, e⟩

end

section
variable {T B R : Type} [LinearOrder T] [LinearOrder R] {w : Web T B} {decode : List B → Py R}

omit [LinearOrder R] in
theorem times_inc (ht : Ticks w) (n : Nat) : ∀ s : St B, (dataOf (answers (read w decode) s n)).Pairwise fun v u => v.1 < u.1 := by
  induction n with
  | zero => intro s; simp [answers, dataOf]
  | succ n ih =>
    intro s
    have hr := read_ticks (w := w) (decode := decode) s
    have hd : dataOf (answers (read w decode) s (n + 1)) =
        dataOf [(read w decode s).1] ++ dataOf (answers (read w decode) (read w decode s).2 n) := by
      rw [answers, dataOf, dataOf, dataOf, ← List.filterMap_append]; rfl
    rw [hd, List.pairwise_append]
    refine ⟨?_, ih _, fun v hv u hu => ?_⟩
    · have : (dataOf [(read w decode s).1]).length ≤ 1 := List.length_filterMap_le _ _
      match dataOf [(read w decode s).1], this with
      | [], _ => exact .nil
      | [v], _ => exact List.pairwise_singleton _ _
    · have hv' : (read w decode s).1 = .ok (some v) := by
        simp only [dataOf, List.mem_filterMap, List.mem_singleton] at hv
        obtain ⟨x, rfl, hv⟩ := hv
        split at hv
        · rename_i heq; injection hv with hv; subst hv; exact heq
        · simp at hv
      obtain ⟨k, hk, e⟩ := times n _ u hu
      rw [(hr.2 v hv').1, e]
      exact ht.lt (by rw [(hr.2 v hv').2] at hk; omega)

theorem rising (ht : Ticks w) : ObjSB.Rising (http w decode) := by
  refine ⟨fun x st n v _ _ => ⟨_, rfl⟩, fun x st n _ => ?_⟩
  refine (times_inc ht n st).imp fun {v u} h k l hk hl => ?_
  simp only [http, Except.ok.injEq] at hk hl
  subst hk hl
  exact Prod.Lex.toLex_lt_toLex.2 (.inl h)

end

section
variable {T B E : Type} [LinearOrder T] [LinearOrder (List E)] {w : Web T B} {decode : List B → Py (List E)}
variable [BEq (T × List E)] [ReflBEq (T × List E)] {cfg : SBCfg (T ×ₗ List E) (T × List E)}
  {xs : List (ObjAct (T ×ₗ List E) (T × List E) Nat)} {s : ObjSB (St B) (T ×ₗ List E) (T × List E) Nat}

/-- **C111** what a session over HTTP stores, whatever the network does and whether or not the pieces can be decoded, is the decoded beginning of the response
its `open()` got, piece by piece, none skipped; and if a `read()` raised, that is what the next piece gave. For every setting of the buffer; the
clock moves on, and `start()` is called only when no earlier thread is alive. -/
theorem C111_no_hole (ht : Ticks w) (hf : ObjSB.Fits (http w decode) cfg)
    (he : (ObjSB.init new).exec (http w decode) cfg xs = some s)
    (hcalm : (ObjSB.init new : ObjSB (St B) (T ×ₗ List E) (T × List E) Nat).Calm (http w decode) cfg xs)
    (b : Nat) (hb : Ev.launched b ∈ s.sb.log) :
    ∃ l n, w.responses b = .ok l ∧
      (storedIn b s.sb.log ++ (s.sb.thr b).inHand).map (fun v => .ok v.2) = (List.range n).map (outcome decode l) ∧
      ∀ e, Ev.readRaised b e ∈ s.sb.log → (s.sb.thr b).inHand = [] ∧ outcome decode l n = .error e := by
  have hset := ObjSB.calm_settled he hcalm
  obtain ⟨st0, hst0, ⟨x0, hx0⟩, -⟩ := ObjSB.broken (rising ht) hf he hcalm b hb
  have ho : Opens s := by
    refine ObjSB.exec_ind_settled (P := fun s : ObjSB (St B) (T ×ₗ List E) (T × List E) Nat => Opens s) (fun _ _ _ _ h hs _ => h.step (ObjSB.below hs)) ⟨rfl, ?_⟩ he hset
    intro t st h; simp [ObjSB.init] at h
  have hx : open' w x0 = (.ok (), st0) := hx0
  simp only [open'] at hx
  split at hx
  · simp at hx
  rename_i l hl
  simp only [Prod.mk.injEq, true_and] at hx
  subst hx
  have hop : x0.opens = b := by have := ho.at' b _ hst0; simpa using this
  rw [hop] at hl
  obtain ⟨n, h1, h2⟩ := ObjSB.torn (rising ht) hf he hcalm b hb hst0 (fun j => (outcome decode l j).map fun r => (w.clock (x0.ticks + j), r)) fun n hn => by
    refine (answers_outcome n l _ _ hn).trans (List.map_congr_left fun j _ => ?_)
    cases outcome decode l j <;> rfl
  refine ⟨l, n, hl, ?_, fun e hev => ⟨(h2 e hev).1, ?_⟩⟩
  · have := congrArg (List.map (Except.map Prod.snd)) h1
    rw [List.map_map, List.map_map] at this
    refine this.trans (List.map_congr_left fun j _ => ?_)
    simp only [Function.comp]
    cases outcome decode l j <;> rfl
  · have := (h2 e hev).2
    cases ho : outcome decode l n <;> rw [ho] at this <;> simp_all [Except.map]

/-- **C111** and so a consumer of an unbounded buffer gets the pieces from the first, none skipped, none twice, up to the error if there is one. -/
theorem C111_consumer (ht : Ticks w) (hf : ObjSB.Fits (http w decode) cfg) (hm : cfg.maxlen = none) (hd : cfg.autoDrop = true) (b i : Nat)
    (hpk : (cfg.rdCfg i).peek = false) (he : (ObjSB.init new).exec (http w decode) cfg xs = some s)
    (hcalm : (ObjSB.init new : ObjSB (St B) (T ×ₗ List E) (T × List E) Nat).Calm (http w decode) cfg xs)
    (hu : ∀ a, .other a ∈ xs → SB.OneUser b i a) (hb : Ev.launched b ∈ s.sb.log)
    (c : Cons (T ×ₗ List E) (T × List E)) (hv : s.sb.view b = some c) :
    ∃ l n, w.responses b = .ok l ∧
      (received c i ++ unreadOf c.ch i ++ (s.sb.thr b).inHand).map (fun v => .ok v.2) = (List.range n).map (outcome decode l) ∧
      ∀ e, Ev.readRaised b e ∈ s.sb.log → (s.sb.thr b).inHand = [] ∧ outcome decode l n = .error e := by
  obtain ⟨bs, h1, h2, h3⟩ := ObjSB.real_one he (ObjSB.calm_settled he hcalm) hu
  rw [SB.C63_unbounded hm hd b i hpk h3 h1 c hv]
  exact C111_no_hole ht hf he hcalm b hb

/-- **C111** the same with `auto_drop=False`, however small the buffer, as long as nothing is dropped: reading the response waits for the room. -/
theorem C111_consumer_no_auto_drop (ht : Ticks w) (hf : ObjSB.Fits (http w decode) cfg) (hd : cfg.autoDrop = false) (b i : Nat)
    (hpk : (cfg.rdCfg i).peek = false) (he : (ObjSB.init new).exec (http w decode) cfg xs = some s)
    (hcalm : (ObjSB.init new : ObjSB (St B) (T ×ₗ List E) (T × List E) Nat).Calm (http w decode) cfg xs)
    (hu : ∀ a, .other a ∈ xs → SB.OneUser b i a) (hdr : droppedFrom b s.sb.log = []) (hb : Ev.launched b ∈ s.sb.log)
    (c : Cons (T ×ₗ List E) (T × List E)) (hv : s.sb.view b = some c) :
    ∃ l n, w.responses b = .ok l ∧
      (received c i ++ unreadOf c.ch i ++ (s.sb.thr b).inHand).map (fun v => .ok v.2) = (List.range n).map (outcome decode l) ∧
      ∀ e, Ev.readRaised b e ∈ s.sb.log → (s.sb.thr b).inHand = [] ∧ outcome decode l n = .error e := by
  obtain ⟨bs, h1, h2, h3⟩ := ObjSB.real_one he (ObjSB.calm_settled he hcalm) hu
  rw [SB.C84_no_auto_drop_partial hd b i hpk h3 h1 h2 hdr c hv]
  exact C111_no_hole ht hf he hcalm b hb

end
end HttpSrc
end S2P
