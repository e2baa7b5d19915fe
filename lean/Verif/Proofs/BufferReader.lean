import Verif.Model.Channel
import Verif.Spec.Window
import Verif.Proofs.SortedDeque
/- Lemmas about the reader model: every reader call equals the linear-scan reference. -/
namespace S2P
variable {K V : Type}

namespace SD

/-- Well-formed with strictly increasing keys: what a buffer filled by `append` is. -/
structure SWF [LinearOrder K] (s : SD K V) : Prop where
  wf : s.WF
  strict : s.items.Pairwise (fun v w => s.key v < s.key w)

section
variable [LinearOrder K] {s : SD K V}

theorem SWF.empty (key : V → K) (kn : Py (Option K)) (m : Option Nat) : (SD.empty key kn m).SWF :=
  ⟨⟨rfl, by simp [SD.empty], by simp [SD.empty]⟩, by simp [SD.empty]⟩

theorem SWF.append (h : s.SWF) (v : V) : (s.append v).1.SWF := by
  refine ⟨h.wf.append v, ?_⟩
  rw [(s.append_key v).1]
  exact append_strict (fun _ _ _ => lt_trans) h.wf.aligned h.strict v

theorem SWF.drop (h : s.SWF) (n : Int) : (s.drop n).1.SWF := by
  refine ⟨h.wf.drop n, ?_⟩
  rw [drop_eq h.wf]
  exact h.strict.drop

theorem index_self [BEq V] [ReflBEq V] (h : s.SWF) (a b : List V) (v : V) (hs : s.items = a ++ v :: b) :
    s.index v = .ok a.length := by
  simp only [index, h.wf.bisectLeft, h.wf.bisectRight, bind, Except.bind]
  have hst := h.strict
  rw [hs] at hst ⊢
  have h1 := List.pairwise_append.1 hst
  have h2 := List.pairwise_cons.1 h1.2.1
  have ha : ∀ w ∈ a, s.key w < s.key v := fun w hw => h1.2.2 w hw v (by simp)
  have hb : ∀ w ∈ b, s.key v < s.key w := fun w hw => h2.1 w hw
  have c1 : (a ++ v :: b).countP (fun w => decide (s.key w < s.key v)) = a.length := by
    rw [List.countP_append, List.countP_cons]
    have : a.countP (fun w => decide (s.key w < s.key v)) = a.length := by
      rw [List.countP_eq_length]; intro w hw; simpa using ha w hw
    have h0 : b.countP (fun w => decide (s.key w < s.key v)) = 0 := by
      rw [List.countP_eq_zero]; intro w hw; simpa using le_of_lt (hb w hw)
    simp [this, h0]
  have c2 : (a ++ v :: b).countP (fun w => decide (s.key w ≤ s.key v)) = a.length + 1 := by
    rw [List.countP_append, List.countP_cons]
    have : a.countP (fun w => decide (s.key w ≤ s.key v)) = a.length := by
      rw [List.countP_eq_length]; intro w hw; simpa using le_of_lt (ha w hw)
    have h0 : b.countP (fun w => decide (s.key w ≤ s.key v)) = 0 := by
      rw [List.countP_eq_zero]; intro w hw; simpa using hb w hw
    simp [this, h0]
  rw [c1, c2]
  unfold dqIndex
  have : ((a ++ v :: b).take (a.length + 1)).drop a.length = [v] := by
    simp [List.take_append]
  rw [this]
  simp

/-- The items up to the cursor, then the unread ones. -/
theorem unread_suffix (h : s.SWF) (c : Option V) :
    ∃ a, s.items = a ++ Spec.unread s.key s.items c ∧
      (∀ x, c = some x → ∀ w ∈ a, s.key w ≤ s.key x) ∧ (c = none → a = []) := by
  cases c with
  | none => exact ⟨[], by simp [Spec.unread], by simp, by simp⟩
  | some x =>
    refine ⟨s.items.filter (fun w => decide (s.key w ≤ s.key x)), ?_, ?_, by simp⟩
    · have h1 := take_countP (h.wf.mono_le (s.key x))
      have h2 := drop_countP (h.wf.mono_le (s.key x))
      have hd : s.items.filter (fun w => !decide (s.key w ≤ s.key x)) = Spec.unread s.key s.items (some x) := by
        apply List.filter_congr; intro w _; simp [← not_le]
      rw [← hd, ← h1, ← h2, List.take_append_drop]
    · rintro _ ⟨⟩ w hw; simpa using (List.mem_filter.1 hw).2

end
end SD

namespace Reader
open SD
variable [LinearOrder K] {s : SD K V} {r : Reader K V}

/-- The stored key is the key of the stored item. -/
def Coherent (s : SD K V) (r : Reader K V) : Prop := r.lastKey = r.lastItem.map s.key

theorem Coherent.setLast (s : SD K V) (r : Reader K V) (v : V) : (r.setLast s v).Coherent s := rfl

theorem getItem_zero (s : SD K V) : s.getItem 0 = match s.items.head? with | some v => .ok v | none => .error .indexError := by
  simp only [getItem, dqGetInt, dqGet]
  cases s.items <;> simp

theorem nextItem_eq (h : s.SWF) (hc : r.Coherent s) (ig : Bool) :
    r.nextItem s ig = match Spec.unread s.key s.items r.lastItem with
      | [] => if ig then .ok none else .error .valueError
      | v :: _ => .ok (some v) := by
  unfold nextItem
  rw [hc]
  cases hl : r.lastItem with
  | none =>
    simp only [Option.map_none, Spec.unread, findGt, bisectRight_none]
    by_cases he : s.items = []
    · have : s.keys = [] := by rw [h.wf.aligned, he]; rfl
      simp [this, he, bind, Except.bind, len]
    · have : s.keys ≠ [] := by rw [h.wf.aligned]; simpa using he
      simp only [this, if_false, bind, Except.bind]
      rw [getItem_zero]
      cases hi : s.items with
      | nil => exact absurd hi he
      | cons v vs => simp [Except.map]
  | some x =>
    simp only [Option.map_some, Spec.unread]
    rw [findGt_some h.wf, first_eq]
    cases List.filter (fun v => decide (s.key x < s.key v)) s.items <;> simp

/-- Result of `read` with the arguments resolved. -/
theorem read_eq [BEq V] [ReflBEq V] (h : s.SWF) (hc : r.Coherent s) (n : Option Int) (p i st : Option Bool) :
    (r.read s n p i st).1 = Spec.read s.key s.items r.lastItem (n.getD r.cfg.n) (i.getD r.cfg.ignore) (st.getD r.cfg.strict) ∧
    (r.read s n p i st).2.lastItem = Spec.move (p.getD false) r.lastItem
      (Spec.read s.key s.items r.lastItem (n.getD r.cfg.n) (i.getD r.cfg.ignore) (st.getD r.cfg.strict)) ∧
    (r.read s n p i st).2.Coherent s ∧ (r.read s n p i st).2.cfg = r.cfg := by
  unfold read Spec.read
  simp only [nextItem_eq h hc]
  obtain ⟨a, ha, -, -⟩ := unread_suffix h r.lastItem
  generalize n.getD r.cfg.n = n
  generalize i.getD r.cfg.ignore = i
  generalize st.getD r.cfg.strict = st
  generalize p.getD false = p
  generalize hu : Spec.unread s.key s.items r.lastItem = u at ha ⊢
  cases u with
  | nil => cases i <;> cases p <;> simp [Spec.noItem, Spec.move, Spec.cursorAfter, hc]
  | cons v vs =>
    by_cases hn : n ≤ 1
    · have hn' : ¬ n > 1 := by omega
      simp only [hn, hn', if_true, if_false]
      cases p <;> simp [Spec.move, Spec.cursorAfter, setLast, Coherent, hc]
      · exact hc
    · have hn' : n > 1 := by omega
      simp only [hn, hn', if_true, if_false]
      rw [index_self h a vs v ha]
      dsimp only
      have hlen : s.len = a.length + (v :: vs).length := by unfold len; rw [ha]; simp
      have hcond : ((a.length : Int) + n ≥ (s.len : Int)) ↔ ((v :: vs).length : Int) ≤ n := by
        rw [hlen]; push_cast; omega
      have hr : s.rangeByIndex a.length ((a.length : Int) + n).toNat none = .ok ((v :: vs).take n.toNat) := by
        unfold rangeByIndex islice
        have : ((a.length : Int) + n).toNat = a.length + n.toNat := by omega
        rw [this, ha, List.take_length_add_append]
        simp
      rw [hr]
      by_cases hst : st = true ∧ ((v :: vs).length : Int) ≤ n
      · have : (st && decide ((a.length : Int) + n ≥ (s.len : Int))) = true := by
          rw [Bool.and_eq_true, decide_eq_true_iff, hcond]; exact hst
        rw [if_pos this, if_pos hst]
        cases p <;> simp [Spec.move, Spec.cursorAfter, hc]
      · have : (st && decide ((a.length : Int) + n ≥ (s.len : Int))) = false := by
          rw [← Bool.not_eq_true, Bool.and_eq_true, decide_eq_true_iff, hcond]; exact hst
        rw [if_neg (by rw [this]; simp), if_neg hst]
        have hne : (v :: vs).take n.toNat ≠ [] := by
          obtain ⟨k, hk⟩ : ∃ k, n.toNat = k + 1 := ⟨n.toNat - 1, by omega⟩
          rw [hk]; simp
        cases p with
        | true => simp [Spec.move, hc]
        | false =>
          obtain ⟨z, hz⟩ : ∃ z, ((v :: vs).take n.toNat).getLast? = some z := by
            cases hq : ((v :: vs).take n.toNat).getLast? with
            | none => exact absurd (by simpa using hq) hne
            | some z => exact ⟨z, rfl⟩
          simp [dqLast_eq, hz, Spec.move, Spec.cursorAfter, setLast, Coherent]

/-- `read(n=1, peek=True)`, as used inside `range`. -/
theorem read_peek_one [BEq V] [ReflBEq V] (h : s.SWF) (hc : r.Coherent s) (ig : Bool) :
    (r.read s (some 1) (some true) (some ig) none).1 = match Spec.unread s.key s.items r.lastItem with
      | [] => if ig then .ok .none else .error .valueError
      | v :: _ => .ok (.one v) := by
  rw [(read_eq h hc _ _ _ _).1]
  unfold Spec.read
  cases Spec.unread s.key s.items r.lastItem <;> simp [Spec.noItem]

theorem rangeStart_eq [BEq V] [ReflBEq V] (h : s.SWF) (hc : r.Coherent s) (start : K) (ig on : Bool) :
    r.rangeStart s start ig on = Spec.lowerBound s.key s.keyNone s.items r.lastItem start ig on := by
  unfold rangeStart Spec.lowerBound
  have hk : r.lastKey.isSome = r.lastItem.isSome := by rw [hc]; simp
  rw [hk, read_peek_one h hc]
  cases on with
  | false => simp
  | true =>
    cases hl : r.lastItem with
    | none => simp
    | some x =>
      simp only [Option.isSome_some, Bool.and_self, if_true, Option.isNone_some, Bool.false_eq_true, or_self,
        if_false, reduceCtorEq]
      cases hu : Spec.unread s.key s.items (some x) with
      | cons v vs =>
        simp only [ltPy]
        by_cases hv : s.key v < start <;> simp [hv]
      | nil =>
        cases ig with
        | false => simp
        | true =>
          simp only [if_true, reduceCtorEq, if_false]
          cases s.keyNone with
          | error e => cases e <;> simp
          | ok o =>
            cases o with
            | none => simp [ltPy]
            | some k =>
              simp only [ltPy]
              by_cases hv : k < start <;> simp [hv]

theorem roundStart_eq (h : s.SWF) (start : K) (le : Bool) :
    roundStart s start le = .ok (if le then
      (match Spec.last (fun v => decide (s.key v ≤ start)) s.items with | .ok v => s.key v | .error _ => start) else start) := by
  unfold roundStart
  cases le with
  | false => simp
  | true =>
    simp only [if_true]
    rw [findLe_some h.wf, last_eq]
    cases (List.filter (fun v => decide (s.key v ≤ start)) s.items).getLast? <;> simp

theorem roundStop_eq (h : s.SWF) (stop : K) (ig ge : Bool) :
    roundStop s stop ig ge =
      match (if ge then (Spec.first (fun v => decide (stop ≤ s.key v)) s.items).map s.key else .ok stop) with
      | .error _ => if ig then .ok none else .error .valueError
      | .ok hi => .ok (some hi) := by
  unfold roundStop
  cases ge with
  | false => simp
  | true =>
    simp only [if_true]
    rw [findGe_some h.wf, first_eq]
    cases (List.filter (fun v => decide (stop ≤ s.key v)) s.items).head? <;> simp [Except.map]

theorem range_eq [BEq V] [ReflBEq V] (h : s.SWF) (hc : r.Coherent s) (start stop : K) (step : Option Int) (p : Bool)
    (i : Option Bool) (on le ge : Bool) :
    let res := Spec.range s.key s.keyNone s.items r.lastItem start stop step p (i.getD r.cfg.ignore) on le ge
    (r.range s start stop step p i on le ge).1 = res ∧
    (r.range s start stop step p i on le ge).2.lastItem = Spec.move p r.lastItem res ∧
    (r.range s start stop step p i on le ge).2.Coherent s ∧ (r.range s start stop step p i on le ge).2.cfg = r.cfg := by
  have hid : Spec.move p r.lastItem (.ok .none) = r.lastItem := by cases p <;> rfl
  have hide : ∀ e, Spec.move p r.lastItem (.error e) = r.lastItem := by intro e; cases p <;> rfl
  dsimp only
  unfold range Spec.range
  dsimp only
  rw [rangeStart_eq h hc]
  generalize i.getD r.cfg.ignore = i
  cases Spec.lowerBound s.key s.keyNone s.items r.lastItem start i on with
  | error e => exact ⟨rfl, (hide e).symm, hc, rfl⟩
  | ok lo =>
    cases lo with
    | none => exact ⟨rfl, hid.symm, hc, rfl⟩
    | some lo =>
      dsimp only
      rw [roundStart_eq h]
      dsimp only
      generalize (if le then (match Spec.last (fun v => decide (s.key v ≤ lo)) s.items with
        | .ok v => s.key v | .error _ => lo) else lo) = lo
      rw [roundStop_eq h]
      generalize (if ge then (Spec.first (fun v => decide (stop ≤ s.key v)) s.items).map s.key else .ok stop) = hi
      cases hi with
      | error e =>
        cases i with
        | true => exact ⟨rfl, hid.symm, hc, rfl⟩
        | false => exact ⟨rfl, (hide _).symm, hc, rfl⟩
      | ok hi =>
        dsimp only
        rw [range_some h.wf]
        unfold Spec.answer
        -- the last part, for any list of items
        have fin : ∀ l : List V,
            let res := Spec.finish p i l
            let mdl : Py (Ret V) × Reader K V := if !p then
                match dqLast l with
                | .ok v => (.ok (.many l), r.setLast s v)
                | .error e => if i then (.ok .none, r) else (.error e, r)
              else (.ok (.many l), r)
            mdl.1 = res ∧ mdl.2.lastItem = Spec.move p r.lastItem res ∧ mdl.2.Coherent s ∧ mdl.2.cfg = r.cfg := by
          intro l
          dsimp only
          unfold Spec.finish
          rw [dqLast_eq]
          cases p with
          | true => simp [Spec.move, hc]
          | false =>
            cases hl : l.getLast? with
            | none =>
              have : l = [] := by simpa using hl
              subst this
              cases i <;> simp [Spec.move, Spec.cursorAfter, hc]
            | some z =>
              have : l ≠ [] := by rintro rfl; simp at hl
              simp [this, Spec.move, Spec.cursorAfter, hl, setLast, Coherent]
        cases step with
        | none => exact fin _
        | some st =>
          dsimp only
          by_cases hst : st ≤ 0
          · simp only [hst, if_true]; exact ⟨trivial, (hide _).symm, hc, trivial⟩
          · simp only [hst, if_false]
            rw [everyNth_stride _ (by omega)]
            exact fin _

theorem tail_eq (h : s.SWF) (hc : r.Coherent s) (p i on : Bool) :
    let res := Spec.tail s.key s.items r.lastItem i on
    (r.tail s p i on).1 = res ∧ (r.tail s p i on).2.lastItem = Spec.move p r.lastItem res ∧
    (r.tail s p i on).2.Coherent s ∧ (r.tail s p i on).2.cfg = r.cfg := by
  have hg : s.getItem (-1) = match s.items.getLast? with | some x => .ok x | none => .error .indexError :=
    dqLast_eq s.items
  have hcond : (match (if on then
        match s.findLastGt r.lastKey with
        | .ok v => .ok (some v)
        | .error .valueError => if i then .ok .none else .error .valueError
        | .error .typeError =>
          match r.lastItem with
          | .none => (s.getItem (-1)).map some
          | some _ => .error .typeError
        | .error e => .error e
      else
        match s.getItem (-1) with
        | .ok v => .ok (some v)
        | .error e => if i then .ok .none else .error e : Py (Option V)) with
      | .error e => (.error e : Py (Ret V)) | .ok none => .ok .none | .ok (some v) => .ok (.one v)) =
      Spec.tail s.key s.items r.lastItem i on := by
    unfold Spec.tail
    rw [hg]
    have hf : s.findLastGt r.lastKey = match s.items.getLast?, r.lastItem with
        | none, _ => .error .valueError
        | some _, none => .error .typeError
        | some w, some c => if s.key c < s.key w then .ok w else .error .valueError := by
      unfold findLastGt
      rw [dqLast_eq, dqLast_eq, h.wf.aligned, List.getLast?_map, hc]
      cases hl : s.items.getLast? with
      | none => simp only [List.getLast?_eq_none_iff] at hl; simp [hl]
      | some w =>
        cases r.lastItem with
        | none => simp [ltPy]
        | some c =>
          simp only [Option.map_some, ltPy]
          by_cases hk : s.key c < s.key w <;> simp [hk]
    rw [hf]
    cases s.items.getLast? with
    | none => cases on <;> cases i <;> simp
    | some w =>
      cases on with
      | false => simp
      | true =>
        cases r.lastItem with
        | none => simp [Except.map]
        | some c =>
          by_cases hk : s.key c < s.key w
          · simp [hk]
          · cases i <;> simp [hk, Spec.noItem]
  dsimp only
  rw [← hcond]
  unfold tail
  dsimp only
  generalize (if on then _ else _ : Py (Option V)) = it
  cases it with
  | error e => cases p <;> exact ⟨rfl, rfl, hc, rfl⟩
  | ok o =>
    cases o with
    | none => cases p <;> exact ⟨rfl, rfl, hc, rfl⟩
    | some v => cases p <;> simp [Spec.move, Spec.cursorAfter, setLast, Coherent]
                exact hc

theorem head_eq (hc : r.Coherent s) (p : Bool) :
    let res := Spec.head s.items
    (r.head s p).1 = res ∧ (r.head s p).2.lastItem = Spec.move p r.lastItem res ∧
    (r.head s p).2.Coherent s ∧ (r.head s p).2.cfg = r.cfg := by
  dsimp only
  unfold head Spec.head
  rw [getItem_zero]
  cases s.items.head? with
  | none => cases p <;> exact ⟨rfl, rfl, hc, rfl⟩
  | some v => cases p <;> simp [Spec.move, Spec.cursorAfter, setLast, Coherent]
              exact hc

end Reader

namespace Ch
open SD Reader
variable [LinearOrder K] [BEq V] [ReflBEq V]

/-- Every reader call agrees with the linear-scan reference and keeps the reader coherent. -/
theorem rdStep_eq {s : SD K V} {r : Reader K V} (h : s.SWF) (hc : r.Coherent s) (op : RdOp K V) :
    (rdStep s r op).1 = (Spec.rdStep s.key s.keyNone s.items r.cfg r.lastItem op).1 ∧
    (rdStep s r op).2.lastItem = (Spec.rdStep s.key s.keyNone s.items r.cfg r.lastItem op).2 ∧
    (rdStep s r op).2.Coherent s ∧ (rdStep s r op).2.cfg = r.cfg := by
  cases op with
  | read n p i st => exact read_eq h hc n p i st
  | nextMethod n p i st => exact read_eq h hc (some n) (some p) (some i) (some st)
  | readForNext => exact read_eq h hc (some _) (some _) (some _) (some _)
  | range a b st p i o le ge => exact range_eq h hc a b st p i o le ge
  | tail p i o => exact tail_eq h hc p i o
  | head p => exact head_eq hc p
  | setLast v => exact ⟨rfl, rfl, rfl, rfl⟩
  | delLast => exact ⟨rfl, rfl, rfl, rfl⟩

/-- Simulation relation. -/
structure Sim (key : V → K) (kn : Py (Option K)) (m : Option Nat) (cfg : Nat → Cfg) (c : Ch K V) (w : Spec.Window V) : Prop where
  swf : c.buf.SWF
  items : c.buf.items = w.items
  key : c.buf.key = key
  kn : c.buf.keyNone = kn
  maxlen : c.buf.maxlen = m
  cur : ∀ i, (c.readers i).lastItem = w.cur i
  coh : ∀ i, (c.readers i).Coherent c.buf
  cfg : ∀ i, (c.readers i).cfg = cfg i

theorem Sim.init (key : V → K) (kn : Py (Option K)) (m : Option Nat) (cfg : Nat → Cfg) :
    Sim key kn m cfg (Ch.init key kn m cfg) Spec.Window.init :=
  ⟨SWF.empty _ _ _, rfl, rfl, rfl, rfl, fun _ => rfl, fun _ => rfl, fun _ => rfl⟩

omit [BEq V] [ReflBEq V] in
theorem coherent_of_key {s s' : SD K V} (h : s'.key = s.key) {r : Reader K V} (hc : r.Coherent s) : r.Coherent s' := by
  unfold Reader.Coherent at *; rw [h]; exact hc

theorem Sim.step {key : V → K} {kn : Py (Option K)} {m : Option Nat} {cfg : Nat → Cfg} {c : Ch K V} {w : Spec.Window V}
    (h : Sim key kn m cfg c w) (op : ChOp K V) :
    (c.step op).2 = (w.step key kn m cfg op).2 ∧ Sim key kn m cfg (c.step op).1 (w.step key kn m cfg op).1 := by
  cases op with
  | append v =>
    have hap := append_eq h.swf.wf.aligned h.swf.wf.bounded v
    have hk := c.buf.append_key v
    have hsw := h.swf.append v
    simp only [Ch.step, Spec.Window.step, ← h.items, ← h.key, ← h.maxlen]
    by_cases hm : Spec.mayAppend c.buf.key c.buf.items v = true
    · rw [if_pos hm] at hap ⊢
      rw [hap] at hk hsw ⊢
      exact ⟨rfl, hsw, rfl, rfl, h.kn, rfl, h.cur, fun i => coherent_of_key hk.1 (h.coh i), h.cfg⟩
    · rw [if_neg hm] at hap ⊢
      rw [hap]
      exact ⟨rfl, h.swf, h.items ▸ rfl, rfl, h.kn, rfl, h.cur, h.coh, h.cfg⟩
  | drop n =>
    have hd := drop_eq h.swf.wf n
    have hsw := h.swf.drop n
    simp only [Ch.step, Spec.Window.step, ← h.items]
    rw [hd] at hsw ⊢
    refine ⟨?_, hsw, rfl, h.key, h.kn, h.maxlen, h.cur, fun i => h.coh i, h.cfg⟩
    dsimp only
    split <;> rfl
  | rd i op =>
    obtain ⟨h1, h2, h3, h4⟩ := rdStep_eq h.swf (h.coh i) op
    rw [h.key, h.kn, h.items, h.cfg, h.cur] at h1 h2
    refine ⟨h1, h.swf, h.items, h.key, h.kn, h.maxlen, ?_, ?_, ?_⟩
    · intro j
      simp only [Ch.step, Spec.Window.step]
      by_cases hj : j = i
      · simp [hj, h2]
      · simp [hj, h.cur j]
    · intro j
      simp only [Ch.step]
      by_cases hj : j = i
      · simp only [hj, if_true]; exact h3
      · simp only [hj, if_false]; exact h.coh j
    · intro j
      simp only [Ch.step]
      by_cases hj : j = i
      · simp only [hj, if_true, h4]; exact h.cfg i
      · simp only [hj, if_false]; exact h.cfg j

theorem Sim.run {key : V → K} {kn : Py (Option K)} {m : Option Nat} {cfg : Nat → Cfg} (ops : List (ChOp K V))
    {c : Ch K V} {w : Spec.Window V} (h : Sim key kn m cfg c w) :
    (c.run ops).2 = (w.run key kn m cfg ops).2 ∧ Sim key kn m cfg (c.run ops).1 (w.run key kn m cfg ops).1 := by
  induction ops generalizing c w with
  | nil => exact ⟨rfl, h⟩
  | cons op ops ih =>
    obtain ⟨h1, h2⟩ := h.step op
    obtain ⟨h3, h4⟩ := ih h2
    exact ⟨by simp only [Ch.run, Spec.Window.run, h1, h3], h4⟩

end Ch
end S2P
