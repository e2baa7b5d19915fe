import Verif.Props.ShortSession
import Verif.Props.Served
/-
C121: `range`, `head` and `tail` called at any moment of any execution of a stream buffer: what they return, in terms of what was stored in the session so far.
`storedIn b s.log`: the items stored in session `b` up to this moment, in order (Spec/Log.lean).
-/
namespace S2P
open Spec
variable {K V I : Type}
namespace SB
variable [LinearOrder K] [BEq V] [ReflBEq V] {cfg : SBCfg K V} {s s' : SB K V I} {as : List (SBAct K V I)}

/-- What a call made on reader `i` of session `b` now returns: `s'` is the state after it, `r` its outcome, which is the last one recorded. -/
def Returns (cfg : SBCfg K V) (s : SB K V I) (b i : Nat) (op : RdOp K V) (r : Py (Ret V)) (s' : SB K V I) : Prop :=
  s.step cfg (.rd b (.call (.rd i op))) = some s' ∧ ∃ c, s'.view b = some c ∧ c.outs.getLast? = some r

theorem call_now {b i : Nat} {op : RdOp K V} {r : Py (Ret V)} (he : SB.init.exec cfg as = some s) (h : Returns cfg s b i op r s') :
    ∃ c : Cons K V, s.view b = some c ∧ c.ch.Reach cfg.key cfg.keyNone cfg.maxlen cfg.rdCfg ∧ c.ch.buf.items = s.items b ∧ r = (c.ch.step (.rd i op)).2 := by
  obtain ⟨hs, c', hv, hr⟩ := h
  simp only [step, CAct.isReaders, if_true] at hs
  split at hs
  · cases hs
  · rename_i x hx
    simp only [Cons.step, Option.some.injEq] at hs
    subst hs
    have hv0 : s.view b = some { x.cons with stopped := s.flag x.evt } := by simp [view, hx]
    refine ⟨_, hv0, (view_reach he b _ hv0).ch, by simp [items, hx], ?_⟩
    simp only [view, setBuf, if_true, Option.map_some, Option.some.injEq] at hv
    subst hv
    simpa [Cons.call] using hr.symm

/-- What a session's buffer retains is the end of what was stored in the session. Every execution. -/
theorem retained_suffix (he : SB.init.exec cfg as = some s) (b : Nat) : s.items b <:+ storedIn b s.log := by
  refine ind (P := fun s : SB K V I => s.items b <:+ storedIn b s.log) (by simp [SB.init, items]) ?_ he
  intro s a s' hg ih hs
  cases data_step hg.inv hg.bufs hs b with
  | same h1 h2 => rw [h1, h2]; exact ih
  | stored t v _ _ hma h1 h2 =>
    rw [h1, h2]
    obtain ⟨l, hl⟩ := ih
    exact (newest_suffix _ _).trans ⟨l, by rw [← hl]; simp⟩
  | dropped n _ _ h1 h2 => rw [h1, h2]; exact (List.drop_suffix _ _).trans ih

/-- The outcome of `range(start, stop, step, peek=p, ignore_no_item_found=ig)` if `l` are the items whose keys are in the closed interval: `l`, or every
`step`-th of it; if there are none (and it is not a peek) `None` or an `IndexError`. -/
def rangeOutcome (step : Option Nat) (p ig : Bool) (l : List V) : Py (Ret V) :=
  if l = [] ∧ p = false then (if ig then .ok .none else .error .indexError)
  else .ok (.many (match step with | none => l | some n => stride n l))

omit [LinearOrder K] [BEq V] [ReflBEq V] in
theorem stride_nil_iff {n : Nat} {l : List V} : stride n l = [] ↔ l = [] := by
  cases l with
  | nil => simp [stride]
  | cons v l => simp [stride]; exact ⟨0, by omega, by omega⟩

/-- **C121** whatever the settings, at any moment: what `range(start, stop, step, ...)` returns are the items whose keys are in the interval (every `step`-th
of them) out of the end `w` of what was stored in the session so far. With `auto_drop=True` `w` is the newest `maxlen`; with `auto_drop=False` (restarts
finding no earlier thread alive) what was not dropped. -/
theorem C121_range (he : SB.init.exec cfg as = some s) {b i : Nat} {start stop : K} {st : Option Nat} (hst : st ≠ some 0) {p ig : Bool} {r : Py (Ret V)}
    (h : Returns cfg s b i (.range start stop (st.map Int.ofNat) p (some ig) false false false) r s') :
    ∃ w, w <:+ storedIn b s.log ∧ r = rangeOutcome st p ig (w.filter fun v => decide (start ≤ cfg.key v) && decide (cfg.key v ≤ stop)) ∧
      (cfg.autoDrop = true → w = newest cfg.maxlen (storedIn b s.log)) ∧
      (cfg.autoDrop = false → SB.init.Settled cfg as → storedIn b s.log = droppedFrom b s.log ++ w) := by
  obtain ⟨c, hv, hc, hi, rfl⟩ := call_now he h
  refine ⟨s.items b, retained_suffix he b, ?_, fun hd => (C34_only_eviction hd he b).1, fun hd hset => C33_nothing_lost_partial hd he hset b⟩
  rw [(hc.rd i _).1, ← hi]
  simp only [rdStep, Spec.range, lowerBound, true_or, if_true, Bool.false_eq_true, if_false, Option.getD_some]
  cases st with
  | none => rfl
  | some n =>
    have hn : ¬ ((n : Int) ≤ 0) := fun h => hst (by congr; omega)
    simp only [Option.map_some, Spec.answer, Int.ofNat_eq_natCast, hn, if_false, finish, rangeOutcome, stride_nil_iff, Int.toNat_natCast, between]

omit [BEq V] [ReflBEq V] in
/-- The end of an increasing list contains all that is at or above `k`, if there are no more than `m` such items. -/
theorem newest_above {key : V → K} {l : List V} (hl : l.Pairwise fun v w => key v < key w) (k : K) (m : Nat)
    (h : (l.filter fun v => decide (k ≤ key v)).length ≤ m) (v : V) (hv : v ∈ l) (hk : k ≤ key v) : v ∈ l.drop (l.length - m) := by
  induction l with
  | nil => cases hv
  | cons x l ih =>
    rw [List.pairwise_cons] at hl
    by_cases hm : l.length + 1 ≤ m
    · have : (x :: l).length - m = 0 := by simp; omega
      rw [this]; exact hv
    · have e : (x :: l).length - m = (l.length - m) + 1 := by simp; omega
      rw [e, List.drop_succ_cons]
      by_cases hx : k ≤ key x
      · exfalso
        have : (x :: l).filter (fun v => decide (k ≤ key v)) = x :: l := by
          rw [List.filter_eq_self]
          intro a ha
          rcases List.mem_cons.1 ha with rfl | ha
          · simpa using hx
          · simpa using le_of_lt (lt_of_le_of_lt hx (hl.1 a ha))
        rw [this] at h; simp at h; omega
      · rw [List.filter_cons_of_neg (by simpa using hx)] at h
        rcases List.mem_cons.1 hv with rfl | hv
        · exact absurd hk hx
        · exact ih hl.2 h hv

/-- **C121** so one can look back `maxlen` items: with `auto_drop=True`, if no more than `maxlen` items with keys at or above `start` have been stored, the
range is complete: all items stored in the session with keys in the interval. -/
theorem C121_complete (hd : cfg.autoDrop = true) (he : SB.init.exec cfg as = some s) {b i : Nat} {start stop : K} {st : Option Nat} (hst : st ≠ some 0)
    {p ig : Bool} {r : Py (Ret V)} (h : Returns cfg s b i (.range start stop (st.map Int.ofNat) p (some ig) false false false) r s')
    (hm : ∀ m, cfg.maxlen = some m → ((storedIn b s.log).filter fun v => decide (start ≤ cfg.key v)).length ≤ m) :
    r = rangeOutcome st p ig ((storedIn b s.log).filter fun v => decide (start ≤ cfg.key v) && decide (cfg.key v ≤ stop)) := by
  obtain ⟨w, -, rfl, hw, -⟩ := C121_range he hst h
  rw [hw hd]
  congr 1
  unfold newest
  cases hml : cfg.maxlen with
  | none => rfl
  | some m =>
    have hm := hm m hml
    simp only
    by_cases h0 : m = 0
    · subst h0
      have h1 : (storedIn b s.log).filter (fun v => decide (start ≤ cfg.key v)) = [] := List.length_eq_zero_iff.1 (by omega)
      rw [List.filter_eq_nil_iff] at h1
      simp only [Nat.sub_zero, List.drop_length, List.filter_nil]
      symm
      rw [List.filter_eq_nil_iff]
      intro v hv hvv
      rw [Bool.and_eq_true] at hvv
      exact h1 v hv hvv.1
    · have hinc := (C94_stored_increasing hd (by rw [hml]; simpa using h0) he b).1
      conv => rhs; rw [← List.take_append_drop ((storedIn b s.log).length - m) (storedIn b s.log), List.filter_append]
      have : ((storedIn b s.log).take ((storedIn b s.log).length - m)).filter (fun v => decide (start ≤ cfg.key v) && decide (cfg.key v ≤ stop)) = [] := by
        rw [List.filter_eq_nil_iff]
        intro v hv hvv
        rw [Bool.and_eq_true, decide_eq_true_iff] at hvv
        have h1 := newest_above hinc start m hm v (List.mem_of_mem_take hv) hvv.1
        rw [← List.take_append_drop ((storedIn b s.log).length - m) (storedIn b s.log), List.pairwise_append] at hinc
        exact lt_irrefl _ (hinc.2.2 v hv v h1)
      rw [this, List.nil_append]

/-- **C121** `tail()` returns the item stored last and `head()` the oldest of the newest `maxlen` (`auto_drop=True`, `maxlen` not 0), if anything was
stored. -/
theorem C121_ends (hd : cfg.autoDrop = true) (hm : cfg.maxlen ≠ some 0) (he : SB.init.exec cfg as = some s) {b i : Nat} {p ig : Bool} {r : Py (Ret V)}
    (hne : storedIn b s.log ≠ []) :
    (Returns cfg s b i (.tail p ig false) r s' → ∃ v, (storedIn b s.log).getLast? = some v ∧ r = .ok (.one v)) ∧
    (Returns cfg s b i (.head p) r s' → ∃ v, (newest cfg.maxlen (storedIn b s.log)).head? = some v ∧ r = .ok (.one v)) := by
  have h1 := (C94_stored_increasing hd hm he b).2
  have h2 := (C34_only_eviction hd he b).1
  obtain ⟨w, hw⟩ : ∃ w, (storedIn b s.log).getLast? = some w := by
    cases h : (storedIn b s.log).getLast? with
    | none => exact absurd (List.getLast?_eq_none_iff.1 h) hne
    | some w => exact ⟨w, rfl⟩
  have hw' : (s.items b).getLast? = some w := by rw [← h1, hw]
  obtain ⟨v, hv⟩ : ∃ v, (s.items b).head? = some v := by
    cases h : (s.items b).head? with
    | none => rw [List.head?_eq_none_iff.1 h] at hw'; cases hw'
    | some v => exact ⟨v, rfl⟩
  constructor
  · intro h
    obtain ⟨c, -, hc, hi, rfl⟩ := call_now he h
    exact ⟨w, hw, (C23_head_tail hc i p ig v w (by rw [hi, hv]) (by rw [hi, hw'])).2.1⟩
  · intro h
    obtain ⟨c, -, hc, hi, rfl⟩ := call_now he h
    exact ⟨v, by rw [← h2, hv], (C23_head_tail hc i p ig v w (by rw [hi, hv]) (by rw [hi, hw'])).1⟩

end SB
end S2P
