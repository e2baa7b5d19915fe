import Verif.Proofs.BufferReader
import Verif.Spec.Log
import Verif.Spec.Deliver
/- The window reference refines the positional log, when appended keys increase. -/
namespace S2P
variable {K V : Type} [LinearOrder K]

/-- The cursor is at position `p` of the log. -/
def AtPos (log : List V) (p : Nat) (c : Option V) : Prop :=
  (p = 0 ∧ c = none) ∨ (∃ q v, p = q + 1 ∧ log[q]? = some v ∧ c = some v)

/-- A window seen as a log. -/
structure LogRel (key : V → K) (w : Spec.Window V) (l : Spec.Log V) : Prop where
  items : w.items = l.log.drop l.evicted
  ev : l.evicted ≤ l.log.length
  inc : l.log.Pairwise (fun v w => key v < key w)
  pos : ∀ i, AtPos l.log (l.pos i) (w.cur i)

theorem AtPos.le {log : List V} {p : Nat} {c : Option V} (h : AtPos log p c) : p ≤ log.length := by
  rcases h with ⟨rfl, _⟩ | ⟨q, v, rfl, hq, _⟩
  · omega
  · have := List.getElem?_eq_some_iff.1 hq; obtain ⟨h, _⟩ := this; omega

theorem AtPos.append {log : List V} {p : Nat} {c : Option V} (h : AtPos log p c) (x : V) : AtPos (log ++ [x]) p c := by
  rcases h with h | ⟨q, v, rfl, hq, hc⟩
  · exact .inl h
  · right
    refine ⟨q, v, rfl, ?_, hc⟩
    have := (List.getElem?_eq_some_iff.1 hq).1
    rw [List.getElem?_append_left this, hq]

/-- Items with a key above the one at position `q` are those after `q`. -/
theorem filter_above {key : V → K} {log : List V} (h : log.Pairwise (fun v w => key v < key w)) {q : Nat} {c : V}
    (hq : log[q]? = some c) (e : Nat) :
    (log.drop e).filter (fun v => decide (key c < key v)) = log.drop (max e (q + 1)) := by
  obtain ⟨hlt, hget⟩ := List.getElem?_eq_some_iff.1 hq
  have hdec : log = log.take q ++ c :: log.drop (q + 1) := by
    rw [← hget, ← List.drop_eq_getElem_cons hlt, List.take_append_drop]
  have h1 := List.pairwise_append.1 (hdec ▸ h)
  have hpre : ∀ v ∈ log.take (q + 1), ¬ key c < key v := by
    intro v hv
    rw [List.take_add_one, hq] at hv
    rcases List.mem_append.1 hv with hv | hv
    · exact not_lt.2 (le_of_lt (h1.2.2 v hv c (by simp)))
    · simp at hv; subst hv; exact lt_irrefl _
  have hpost : ∀ v ∈ log.drop (q + 1), key c < key v := fun v hv => (List.pairwise_cons.1 h1.2.1).1 v hv
  by_cases he : e ≤ q + 1
  · rw [Nat.max_eq_right he]
    have : log.drop e = (log.take (q + 1)).drop e ++ log.drop (q + 1) := by
      conv_lhs => rw [← List.take_append_drop (q + 1) log]
      rw [List.drop_append_of_le_length (by rw [List.length_take]; omega)]
    rw [this, List.filter_append]
    have f1 : ((log.take (q + 1)).drop e).filter (fun v => decide (key c < key v)) = [] := by
      rw [List.filter_eq_nil_iff]; intro v hv; simpa using hpre v (List.mem_of_mem_drop hv)
    have f2 : (log.drop (q + 1)).filter (fun v => decide (key c < key v)) = log.drop (q + 1) := by
      rw [List.filter_eq_self]; intro v hv; simpa using hpost v hv
    rw [f1, f2]; rfl
  · rw [Nat.max_eq_left (by omega)]
    rw [List.filter_eq_self]; intro v hv
    have : v ∈ log.drop (q + 1) := by
      have : log.drop e = (log.drop (q + 1)).drop (e - (q + 1)) := by rw [List.drop_drop]; congr 1; omega
      rw [this] at hv; exact List.mem_of_mem_drop hv
    simpa using hpost v this

theorem LogRel.unread {key : V → K} {w : Spec.Window V} {l : Spec.Log V} (h : LogRel key w l) (i : Nat) :
    Spec.unread key w.items (w.cur i) = l.log.drop (l.at_ i) := by
  rw [h.items]
  unfold Spec.Log.at_
  rcases h.pos i with ⟨h0, hc⟩ | ⟨q, v, hp, hq, hc⟩
  · rw [hc, h0]; simp [Spec.unread]
  · rw [hc, hp]
    exact filter_above h.inc hq _

theorem LogRel.read {key : V → K} {w : Spec.Window V} {l : Spec.Log V} (h : LogRel key w l) (i : Nat) (n : Int) (ig st : Bool) :
    Spec.read key w.items (w.cur i) n ig st = (l.read i n ig st).1 ∧
    ((l.read i n ig st).2 = 0 → Spec.cursorAfter (w.cur i) (l.read i n ig st).1 = w.cur i) ∧
    ((l.read i n ig st).2 ≠ 0 →
      AtPos l.log (l.at_ i + (l.read i n ig st).2) (Spec.cursorAfter (w.cur i) (l.read i n ig st).1)) ∧
    ((l.read i n ig st).1.map Ret.items).toOption.getD [] = (l.log.drop (l.at_ i)).take (l.read i n ig st).2 := by
  unfold Spec.read Spec.Log.read
  rw [h.unread i]
  cases hd : l.log.drop (l.at_ i) with
  | nil =>
    have : l.log[l.at_ i]? = none := by
      rw [List.getElem?_eq_none_iff]; simpa using hd
    rw [this]
    cases ig <;> simp [Spec.noItem, Spec.cursorAfter, Except.map, Except.toOption, Ret.items]
  | cons v vs =>
    have hlt : l.at_ i < l.log.length := by
      by_contra hc
      rw [List.drop_eq_nil_of_le (by omega)] at hd; simp at hd
    have hg : l.log[l.at_ i]? = some v := by
      rw [← List.head?_drop, hd]; rfl
    have hlen : (v :: vs).length = l.log.length - l.at_ i := by rw [← hd]; simp
    rw [hg]
    dsimp only
    by_cases hn : n ≤ 1
    · simp only [hn, if_true]
      refine ⟨trivial, by simp, fun _ => ?_, by simp [Except.map, Except.toOption, Ret.items]⟩
      exact .inr ⟨_, v, rfl, hg, rfl⟩
    · simp only [hn, if_false, hlen]
      by_cases hs : st = true ∧ ((l.log.length - l.at_ i : Nat) : Int) ≤ n
      · simp only [hs, and_self, if_true]
        simp [Spec.cursorAfter, Except.map, Except.toOption]
      · simp only [hs, if_false]
        have htl : ((v :: vs).take n.toNat).length = min (l.log.length - l.at_ i) n.toNat := by
          rw [List.length_take, hlen, Nat.min_comm]
        refine ⟨trivial, ?_, ?_, ?_⟩
        · intro h0; omega
        · intro h0
          obtain ⟨z, hz⟩ : ∃ z, ((v :: vs).take n.toNat).getLast? = some z := by
            cases hq : ((v :: vs).take n.toNat).getLast? with
            | none =>
              have : (v :: vs).take n.toNat = [] := by simpa using hq
              rw [this] at htl; simp at htl; omega
            | some z => exact ⟨z, rfl⟩
          simp only [Spec.cursorAfter, hz]
          refine .inr ⟨l.at_ i + (min (l.log.length - l.at_ i) n.toNat - 1), z, by omega, ?_, rfl⟩
          rw [List.getLast?_eq_getElem?, htl, List.getElem?_take] at hz
          rw [if_pos (by omega), ← hd, List.getElem?_drop] at hz
          exact hz
        · simp only [Except.map, Except.toOption, Ret.items, Option.getD_some]
          rw [List.take_eq_take_iff, hlen]
          omega

theorem LogRel.goto {key : V → K} {w : Spec.Window V} {l : Spec.Log V} (h : LogRel key w l) (i p : Nat) (c : Option V)
    (hp : AtPos l.log p c) :
    LogRel key { w with cur := fun j => if j = i then c else w.cur j } (l.goto i p) := by
  refine ⟨h.items, h.ev, h.inc, ?_⟩
  intro j
  simp only [Spec.Log.goto]
  by_cases hj : j = i
  · simp [hj, hp]
  · simp [hj, h.pos j]

theorem LogRel.stay {key : V → K} {w : Spec.Window V} {l : Spec.Log V} (h : LogRel key w l) (i : Nat) :
    LogRel key { w with cur := fun j => if j = i then w.cur i else w.cur j } l := by
  refine ⟨h.items, h.ev, h.inc, ?_⟩
  intro j
  by_cases hj : j = i
  · subst hj; simpa using h.pos j
  · simp [hj, h.pos j]

/-- All read variants at once. -/
theorem LogRel.rdRead {key : V → K} {w : Spec.Window V} {l : Spec.Log V} (h : LogRel key w l) (i : Nat) (n : Int)
    (ig st pe : Bool) :
    LogRel key { w with cur := fun j => if j = i
        then (Spec.move pe (w.cur i) (Spec.read key w.items (w.cur i) n ig st)) else w.cur j }
      (if pe = true ∨ (l.read i n ig st).2 = 0 then l else l.goto i (l.at_ i + (l.read i n ig st).2)) := by
  obtain ⟨h1, h2, h3, _⟩ := h.read i n ig st
  rw [h1]
  by_cases hp : pe = true ∨ (l.read i n ig st).2 = 0
  · rw [if_pos hp]
    have : Spec.move pe (w.cur i) (l.read i n ig st).1 = w.cur i := by
      unfold Spec.move
      rcases hp with hp | hp
      · simp [hp]
      · rw [h2 hp]; simp
    rw [this]; exact h.stay i
  · rw [if_neg hp]
    rw [not_or] at hp
    have : pe = false := by simpa using hp.1
    subst this
    exact h.goto i _ _ (h3 hp.2)

theorem drop_getLast? {log : List V} {e : Nat} {v : V} (h : (log.drop e).getLast? = some v) :
    log.getLast? = some v := by
  rw [List.getLast?_drop] at h
  split at h
  · simp at h
  · exact h

/-- One call: the window and the log give the same outcome, and stay related. The new key must be above all earlier ones. -/
theorem LogRel.step {key : V → K} {w : Spec.Window V} {l : Spec.Log V} (kn : Py (Option K)) (m : Option Nat)
    (cfg : Nat → Cfg) (h : LogRel key w l) (hm : ∀ k, m = some k → w.items.length ≤ k) (op : ChOp K V)
    (hop : ∀ v, op = .append v → ∀ x ∈ l.log, key x < key v)
    {l' : Spec.Log V} {out : Py (Ret V)} (hs : l.step m cfg op = some (l', out)) :
    (w.step key kn m cfg op).2 = out ∧ LogRel key (w.step key kn m cfg op).1 l' := by
  cases op with
  | append v =>
    have hv := hop v rfl
    have hmay : Spec.mayAppend key w.items v = true := by
      unfold Spec.mayAppend
      cases hl : w.items.getLast? with
      | none => rfl
      | some x =>
        have : x ∈ l.log := by
          have := List.mem_of_getLast? hl
          rw [h.items] at this; exact List.mem_of_mem_drop this
        simpa using hv x this
    simp only [Spec.Log.step, Option.some.injEq, Prod.mk.injEq] at hs
    obtain ⟨rfl, rfl⟩ := hs
    simp only [Spec.Window.step, hmay, if_true]
    refine ⟨trivial, ?_, ?_, ?_, ?_⟩
    · show Spec.newest m (w.items ++ [v]) = _
      have hl := h.ev
      rw [h.items] at hm ⊢
      cases m with
      | none =>
        simp only [Spec.newest]
        rw [List.drop_append_of_le_length hl]
      | some m =>
        have := hm m rfl
        simp only [List.length_drop] at this
        simp only [Spec.newest]
        rw [← List.drop_append_of_le_length hl, List.drop_drop]
        simp only [List.length_append, List.length_drop, List.length_cons, List.length_nil]
        congr 1
        omega
    · have := h.ev
      clear hm
      cases m <;> simp <;> omega
    · show (l.log ++ [v]).Pairwise _
      rw [List.pairwise_append]
      exact ⟨h.inc, by simp, by simpa using hv⟩
    · intro i; exact (h.pos i).append v
  | drop n =>
    simp only [Spec.Log.step, Option.some.injEq, Prod.mk.injEq] at hs
    obtain ⟨rfl, rfl⟩ := hs
    simp only [Spec.Window.step]
    have hl := h.ev
    refine ⟨?_, ?_, ?_, h.inc, h.pos⟩
    · rw [h.items]; simp
    · show w.items.drop n.toNat = l.log.drop (min l.log.length (l.evicted + n.toNat))
      rw [h.items, List.drop_drop]
      by_cases hc : l.log.length ≤ l.evicted + n.toNat
      · rw [Nat.min_eq_left hc, List.drop_of_length_le hc]; simp
      · rw [Nat.min_eq_right (by omega)]
    · exact Nat.min_le_left _ _
  | rd i op =>
    simp only [Spec.Log.step] at hs
    cases op with
    | read n p ig st =>
      simp only [Spec.Log.rdStep, Option.some.injEq, Prod.mk.injEq] at hs
      obtain ⟨rfl, rfl⟩ := hs
      exact ⟨(h.read i _ _ _).1, h.rdRead i _ _ _ _⟩
    | nextMethod n p ig st =>
      simp only [Spec.Log.rdStep, Option.some.injEq, Prod.mk.injEq] at hs
      obtain ⟨rfl, rfl⟩ := hs
      exact ⟨(h.read i _ _ _).1, h.rdRead i _ _ _ _⟩
    | readForNext =>
      simp only [Spec.Log.rdStep, Option.some.injEq, Prod.mk.injEq] at hs
      obtain ⟨rfl, rfl⟩ := hs
      exact ⟨(h.read i _ _ _).1, h.rdRead i _ _ _ _⟩
    | range => simp [Spec.Log.rdStep] at hs
    | setLast v => simp [Spec.Log.rdStep] at hs
    | delLast =>
      simp only [Spec.Log.rdStep, Option.some.injEq, Prod.mk.injEq] at hs
      obtain ⟨rfl, rfl⟩ := hs
      exact ⟨rfl, h.goto i 0 none (.inl ⟨rfl, rfl⟩)⟩
    | head p =>
      have hh : w.items.head? = l.log[l.evicted]? := by rw [h.items, List.head?_drop]
      simp only [Spec.Log.rdStep] at hs
      simp only [Spec.Window.step, Spec.rdStep, Spec.head, hh]
      cases hg : l.log[l.evicted]? with
      | none =>
        simp only [hg, Option.some.injEq, Prod.mk.injEq] at hs
        obtain ⟨rfl, rfl⟩ := hs
        refine ⟨rfl, ?_⟩
        have : Spec.move p (w.cur i) (.error .indexError : Py (Ret V)) = w.cur i := by cases p <;> rfl
        rw [this]; exact h.stay i
      | some v =>
        simp only [hg, Option.some.injEq, Prod.mk.injEq] at hs
        obtain ⟨rfl, rfl⟩ := hs
        refine ⟨rfl, ?_⟩
        cases p with
        | true => exact h.stay i
        | false => exact h.goto i _ _ (.inr ⟨_, v, rfl, hg, rfl⟩)
    | tail p ig on =>
      simp only [Spec.Log.rdStep, ← h.items] at hs
      simp only [Spec.Window.step, Spec.rdStep]
      cases hg : w.items.getLast? with
      | none =>
        simp only [hg, Option.some.injEq, Prod.mk.injEq] at hs
        obtain ⟨rfl, rfl⟩ := hs
        have ht : Spec.tail key w.items (w.cur i) ig on =
            if ig = true then .ok .none else .error (if on = true then .valueError else .indexError) := by
          unfold Spec.tail; rw [hg]
        rw [ht]
        refine ⟨rfl, ?_⟩
        have : ∀ e, Spec.move p (w.cur i) (if ig = true then .ok .none else .error e : Py (Ret V)) = w.cur i := by
          intro e; cases p <;> cases ig <;> rfl
        rw [this]; exact h.stay i
      | some v =>
        have hlast : l.log.getLast? = some v := by rw [h.items] at hg; exact drop_getLast? hg
        have hlen : 0 < l.log.length := by
          cases hq : l.log with
          | nil => rw [hq] at hlast; simp at hlast
          | cons => simp
        have hlast' : l.log[l.log.length - 1]? = some v := by rw [← List.getLast?_eq_getElem?, hlast]
        have hgo : AtPos l.log l.log.length (some v) := .inr ⟨l.log.length - 1, v, by omega, hlast', rfl⟩
        -- is the last item new?
        have hnew : ∀ c, w.cur i = some c → (key c < key v ↔ l.pos i ≠ l.log.length) := by
          intro c hc
          rcases h.pos i with ⟨_, h0⟩ | ⟨q, x, hp, hq, hx⟩
          · rw [hc] at h0; simp at h0
          · rw [hc] at hx; cases hx
            obtain ⟨hql, hqe⟩ := List.getElem?_eq_some_iff.1 hq
            constructor
            · intro hlt he
              have : q = l.log.length - 1 := by omega
              rw [this, hlast'] at hq
              cases hq; exact lt_irrefl _ hlt
            · intro hne
              have hql' : q < l.log.length - 1 := by omega
              have := (List.pairwise_iff_getElem.1 h.inc) q (l.log.length - 1) hql (by omega) hql'
              rw [hqe] at this
              have e2 := (List.getElem?_eq_some_iff.1 hlast').2
              rw [e2] at this; exact this
        simp only [hg] at hs
        by_cases hc : on = true ∧ l.pos i = l.log.length
        · simp only [hc, and_self, if_true, Option.some.injEq, Prod.mk.injEq] at hs
          obtain ⟨rfl, rfl⟩ := hs
          obtain ⟨hon, hpos⟩ := hc
          subst hon
          rcases h.pos i with ⟨h0, _⟩ | ⟨q, x, hp, hq, hx⟩
          · omega
          · have hn := hnew x hx
            have : ¬ key x < key v := by rw [hn]; simpa using hpos
            have ht : Spec.tail key w.items (w.cur i) ig true = Spec.noItem ig := by
              unfold Spec.tail; simp [hg, hx, this]
            rw [ht]
            refine ⟨rfl, ?_⟩
            have : Spec.move p (w.cur i) (Spec.noItem ig : Py (Ret V)) = w.cur i := by
              cases p <;> cases ig <;> rfl
            rw [this]
            exact h.stay i
        · simp only [hc, if_false, Option.some.injEq, Prod.mk.injEq] at hs
          obtain ⟨rfl, rfl⟩ := hs
          have hout : Spec.tail key w.items (w.cur i) ig on = .ok (.one v) := by
            unfold Spec.tail
            rw [hg]
            cases on with
            | false => rfl
            | true =>
              cases hcur : w.cur i with
              | none => rfl
              | some c =>
                have : key c < key v := by
                  rw [hnew c hcur]; intro he; exact hc ⟨rfl, he⟩
                simp [this]
          rw [hout]
          refine ⟨rfl, ?_⟩
          cases p with
          | true => exact h.stay i
          | false => exact h.goto i _ _ hgo

end S2P

namespace S2P
variable {K V : Type}

open Spec (appended)

theorem Spec.Log.step_log {m : Option Nat} {cfg : Nat → Cfg} {l l' : Spec.Log V} {op : ChOp K V} {out : Py (Ret V)}
    (h : l.step m cfg op = some (l', out)) :
    l'.log = l.log ++ (match op with | .append v => [v] | _ => []) := by
  cases op with
  | append v =>
    simp only [Spec.Log.step, Option.some.injEq, Prod.mk.injEq] at h
    obtain ⟨rfl, _⟩ := h; rfl
  | drop n =>
    simp only [Spec.Log.step, Option.some.injEq, Prod.mk.injEq] at h
    obtain ⟨rfl, _⟩ := h; simp
  | rd i op =>
    simp only [Spec.Log.step] at h
    have hg : ∀ p, (l.goto i p).log = l.log := fun _ => rfl
    cases op <;> simp only [Spec.Log.rdStep] at h
    case read | nextMethod | readForNext =>
      simp only [Option.some.injEq, Prod.mk.injEq] at h
      obtain ⟨rfl, _⟩ := h
      split <;> simp [hg]
    case head =>
      split at h <;> simp only [Option.some.injEq, Prod.mk.injEq] at h <;> obtain ⟨rfl, _⟩ := h
      · simp
      · split <;> simp [hg]
    case tail =>
      split at h
      · simp only [Option.some.injEq, Prod.mk.injEq] at h; obtain ⟨rfl, _⟩ := h; simp
      · split at h <;> simp only [Option.some.injEq, Prod.mk.injEq] at h <;> obtain ⟨rfl, _⟩ := h
        · simp
        · split <;> simp [hg]
    case delLast => simp only [Option.some.injEq, Prod.mk.injEq] at h; obtain ⟨rfl, _⟩ := h; simp [hg]
    case range => simp at h
    case setLast => simp at h

theorem Spec.Log.run_log {m : Option Nat} {cfg : Nat → Cfg} (ops : List (ChOp K V)) {l l' : Spec.Log V}
    {outs : List (Py (Ret V))} (h : l.run m cfg ops = some (l', outs)) : l'.log = l.log ++ appended ops := by
  induction ops generalizing l outs with
  | nil => simp only [Spec.Log.run, Option.some.injEq, Prod.mk.injEq] at h; obtain ⟨rfl, _⟩ := h; simp [appended]
  | cons op ops ih =>
    simp only [Spec.Log.run] at h
    split at h
    · simp at h
    · rename_i l1 out hs
      split at h
      · simp at h
      · rename_i l2 outs' hr
        simp only [Option.some.injEq, Prod.mk.injEq] at h
        obtain ⟨rfl, _⟩ := h
        rw [ih hr, Spec.Log.step_log hs]
        cases op <;> simp [appended]

/-- A history on the buffer and on the log: same outcomes, related final states. -/
theorem log_run [LinearOrder K] [BEq V] [ReflBEq V] {key : V → K} {kn : Py (Option K)} {m : Option Nat} {cfg : Nat → Cfg}
    (ops : List (ChOp K V)) {c : Ch K V} {w : Spec.Window V} {l l' : Spec.Log V} {outs : List (Py (Ret V))}
    (hsim : Ch.Sim key kn m cfg c w) (hrel : LogRel key w l)
    (hinc : (l.log ++ appended ops).Pairwise (fun v w => key v < key w))
    (hr : l.run m cfg ops = some (l', outs)) :
    (c.run ops).2 = outs ∧ Ch.Sim key kn m cfg (c.run ops).1 (w.run key kn m cfg ops).1 ∧
      LogRel key (w.run key kn m cfg ops).1 l' := by
  induction ops generalizing c w l outs with
  | nil =>
    simp only [Spec.Log.run, Option.some.injEq, Prod.mk.injEq] at hr
    obtain ⟨rfl, rfl⟩ := hr
    exact ⟨rfl, hsim, hrel⟩
  | cons op ops ih =>
    simp only [Spec.Log.run] at hr
    split at hr
    · simp at hr
    · rename_i l1 out hs
      split at hr
      · simp at hr
      · rename_i l2 outs' hr'
        simp only [Option.some.injEq, Prod.mk.injEq] at hr
        obtain ⟨rfl, rfl⟩ := hr
        have hop : ∀ v, op = .append v → ∀ x ∈ l.log, key x < key v := by
          rintro v rfl x hx
          exact (List.pairwise_append.1 hinc).2.2 x hx v (by simp [appended])
        have hb : ∀ k, m = some k → w.items.length ≤ k := by
          intro k hk; rw [← hsim.items]; exact hsim.swf.wf.bounded k (by rw [hsim.maxlen, hk])
        obtain ⟨s1, s2⟩ := hsim.step op
        obtain ⟨t1, t2⟩ := hrel.step kn m cfg hb op hop hs
        have hinc' : (l1.log ++ appended ops).Pairwise (fun v w => key v < key w) := by
          rw [Spec.Log.step_log hs]
          cases op <;> simpa [appended] using hinc
        obtain ⟨u1, u2, u3⟩ := ih s2 t2 hinc' hr'
        refine ⟨?_, u2, u3⟩
        simp only [Ch.run, u1, s1, t1]

theorem LogRel.init [LinearOrder K] (key : V → K) : LogRel key Spec.Window.init (Spec.Log.init : Spec.Log V) :=
  ⟨rfl, Nat.le_refl _, List.Pairwise.nil, fun _ => .inl ⟨rfl, rfl⟩⟩

end S2P
