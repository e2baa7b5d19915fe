import Verif.Spec.Poll
import Verif.Proofs.EndToEnd
import Verif.Props.Reader
/-
C99: readers that mix `read`, `next`, `range(only_new_items=True)` and `tail(only_new_items=True)`.
-/
namespace S2P
open Spec
variable {K V : Type}

theorem newDelivered_snoc (cfg : Nat → Cfg) (i : Nat) (a : List (ChOp K V)) (op : ChOp K V) (x : List (Py (Ret V))) (out : Py (Ret V))
    (h : x.length = a.length) : newDelivered cfg i (a ++ [op]) (x ++ [out]) = newDelivered cfg i a x ++ newHanded cfg i op out := by
  induction a generalizing x with
  | nil => cases x with
    | nil => simp [newDelivered]
    | cons => simp at h
  | cons o a ih => cases x with
    | nil => simp at h
    | cons y x => simp only [List.cons_append, newDelivered, ih x (by simpa using h), List.append_assoc]

theorem taken_is {op : ChOp K V} {out : Py (Ret V)} {v : V} (h : taken op out = [v]) : op = .append v := by
  cases op with
  | append w =>
    cases out with
    | ok x => simp only [taken, List.cons.injEq, and_true] at h; rw [h]
    | error e => simp [taken] at h
  | drop n => simp [taken] at h
  | rd j o => simp [taken] at h

section
variable [LinearOrder K] {key : V → K} {kn : Py (Option K)}

theorem stride_sublist (st : Nat) (hs : 0 < st) (l : List V) : (stride st l).Sublist l := by
  have := everyNth_stride st hs l
  rw [← this]
  exact everyNth_sublist _ _ _

theorem unread_sub (key : V → K) (items : List V) (cur : Option V) : (unread key items cur).Sublist items := by
  cases cur with
  | none => exact List.Sublist.refl _
  | some c => exact List.filter_sublist

theorem outItems_noItem (ig : Bool) : outItems (noItem ig : Py (Ret V)) = [] := by cases ig <;> rfl

theorem cursorAfter_last (cur : Option V) (r : Py (Ret V)) :
    cursorAfter cur r = (match (outItems r).getLast? with | some v => some v | none => cur) := by
  cases r with
  | error e => rfl
  | ok x => cases x with
    | one v => rfl
    | none => rfl
    | many vs => simp only [cursorAfter, outItems, Ret.items]; cases vs.getLast? <;> rfl

theorem outItems_finish (p ig : Bool) (l : List V) : outItems (finish p ig l) = l := by
  unfold finish
  split
  · rename_i h; rw [h.1]; cases ig <;> rfl
  · rfl

theorem outItems_answer (step : Option Int) (p ig : Bool) (l : List V) : (outItems (answer step p ig l)).Sublist l := by
  unfold answer
  cases step with
  | none => rw [outItems_finish]; exact List.Sublist.refl _
  | some st =>
    dsimp only
    split
    · exact List.nil_sublist _
    · rw [outItems_finish]; exact stride_sublist _ (by omega) _


theorem range_takes {items : List V} (hs : items.Pairwise (fun v w => key v < key w)) (hkn : ∀ k, kn ≠ .ok (some k)) (cur : Option V) (start stop : K)
    (step : Option Int) (p ig le ge : Bool) :
    (outItems (range key kn items cur start stop step p ig true le ge)).Sublist (unread key items cur) ∧
    (step = none → (∀ v ∈ items, start ≤ key v) → outItems (range key kn items cur start stop step p ig true le ge) <+: unread key items cur) := by
  have hpre : ∀ (l : List V) (lo hi : K), l.Pairwise (fun v w => key v < key w) → (∀ v ∈ l, lo ≤ key v) → between key lo hi l <+: l := by
    intro l lo hi hl hlo
    induction l with
    | nil => exact List.prefix_refl _
    | cons v l ih =>
      rw [List.pairwise_cons] at hl
      simp only [between, List.filter_cons]
      by_cases hv : key v ≤ hi
      · rw [if_pos (by simp [hv, hlo v (by simp)])]
        exact (List.prefix_cons_inj v).2 (ih hl.2 fun w hw => hlo w (by simp [hw]))
      · rw [if_neg (by simp [hv])]
        have : l.filter (fun v => decide (lo ≤ key v) && decide (key v ≤ hi)) = [] := by
          rw [List.filter_eq_nil_iff]
          intro w hw
          have := hl.1 w hw
          simp only [Bool.and_eq_true, decide_eq_true_eq, not_and, not_le]
          intro _
          exact (lt_of_not_ge hv).trans this
        rw [this]
        exact List.nil_prefix
  simp only [range]
  cases hlb : lowerBound key kn items cur start ig true with
  | error e => exact ⟨List.nil_sublist _, fun _ _ => List.nil_prefix⟩
  | ok o => cases o with
    | none => exact ⟨List.nil_sublist _, fun _ _ => List.nil_prefix⟩
    | some lo =>
      dsimp only
      have hst := startsAt_spec hs lo le
      generalize (if le then (match last (fun v => decide (key v ≤ lo)) items with | .ok v => key v | .error _ => lo) else lo) = lo' at hst ⊢
      split
      · rw [outItems_noItem]; exact ⟨List.nil_sublist _, fun _ _ => List.nil_prefix⟩
      · rename_i hi _
        -- what is selected lies among the unread items
        have hsel : between key lo' hi items = between key lo' hi (unread key items cur) := by
          cases cur with
          | none => rfl
          | some c =>
            simp only [lowerBound, Option.isNone_some, Bool.true_eq_false, Bool.false_eq_true, or_self, if_false] at hlb
            simp only [between, unread, List.filter_filter]
            refine List.filter_congr fun x hx => ?_
            cases hu : unread key items (some c) with
            | nil =>
              rw [hu] at hlb
              dsimp only at hlb
              split at hlb
              · simp at hlb
              · cases hk : kn with
                | error e => rw [hk] at hlb; cases e <;> simp at hlb
                | ok o => cases o with
                  | none => rw [hk] at hlb; simp at hlb
                  | some k => exact absurd hk (hkn k)
            | cons v vs =>
              rw [hu] at hlb
              dsimp only at hlb
              injection hlb with hlb; injection hlb with hlb
              have hvm : v ∈ unread key items (some c) := by rw [hu]; simp
              simp only [unread, List.mem_filter, decide_eq_true_eq] at hvm
              have hlo : key v ≤ lo := by
                rw [← hlb]; split
                · exact le_of_lt ‹_›
                · exact le_refl _
              have hlo' : key v ≤ lo' := by
                rcases hst with ⟨-, h⟩ | ⟨-, h⟩
                · exact h.2 ⟨⟨v, hvm.1, rfl⟩, hlo⟩
                · rw [h]; exact hlo
              by_cases h1 : lo' ≤ key x
              · simp [h1, lt_of_lt_of_le hvm.2 (hlo'.trans h1)]
              · simp [h1]
        rw [hsel]
        refine ⟨(outItems_answer _ _ _ _).trans List.filter_sublist, fun h0 hall => ?_⟩
        subst h0
        simp only [answer, outItems_finish]
        refine hpre _ _ _ (unread_sorted cur hs) fun w hw => ?_
        have hwi : w ∈ items := (unread_sub key items cur).subset hw
        cases cur with
        | none =>
          simp only [lowerBound, Option.isNone_none, or_true, if_true, Except.ok.injEq, Option.some.injEq] at hlb
          subst hlb
          rcases hst with ⟨-, h⟩ | ⟨-, h⟩
          · exact h.1.2.trans (hall w hwi)
          · rw [h]; exact hall w hwi
        | some c =>
          cases hu : unread key items (some c) with
          | nil => rw [hu] at hw; simp at hw
          | cons v vs =>
            simp only [lowerBound, Option.isNone_some, Bool.true_eq_false, Bool.false_eq_true, or_self, if_false, hu] at hlb
            injection hlb with hlb; injection hlb with hlb
            have hsu := unread_sorted (key := key) (some c) hs
            rw [hu] at hsu hw
            have hvw : key v ≤ key w := by
              rcases List.mem_cons.1 hw with h | h
              · rw [h]
              · exact le_of_lt ((List.pairwise_cons.1 hsu).1 w h)
            have hvi : v ∈ items := (unread_sub key items (some c)).subset (by rw [hu]; simp)
            have hlo : lo ≤ key w := by
              rw [← hlb]; split
              · exact hall w hwi
              · exact hvw
            rcases hst with ⟨-, h⟩ | ⟨-, h⟩
            · exact h.1.2.trans hlo
            · rw [h]; exact hlo

theorem tail_takes {items : List V} (cur : Option V) (ig : Bool) : (outItems (tail key items cur ig true)).Sublist (unread key items cur) := by
  unfold tail
  cases hl : items.getLast? with
  | none => cases ig <;> exact List.nil_sublist _
  | some v =>
    have hv := List.mem_of_getLast? hl
    cases cur with
    | none => simpa [outItems, Ret.items, unread] using hv
    | some c =>
      dsimp only
      split
      · rename_i h
        simp only [outItems, Ret.items, List.singleton_sublist, unread, List.mem_filter, decide_eq_true_eq]
        exact ⟨hv, h⟩
      · rw [outItems_noItem]; exact List.nil_sublist _

/-- One call of a reader that asks for new items. -/
theorem rdStep_new {items : List V} (hs : items.Pairwise (fun v w => key v < key w)) (hkn : ∀ k, kn ≠ .ok (some k)) (cfg : Cfg) (cur : Option V)
    (o : RdOp K V) (ho : takesNew cfg o ∨ peeks cfg o) :
    (takesNew cfg o = true → (outItems (rdStep key kn items cfg cur o).1).Sublist (unread key items cur) ∧
      (skipsNothing cfg (fun k => ∃ v ∈ items, key v = k) o → outItems (rdStep key kn items cfg cur o).1 <+: unread key items cur) ∧
      (rdStep key kn items cfg cur o).2 = (match (outItems (rdStep key kn items cfg cur o).1).getLast? with | some v => some v | none => cur)) ∧
    (takesNew cfg o = false → (rdStep key kn items cfg cur o).2 = cur) := by
  have old : consumes cfg o = takesNew cfg o → _ := fun h => rdStep_reads key kn items cfg cur o (by rw [h]; exact ho)
  cases o with
  | range a b st p ig on le ge =>
    refine ⟨fun ht => ?_, fun ht => ?_⟩
    · simp only [takesNew, Bool.and_eq_true, Bool.not_eq_true'] at ht
      obtain ⟨rfl, rfl⟩ := ht
      obtain ⟨h1, h2⟩ := range_takes hs hkn cur a b st false (ig.getD cfg.ignore) le ge
      refine ⟨h1, fun ⟨_, _, h3, h4⟩ => h2 h3 fun v hv => h4 _ ⟨v, hv, rfl⟩, ?_⟩
      exact cursorAfter_last _ _
    · have hp : p = true := by simpa [peeks, ht] using ho
      simp [rdStep, move, hp]
  | tail p ig on =>
    refine ⟨fun ht => ?_, fun ht => ?_⟩
    · simp only [takesNew, Bool.and_eq_true, Bool.not_eq_true'] at ht
      obtain ⟨rfl, rfl⟩ := ht
      exact ⟨tail_takes cur ig, fun h => h.elim, cursorAfter_last _ _⟩
    · have hp : p = true := by simpa [peeks, ht] using ho
      simp [rdStep, move, hp]
  | read | nextMethod | readForNext | head | setLast | delLast =>
    obtain ⟨h1, h2⟩ := old rfl
    exact ⟨fun ht => ⟨(h1 ht).1.sublist, fun _ => (h1 ht).1, (h1 ht).2⟩, h2⟩

variable [BEq V] [ReflBEq V] {m : Option Nat} {cfg : Nat → Cfg} {c : Ch K V}

/-- The part of a call that matters for reader `i`. -/
theorem ch_step_new (hkn : ∀ k, kn ≠ .ok (some k)) (h : Ch.Reach key kn m cfg c) (i : Nat) (op : ChOp K V)
    (hop : ∀ o, op = .rd i o → takesNew (cfg i) o ∨ peeks (cfg i) o) :
    let c' := (c.step op).1
    let out := (c.step op).2
    (∃ v, taken op out = [v] ∧ newHanded cfg i op out = [] ∧ mayAppend key c.buf.items v = true ∧ c'.buf.items = newest m (c.buf.items ++ [v]) ∧
      (c'.readers i).lastItem = (c.readers i).lastItem) ∨
    (taken op out = [] ∧ newHanded cfg i op out = [] ∧ ((∃ n, c'.buf.items = c.buf.items.drop n) ∧ ((∀ n, op ≠ .drop n) → c'.buf.items = c.buf.items)) ∧
      (c'.readers i).lastItem = (c.readers i).lastItem) ∨
    (taken op out = [] ∧ c'.buf.items = c.buf.items ∧ (newHanded cfg i op out).Sublist (unread key c.buf.items (c.readers i).lastItem) ∧
      ((∀ o, op = .rd i o → skipsNothing (cfg i) (fun k => ∃ v ∈ c.buf.items, key v = k) o ∨ peeks (cfg i) o) →
        newHanded cfg i op out <+: unread key c.buf.items (c.readers i).lastItem) ∧
      (c'.readers i).lastItem = (match (newHanded cfg i op out).getLast? with | some v => some v | none => (c.readers i).lastItem)) := by
  have hsorted : c.buf.items.Pairwise (fun v w => key v < key w) := h.sim.strict
  obtain ⟨s1, s2⟩ := h.sim.step op
  dsimp only
  rw [s2.items, s2.cur i, s1]
  cases op with
  | append v =>
    simp only [Window.step]
    by_cases hm : mayAppend key c.window.items v = true
    · exact .inl ⟨v, by simp [hm, taken], rfl, hm, by simp only [hm]; rfl, by simp only [hm]; rfl⟩
    · exact .inr (.inl ⟨by simp [hm, taken], rfl, ⟨⟨0, by simp only [hm, if_false]; rfl⟩, fun _ => by simp only [hm, if_false]; rfl⟩, by simp only [hm, if_false]; rfl⟩)
  | drop n => exact .inr (.inl ⟨rfl, rfl, ⟨⟨_, rfl⟩, fun h => absurd rfl (h n)⟩, rfl⟩)
  | rd j o =>
    refine .inr (.inr ⟨rfl, rfl, ?_⟩)
    by_cases hj : j = i
    · subst hj
      obtain ⟨r1, r2⟩ := rdStep_new hsorted hkn (cfg j) (c.window.cur j) o (hop o rfl)
      simp only [Window.step, newHanded, true_and, if_true]
      cases hcons : takesNew (cfg j) o with
      | false => exact ⟨by simp, by simp, by simp; exact r2 hcons⟩
      | true =>
        obtain ⟨p1, p2, p3⟩ := r1 hcons
        refine ⟨by simp; exact p1, fun hsk => ?_, by simp; exact p3⟩
        simp only [if_true]
        refine p2 ((hsk o rfl).resolve_right fun hpk => ?_)
        cases o <;> simp [takesNew, peeks, consumes] at hcons hpk <;> simp_all
    · have : ¬ i = j := fun h => hj h.symm
      simp [newHanded, Window.step, hj, this, Ch.window]

/-- Items of a sorted list up to the last one of a sublist, and those after it. -/
theorem sublist_then_rest {items : List V} (hs : items.Pairwise (fun v w => key v < key w)) (cur : Option V) {H : List V} {z : V}
    (hH : H.Sublist (unread key items cur)) (hz : H.getLast? = some z) :
    (H ++ unread key items (some z)).Sublist (unread key items cur) := by
  have hzu : z ∈ unread key items cur := hH.subset (List.mem_of_getLast? hz)
  have hsu := unread_sorted cur hs
  obtain ⟨p, q, hpq⟩ := List.append_of_mem hzu
  have hq := unread_after hs cur (p ++ [z]) q z (by simp [hpq]) (by simp)
  rw [hq]
  have hHp : H.Sublist (p ++ [z]) := by
    have hsH := hsu.sublist hH
    have hle : ∀ v ∈ H, key v ≤ key z := by
      intro v hv
      obtain ⟨pre, rfl⟩ := List.getLast?_eq_some_iff.1 hz
      rcases List.mem_append.1 hv with hv | hv
      · exact le_of_lt ((List.pairwise_append.1 hsH).2.2 v hv z (by simp))
      · simp at hv; rw [hv]
    have hf : (unread key items cur).filter (fun v => decide (key v ≤ key z)) = p ++ [z] := by
      rw [hpq] at hsu ⊢
      rw [List.filter_append, List.filter_cons]
      simp only [le_refl, decide_true, if_true]
      have h1 : p.filter (fun v => decide (key v ≤ key z)) = p := by
        rw [List.filter_eq_self]
        intro v hv
        simpa using le_of_lt ((List.pairwise_append.1 hsu).2.2 v hv z (by simp))
      have h2 : q.filter (fun v => decide (key v ≤ key z)) = [] := by
        rw [List.filter_eq_nil_iff]
        intro v hv
        have := (List.pairwise_cons.1 (List.pairwise_append.1 hsu).2.1).1 v hv
        simpa using this
      rw [h1, h2]
    rw [← hf]
    have := hH.filter (fun v => decide (key v ≤ key z))
    rwa [List.filter_eq_self.2 (by intro v hv; simpa using hle v hv)] at this
  have : unread key items cur = (p ++ [z]) ++ q := by simp [hpq]
  rw [this]
  exact hHp.append_right q

/-- **C99** a reader that mixes `read`, `next`, `range(only_new_items=True)` with any bounds and step, `tail(only_new_items=True)` and peeks, on a buffer
whose key function does not turn `None` into a key: what it is handed, followed by what it can still read, is, in order and without repetition, a part of
what was accepted; its keys strictly increase over the whole history. -/
theorem C99_part_of_accepted (hkn : ∀ k, kn ≠ .ok (some k)) (i : Nat) (ops : List (ChOp K V)) (hops : OnlyNew cfg i ops) :
    (newDelivered cfg i ops (Ch.run (Ch.init key kn m cfg) ops).2 ++
      unreadOf (Ch.run (Ch.init key kn m cfg) ops).1 i).Sublist (takenAll ops (Ch.run (Ch.init key kn m cfg) ops).2) := by
  rw [unreadOf_eq ⟨ops, rfl⟩]
  induction ops using List.reverseRecOn with
  | nil => exact List.Sublist.refl _
  | append_singleton ops op ih =>
    have hlen := Ch.run_length (Ch.init key kn m cfg) ops
    have ih := ih (fun o ho => hops o (by simp [ho]))
    have hr : Ch.Reach key kn m cfg (Ch.run (Ch.init key kn m cfg) ops).1 := ⟨ops, rfl⟩
    rw [Ch.run_snoc, newDelivered_snoc _ _ _ _ _ _ hlen, takenAll_snoc _ _ _ _ hlen]
    rcases ch_step_new hkn hr i op (fun o ho => hops o (by simp [ho])) with ⟨v, h1, h2, -, h3, h4⟩ | ⟨h1, h2, ⟨⟨n, h3⟩, -⟩, h4⟩ | ⟨h1, h2, h3, -, h4⟩
    · rw [h1, h2, h3, h4, List.append_nil]
      refine ((((unread_sublist key (newest_suffix m _).sublist _).trans (unread_snoc key _ v _)).append_left _)).trans ?_
      rw [← List.append_assoc]
      exact ih.append_right _
    · rw [h1, h2, h3, h4, List.append_nil, List.append_nil]
      exact ((unread_sublist key (List.drop_sublist _ _) _).append_left _).trans ih
    · rw [h1, h2, h4, List.append_nil, List.append_assoc]
      refine List.Sublist.trans (List.Sublist.append_left ?_ _) ih
      cases hl : (newHanded cfg i op ((Ch.run (Ch.init key kn m cfg) ops).1.step op).2).getLast? with
      | none =>
        have : newHanded cfg i op ((Ch.run (Ch.init key kn m cfg) ops).1.step op).2 = [] := by simpa using hl
        rw [this]; exact List.Sublist.refl _
      | some z => exact sublist_then_rest hr.sim.strict _ h3 hl

theorem C99_increasing (hkn : ∀ k, kn ≠ .ok (some k)) (i : Nat) (ops : List (ChOp K V)) (hops : OnlyNew cfg i ops) :
    (newDelivered cfg i ops (Ch.run (Ch.init key kn m cfg) ops).2).Pairwise (fun v w => key v < key w) := by
  suffices H : (newDelivered cfg i ops (Ch.run (Ch.init key kn m cfg) ops).2).Pairwise (fun v w => key v < key w) ∧
      ((Ch.run (Ch.init key kn m cfg) ops).1.readers i).lastItem = (newDelivered cfg i ops (Ch.run (Ch.init key kn m cfg) ops).2).getLast? from H.1
  induction ops using List.reverseRecOn with
  | nil => exact ⟨List.Pairwise.nil, rfl⟩
  | append_singleton ops op ih =>
    have hlen := Ch.run_length (Ch.init key kn m cfg) ops
    obtain ⟨i1, i2⟩ := ih (fun o ho => hops o (by simp [ho]))
    have hr : Ch.Reach key kn m cfg (Ch.run (Ch.init key kn m cfg) ops).1 := ⟨ops, rfl⟩
    rw [Ch.run_snoc, newDelivered_snoc _ _ _ _ _ _ hlen]
    rcases ch_step_new hkn hr i op (fun o ho => hops o (by simp [ho])) with ⟨v, h1, h2, -, h3, h4⟩ | ⟨h1, h2, -, h4⟩ | ⟨h1, h2, h3, -, h4⟩
    · rw [h2, h4, List.append_nil]; exact ⟨i1, i2⟩
    · rw [h2, h4, List.append_nil]; exact ⟨i1, i2⟩
    · rw [h4, List.getLast?_append]
      refine ⟨List.pairwise_append.2 ⟨i1, (unread_sorted _ hr.sim.strict).sublist h3, ?_⟩, ?_⟩
      · intro v hv w hw
        have hw' := unread_above key _ _ w (h3.subset hw)
        cases hl : (newDelivered cfg i ops (Ch.run (Ch.init key kn m cfg) ops).2).getLast? with
        | none => simp at hl; rw [hl] at hv; simp at hv
        | some z =>
          have hzw := hw' z (by rw [i2, hl])
          obtain ⟨pre, hp⟩ := List.getLast?_eq_some_iff.1 hl
          rw [hp] at hv i1
          rcases List.mem_append.1 hv with hv | hv
          · exact ((List.pairwise_append.1 i1).2.2 v hv z (by simp)).trans hzw
          · simp at hv; rw [hv]; exact hzw
      · cases (newHanded cfg i op ((Ch.run (Ch.init key kn m cfg) ops).1.step op).2).getLast? with
        | none => simpa using i2
        | some z => rfl

/-- **C99** polling misses nothing: if moreover the reader uses `range` only without step and with `start` at or below every key, and no `tail`, then on an
unbounded buffer from which nothing is dropped it has been handed everything accepted, but for what it can still read. -/
theorem C99_misses_nothing (hkn : ∀ k, kn ≠ .ok (some k)) (i : Nat) (ops : List (ChOp K V)) (hops : OnlyNew cfg i ops)
    (hsk : ∀ o, .rd i o ∈ ops → skipsNothing (cfg i) (fun k => ∃ v ∈ appended ops, key v = k) o ∨ peeks (cfg i) o) (hd : ∀ n, .drop n ∉ ops) :
    newDelivered cfg i ops (Ch.run (Ch.init key kn none cfg) ops).2 ++ unreadOf (Ch.run (Ch.init key kn none cfg) ops).1 i =
      takenAll ops (Ch.run (Ch.init key kn none cfg) ops).2 := by
  rw [unreadOf_eq ⟨ops, rfl⟩]
  suffices H : (∀ v ∈ (Ch.run (Ch.init key kn none cfg) ops).1.buf.items, v ∈ appended ops) ∧
      newDelivered cfg i ops (Ch.run (Ch.init key kn none cfg) ops).2 ++
        unread key (Ch.run (Ch.init key kn none cfg) ops).1.buf.items ((Ch.run (Ch.init key kn none cfg) ops).1.readers i).lastItem =
      takenAll ops (Ch.run (Ch.init key kn none cfg) ops).2 ∧
      ((Ch.run (Ch.init key kn none cfg) ops).1.readers i).lastItem = (newDelivered cfg i ops (Ch.run (Ch.init key kn none cfg) ops).2).getLast? ∧
      takenAll ops (Ch.run (Ch.init key kn none cfg) ops).2 = (Ch.run (Ch.init key kn none cfg) ops).1.buf.items from H.2.1
  induction ops using List.reverseRecOn with
  | nil => exact ⟨by simp [Ch.run, Ch.init, SD.empty], rfl, rfl, rfl⟩
  | append_singleton ops op ih =>
    have hlen := Ch.run_length (Ch.init key kn none cfg) ops
    have hmono : ∀ o, skipsNothing (V := V) (cfg i) (fun k => ∃ v ∈ appended (ops ++ [op]), key v = k) o →
        ∀ P : K → Prop, (∀ k, P k → ∃ v ∈ appended (ops ++ [op]), key v = k) → skipsNothing (cfg i) P o := by
      intro o ho P hP
      cases o <;> try exact ho
      exact ⟨ho.1, ho.2.1, ho.2.2.1, fun k hk => ho.2.2.2 k (hP k hk)⟩
    have happ : ∀ v ∈ appended ops, v ∈ appended (ops ++ [op]) := by intro v hv; rw [appended_append]; simp [hv]
    obtain ⟨i0, i1, i2, i3⟩ := ih (fun o ho => hops o (by simp [ho]))
      (fun o ho => (hsk o (by simp [ho])).imp (fun h => hmono o h _ fun k ⟨v, hv, e⟩ => ⟨v, happ v hv, e⟩) id) (fun n hn => hd n (by simp [hn]))
    have hr : Ch.Reach key kn none cfg (Ch.run (Ch.init key kn none cfg) ops).1 := ⟨ops, rfl⟩
    rw [Ch.run_snoc, newDelivered_snoc _ _ _ _ _ _ hlen, takenAll_snoc _ _ _ _ hlen]
    rcases ch_step_new hkn hr i op (fun o ho => hops o (by simp [ho])) with ⟨v, h1, h2, hm, h3, h4⟩ | ⟨h1, h2, ⟨-, h3⟩, h4⟩ | ⟨h1, h2, -, h3, h4⟩
    · rw [h1, h2, h3, h4, List.append_nil]
      have hop : op = .append v := taken_is h1
      simp only [newest]
      refine ⟨?_, ?_, i2, by rw [i3]⟩
      · intro w hw
        rcases List.mem_append.1 hw with hw | hw
        · exact happ w (i0 w hw)
        · simp at hw; subst hw; rw [hop, appended_append]; simp [appended]
      · rw [← i1]
        have habove : ∀ w ∈ (Ch.run (Ch.init key kn none cfg) ops).1.buf.items, key w < key v := by
          intro w hw
          simp only [mayAppend] at hm
          cases hl : (Ch.run (Ch.init key kn none cfg) ops).1.buf.items.getLast? with
          | none => simp at hl; rw [hl] at hw; simp at hw
          | some z =>
            rw [hl] at hm
            simp only [decide_eq_true_eq] at hm
            obtain ⟨pre, hp⟩ := List.getLast?_eq_some_iff.1 hl
            have hs : (Ch.run (Ch.init key kn none cfg) ops).1.buf.items.Pairwise (fun v w => key v < key w) := hr.sim.strict
            rw [hp] at hw hs
            rcases List.mem_append.1 hw with hw | hw
            · exact ((List.pairwise_append.1 hs).2.2 w hw z (by simp)).trans hm
            · simp at hw; rw [hw]; exact hm
        cases hc : ((Ch.run (Ch.init key kn none cfg) ops).1.readers i).lastItem with
        | none => simp [unread]
        | some z =>
          have hz : z ∈ (Ch.run (Ch.init key kn none cfg) ops).1.buf.items := by
            rw [← i3, ← i1]
            rw [hc] at i2
            exact List.mem_append_left _ (List.mem_of_getLast? i2.symm)
          simp [unread, List.filter_append, habove z hz]
    · rw [h1, h2, h3 (fun n hn => hd n (by simp [hn])), h4, List.append_nil, List.append_nil]
      exact ⟨fun v hv => happ v (i0 v hv), i1, i2, i3⟩
    · have hp := h3 (fun o ho => (hsk o (by simp [ho])).imp (fun h => hmono o h _ fun k ⟨v, hv, e⟩ => ⟨v, happ v (i0 v hv), e⟩) id)
      rw [h1, h2, h4, List.append_nil]
      refine ⟨fun v hv => happ v (i0 v hv), ?_, ?_, i3⟩
      · obtain ⟨q, hq⟩ := hp
        rw [List.append_assoc, ← i1]
        congr 1
        rw [← hq]
        congr 1
        cases hl : (newHanded cfg i op ((Ch.run (Ch.init key kn none cfg) ops).1.step op).2).getLast? with
        | none =>
          have : newHanded cfg i op ((Ch.run (Ch.init key kn none cfg) ops).1.step op).2 = [] := by simpa using hl
          rw [this] at hq; simpa using hq.symm
        | some z => exact unread_after hr.sim.strict _ _ q z hq.symm hl
      · rw [List.getLast?_append]
        cases (newHanded cfg i op ((Ch.run (Ch.init key kn none cfg) ops).1.step op).2).getLast? with
        | none => simpa using i2
        | some z => rfl

end

/-- Two items, `range(0, 1)`, a read, nothing new, two more, `range(0, 9)` with rounding, a peek, one more, another reader. -/
def wPoll : List (ChOp Nat Nat) := [.append 1, .append 2, .rd 0 (.range 0 1 none false (some true) true false false), .rd 0 (.read none none none none),
  .rd 0 (.range 0 9 none false (some true) true false false), .append 3, .append 5, .rd 0 (.range 0 9 none false none true true false),
  .append 7, .rd 0 (.range 0 9 none true none false true false), .rd 1 .readForNext]

/-- Meets C99: the polls hand out 1, 2, nothing, [3, 5]; 7 can still be read. -/
theorem C99_meets : OnlyNew (fun _ => Cfg.default) 0 wPoll ∧
    (∀ o, .rd 0 o ∈ wPoll → skipsNothing Cfg.default (fun k => ∃ v ∈ appended wPoll, v = k) o ∨ peeks Cfg.default o) ∧ (∀ n, .drop n ∉ wPoll) ∧
    (∀ k, (.error .typeError : Py (Option Nat)) ≠ .ok (some k)) ∧
    newDelivered (fun _ => Cfg.default) 0 wPoll (Ch.run (Ch.init id (.error .typeError) none fun _ => Cfg.default) wPoll).2 = [1, 2, 3, 5] ∧
    unreadOf (Ch.run (Ch.init id (.error .typeError) none fun _ => Cfg.default) wPoll).1 0 = [7] := by
  refine ⟨?_, ?_, ?_, by simp, rfl, rfl⟩
  · intro o ho
    simp only [wPoll, List.mem_cons, ChOp.rd.injEq, reduceCtorEq, false_or, or_false, List.not_mem_nil, true_and] at ho
    rcases ho with rfl | rfl | rfl | rfl | rfl | ⟨h, -⟩
    all_goals first | exact .inl rfl | exact .inr rfl | simp at h
  · intro o ho
    simp only [wPoll, List.mem_cons, ChOp.rd.injEq, reduceCtorEq, false_or, or_false, List.not_mem_nil, true_and] at ho
    rcases ho with rfl | rfl | rfl | rfl | rfl | ⟨h, -⟩
    all_goals first | exact .inl ⟨rfl, rfl, rfl, fun k _ => Nat.zero_le k⟩ | exact .inl rfl | exact .inr rfl | simp at h
  · intro n hn
    simp [wPoll] at hn

/-- Meets C99 with a bound, a step and `tail`: 1, then 2 and 4 (3 is skipped by the step), then 9 (5 and 8 are skipped by `tail`). -/
theorem C99_meets_bounded : ∃ ops : List (ChOp Nat Nat), OnlyNew (fun _ => Cfg.default) 0 ops ∧
    newDelivered (fun _ => Cfg.default) 0 ops (Ch.run (Ch.init id (.error .typeError) (some 4) fun _ => Cfg.default) ops).2 = [1, 2, 4, 9] ∧
    takenAll ops (Ch.run (Ch.init id (.error .typeError) (some 4) fun _ => Cfg.default) ops).2 = [1, 2, 3, 4, 5, 8, 9] :=
  ⟨[.append 1, .rd 0 (.tail false true true), .append 2, .append 3, .append 4, .append 5, .rd 0 (.range 0 9 (some 2) false none true false false),
    .append 8, .append 4, .append 9, .rd 0 (.tail false false true), .rd 0 (.tail false true true)], by
    intro o ho
    simp only [List.mem_cons, ChOp.rd.injEq, reduceCtorEq, false_or, or_false, List.not_mem_nil, true_and] at ho
    rcases ho with rfl | rfl | rfl | rfl <;> exact .inl rfl, rfl, rfl⟩

end S2P
