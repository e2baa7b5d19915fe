import Verif.Props.Poll
import Verif.Spec.Seek
/-
C153: moving a reader's cursor, and where it reads on.
-/
namespace S2P
open Spec
variable {K V : Type}

section
variable [LinearOrder K] {key : V → K} {kn : Py (Option K)} [BEq V] [ReflBEq V] {m : Option Nat} {cfg : Nat → Cfg} {c : Ch K V}

theorem Ch.Reach.run (h : c.Reach key kn m cfg) (ops : List (ChOp K V)) : Ch.Reach key kn m cfg (Ch.run c ops).1 := by
  induction ops using List.reverseRecOn with
  | nil => exact h
  | append_singleton ops op ih => rw [Ch.run_snoc]; exact Ch.Reach.step ih op

/-- **C153** where a reader stands: after `last_item = v` (any `v`, in the buffer or not) exactly the retained items with larger keys are unread; after
`del last_item` all retained items are; after any other call that does not peek and hands out items (`read`, `next`, `range`, `head`, `tail`), exactly those
with a larger key than the last item handed out. -/
theorem C153_seek (h : c.Reach key kn m cfg) (i : Nat) :
    (∀ v, let c' := (c.step (.rd i (.setLast v))).1;
      c'.buf.items = c.buf.items ∧ (c'.readers i).lastItem = some v ∧ unreadOf c' i = c.buf.items.filter (fun w => decide (key v < key w))) ∧
    (let c' := (c.step (.rd i .delLast)).1;
      c'.buf.items = c.buf.items ∧ (c'.readers i).lastItem = none ∧ unreadOf c' i = c.buf.items) ∧
    (∀ o z, movesCursor (cfg i) o = true → (outItems (c.step (.rd i o)).2).getLast? = some z →
      let c' := (c.step (.rd i o)).1;
      c'.buf.items = c.buf.items ∧ (c'.readers i).lastItem = some z ∧ unreadOf c' i = c.buf.items.filter (fun w => decide (key z < key w))) := by
  have hr : ∀ o : RdOp K V, Ch.Reach key kn m cfg (c.step (.rd i o)).1 := fun o => Ch.Reach.step h _
  have hb : ∀ o : RdOp K V, (c.step (.rd i o)).1.buf.items = c.buf.items := fun o => by
    obtain ⟨-, s2⟩ := h.sim.step (.rd i o)
    rw [s2.items]; rfl
  have key3 : ∀ (o : RdOp K V) (z : V), ((c.step (.rd i o)).1.readers i).lastItem = some z →
      unreadOf (c.step (.rd i o)).1 i = c.buf.items.filter (fun w => decide (key z < key w)) := by
    intro o z hz
    rw [unreadOf_eq (hr o), hz, hb]; rfl
  refine ⟨fun v => ?_, ?_, fun o z hm hz => ?_⟩
  · have : ((c.step (.rd i (.setLast v))).1.readers i).lastItem = some v := by rw [(h.rd i _).2]; rfl
    exact ⟨hb _, this, key3 _ _ this⟩
  · have : ((c.step (.rd i .delLast)).1.readers i).lastItem = none := by rw [(h.rd i _).2]; rfl
    exact ⟨hb _, this, by rw [unreadOf_eq (hr _), this, hb]; rfl⟩
  · suffices ((c.step (.rd i o)).1.readers i).lastItem = some z from ⟨hb _, this, key3 _ _ this⟩
    rw [(h.rd i o).1] at hz
    rw [(h.rd i o).2]
    cases o with
    | read n p ig st =>
      simp only [movesCursor, peeks, Bool.not_eq_true'] at hm
      simp only [rdStep, move, hm, Bool.false_eq_true, if_false] at hz ⊢
      rw [cursorAfter_last, hz]
    | nextMethod n p ig st =>
      simp only [movesCursor, peeks, Bool.not_eq_true'] at hm
      simp only [rdStep, move, hm, Bool.false_eq_true, if_false] at hz ⊢
      rw [cursorAfter_last, hz]
    | readForNext =>
      simp only [movesCursor, peeks, Bool.not_eq_true'] at hm
      simp only [rdStep, move, hm, Bool.false_eq_true, if_false] at hz ⊢
      rw [cursorAfter_last, hz]
    | range a b st p ig on le ge =>
      simp only [movesCursor, peeks, Bool.not_eq_true'] at hm
      simp only [rdStep, move, hm, Bool.false_eq_true, if_false] at hz ⊢
      rw [cursorAfter_last, hz]
    | tail p ig on =>
      simp only [movesCursor, peeks, Bool.not_eq_true'] at hm
      simp only [rdStep, move, hm, Bool.false_eq_true, if_false] at hz ⊢
      rw [cursorAfter_last, hz]
    | head p =>
      simp only [movesCursor, peeks, Bool.not_eq_true'] at hm
      simp only [rdStep, move, hm, Bool.false_eq_true, if_false] at hz ⊢
      rw [cursorAfter_last, hz]
    | setLast v => simp [rdStep, outItems, Ret.items] at hz
    | delLast => simp [rdStep, outItems, Ret.items] at hz

/-- **C153** from wherever it stands, a reader that then only takes new items gets, in order and each once, a part of what was unread when it got there and
what was accepted since; and what it has not got yet comes after that. -/
theorem C153_reads_on (hkn : ∀ k, kn ≠ .ok (some k)) (h : c.Reach key kn m cfg) (i : Nat) (ops : List (ChOp K V)) (hops : OnlyNew cfg i ops) :
    (newDelivered cfg i ops (Ch.run c ops).2 ++ unreadOf (Ch.run c ops).1 i).Sublist (unreadOf c i ++ takenAll ops (Ch.run c ops).2) := by
  rw [unreadOf_eq (Ch.Reach.run h ops), unreadOf_eq h]
  induction ops using List.reverseRecOn with
  | nil => simp [Ch.run, newDelivered, takenAll]
  | append_singleton ops op ih =>
    have hlen := Ch.run_length c ops
    have ih := ih (fun o ho => hops o (by simp [ho]))
    have hr : Ch.Reach key kn m cfg (Ch.run c ops).1 := Ch.Reach.run h ops
    rw [Ch.run_snoc, newDelivered_snoc _ _ _ _ _ _ hlen, takenAll_snoc _ _ _ _ hlen]
    rcases ch_step_new hkn hr i op (fun o ho => hops o (by simp [ho])) with ⟨v, h1, h2, -, h3, h4⟩ | ⟨h1, h2, ⟨⟨n, h3⟩, -⟩, h4⟩ | ⟨h1, h2, h3, -, h4⟩
    · rw [h1, h2, h3, h4, List.append_nil]
      refine ((((unread_sublist key (newest_suffix m _).sublist _).trans (unread_snoc key _ v _)).append_left _)).trans ?_
      rw [← List.append_assoc, ← List.append_assoc]
      exact ih.append_right _
    · rw [h1, h2, h3, h4, List.append_nil, List.append_nil]
      exact ((unread_sublist key (List.drop_sublist _ _) _).append_left _).trans ih
    · rw [h1, h2, h4, List.append_nil, List.append_assoc]
      refine List.Sublist.trans (List.Sublist.append_left ?_ _) ih
      cases hl : (newHanded cfg i op ((Ch.run c ops).1.step op).2).getLast? with
      | none =>
        have : newHanded cfg i op ((Ch.run c ops).1.step op).2 = [] := by simpa using hl
        rw [this]; exact List.Sublist.refl _
      | some z => exact sublist_then_rest hr.sim.strict _ h3 hl

/-- **C153** and on an unbounded buffer from which nothing is dropped, with calls that skip nothing, it gets exactly the items, retained then or accepted
since, with larger keys than the one it was put on: replayed from there if they were read before, and skipped if their keys are not larger. -/
theorem C153_misses_nothing (hkn : ∀ k, kn ≠ .ok (some k)) (h : c.Reach key kn none cfg) (i : Nat) (ops : List (ChOp K V)) (hops : OnlyNew cfg i ops)
    (hsk : ∀ o, .rd i o ∈ ops → skipsNothing (cfg i) (fun k => ∃ v, (v ∈ c.buf.items ∨ v ∈ appended ops) ∧ key v = k) o ∨ peeks (cfg i) o)
    (hd : ∀ n, .drop n ∉ ops) :
    newDelivered cfg i ops (Ch.run c ops).2 ++ unreadOf (Ch.run c ops).1 i =
      (c.buf.items ++ takenAll ops (Ch.run c ops).2).filter
        (fun v => match (c.readers i).lastItem with | some x => decide (key x < key v) | none => true) := by
  rw [unreadOf_eq (Ch.Reach.run h ops)]
  have hun : ∀ l : List V, l.filter (fun v => match (c.readers i).lastItem with | some x => decide (key x < key v) | none => true) =
      unread key l (c.readers i).lastItem := by
    intro l
    cases (c.readers i).lastItem with
    | none => simp [unread]
    | some x => rfl
  rw [hun]
  suffices H : (∀ v ∈ (Ch.run c ops).1.buf.items, v ∈ c.buf.items ∨ v ∈ appended ops) ∧
      newDelivered cfg i ops (Ch.run c ops).2 ++ unread key (Ch.run c ops).1.buf.items ((Ch.run c ops).1.readers i).lastItem =
        unread key (Ch.run c ops).1.buf.items (c.readers i).lastItem ∧
      (((Ch.run c ops).1.readers i).lastItem = (c.readers i).lastItem ∨
        ∃ z ∈ unread key (Ch.run c ops).1.buf.items (c.readers i).lastItem, ((Ch.run c ops).1.readers i).lastItem = some z) ∧
      c.buf.items ++ takenAll ops (Ch.run c ops).2 = (Ch.run c ops).1.buf.items by
    rw [H.2.2.2]; exact H.2.1
  induction ops using List.reverseRecOn with
  | nil => simp [Ch.run, newDelivered, takenAll]; exact fun v hv => .inl hv
  | append_singleton ops op ih =>
    have hlen := Ch.run_length c ops
    have hmono : ∀ o, skipsNothing (V := V) (cfg i) (fun k => ∃ v, (v ∈ c.buf.items ∨ v ∈ appended (ops ++ [op])) ∧ key v = k) o →
        ∀ P : K → Prop, (∀ k, P k → ∃ v, (v ∈ c.buf.items ∨ v ∈ appended (ops ++ [op])) ∧ key v = k) → skipsNothing (cfg i) P o := by
      intro o ho P hP
      cases o <;> try exact ho
      exact ⟨ho.1, ho.2.1, ho.2.2.1, fun k hk => ho.2.2.2 k (hP k hk)⟩
    have happ : ∀ v, (v ∈ c.buf.items ∨ v ∈ appended ops) → (v ∈ c.buf.items ∨ v ∈ appended (ops ++ [op])) := by
      intro v hv; rw [appended_append]; rcases hv with hv | hv <;> simp [hv]
    obtain ⟨i0, i1, i2, i3⟩ := ih (fun o ho => hops o (by simp [ho]))
      (fun o ho => (hsk o (by simp [ho])).imp (fun h => hmono o h _ fun k ⟨v, hv, e⟩ => ⟨v, happ v hv, e⟩) id) (fun n hn => hd n (by simp [hn]))
    have hr : Ch.Reach key kn none cfg (Ch.run c ops).1 := Ch.Reach.run h ops
    rw [Ch.run_snoc, newDelivered_snoc _ _ _ _ _ _ hlen, takenAll_snoc _ _ _ _ hlen]
    rcases ch_step_new hkn hr i op (fun o ho => hops o (by simp [ho])) with ⟨v, h1, h2, hm, h3, h4⟩ | ⟨h1, h2, ⟨-, h3⟩, h4⟩ | ⟨h1, h2, -, h3, h4⟩
    · rw [h1, h2, h3, h4, List.append_nil]
      have hop : op = .append v := taken_is h1
      simp only [newest]
      have habove : ∀ w ∈ (Ch.run c ops).1.buf.items, key w < key v := by
        intro w hw
        simp only [mayAppend] at hm
        cases hl : (Ch.run c ops).1.buf.items.getLast? with
        | none => simp at hl; rw [hl] at hw; simp at hw
        | some z =>
          rw [hl] at hm
          simp only [decide_eq_true_eq] at hm
          obtain ⟨pre, hp⟩ := List.getLast?_eq_some_iff.1 hl
          have hs : (Ch.run c ops).1.buf.items.Pairwise (fun v w => key v < key w) := hr.sim.strict
          rw [hp] at hw hs
          rcases List.mem_append.1 hw with hw | hw
          · exact ((List.pairwise_append.1 hs).2.2 w hw z (by simp)).trans hm
          · simp at hw; rw [hw]; exact hm
      have hsnoc : ∀ (l : List V) (cur : Option V), unread key (l ++ [v]) cur = unread key l cur ++ unread key [v] cur := by
        intro l cur; cases cur <;> simp [unread]
      refine ⟨?_, ?_, ?_, by rw [← i3, List.append_assoc]⟩
      · intro w hw
        rcases List.mem_append.1 hw with hw | hw
        · exact happ w (i0 w hw)
        · simp at hw; subst hw; rw [hop, appended_append]; simp [appended]
      · rw [hsnoc, hsnoc, ← i1, List.append_assoc]
        congr 2
        rcases i2 with i2 | ⟨z, hz, i2⟩
        · rw [i2]
        · rw [i2]
          have hz1 := (unread_sub key _ _).subset hz
          have hz2 := unread_above key _ _ z hz
          have hzv := habove z hz1
          cases hc : (c.readers i).lastItem with
          | none => simp [unread, hzv]
          | some x => simp [unread, hzv, (hz2 x hc).trans hzv]
      · rcases i2 with i2 | ⟨z, hz, i2⟩
        · exact .inl i2
        · exact .inr ⟨z, by rw [hsnoc]; exact List.mem_append_left _ hz, i2⟩
    · rw [h1, h2, h3 (fun n hn => hd n (by simp [hn])), h4, List.append_nil, List.append_nil]
      exact ⟨fun v hv => happ v (i0 v hv), i1, i2, i3⟩
    · have hp := h3 (fun o ho => (hsk o (by simp [ho])).imp (fun h => hmono o h _ fun k ⟨v, hv, e⟩ => ⟨v, happ v (i0 v hv), e⟩) id)
      rw [h1, h2, h4, List.append_nil]
      refine ⟨fun v hv => happ v (i0 v hv), ?_, ?_, i3⟩
      · obtain ⟨q, hq⟩ := hp
        rw [List.append_assoc, ← i1]
        congr 1
        rw [← hq]
        congr 1
        cases hl : (newHanded cfg i op ((Ch.run c ops).1.step op).2).getLast? with
        | none =>
          have : newHanded cfg i op ((Ch.run c ops).1.step op).2 = [] := by simpa using hl
          rw [this] at hq; simpa using hq.symm
        | some z => exact unread_after hr.sim.strict _ _ q z hq.symm hl
      · cases hl : (newHanded cfg i op ((Ch.run c ops).1.step op).2).getLast? with
        | none => exact i2
        | some z =>
          refine .inr ⟨z, ?_, rfl⟩
          rw [← i1]
          exact List.mem_append_right _ (hp.subset (List.mem_of_getLast? hl))

/-- **C153** a reader that is put where another one stands takes over from it: with the same settings and the same last item (`other.last_item =
reader.last_item`), the calls the first would make give the same results when the second makes them, whatever is appended, dropped and read by others in
between. -/
theorem C153_take_over (h : c.Reach key kn m cfg) (i j : Nat) (hcfg : cfg i = cfg j) (hlast : (c.readers i).lastItem = (c.readers j).lastItem)
    (ops : List (ChOp K V)) (hj : ∀ o, .rd j o ∉ ops) :
    (Ch.run c (ops.map (takeOver i j))).2 = (Ch.run c ops).2 := by
  have h0 : c.readers i = c.readers j := by
    have a := h.sim.coh i; have b := h.sim.coh j; have a' := h.sim.cfg i; have b' := h.sim.cfg j
    cases hi : c.readers i; cases hjj : c.readers j
    simp only [hi, hjj] at *
    simp only [Reader.Coherent] at a b
    simp_all
  suffices H : ∀ (ops : List (ChOp K V)) (c d : Ch K V), (∀ o, .rd j o ∉ ops) → c.buf = d.buf → c.readers i = d.readers j →
      (∀ k, k ≠ i → k ≠ j → c.readers k = d.readers k) → (Ch.run d (ops.map (takeOver i j))).2 = (Ch.run c ops).2 from
    H ops c c hj rfl h0 fun _ _ _ => rfl
  clear h0 hlast hcfg hj h ops
  intro ops
  induction ops with
  | nil => intros; rfl
  | cons op ops ih =>
    intro c d hj hb hij hk
    have hj' : ∀ o, .rd j o ∉ ops := fun o ho => hj o (by simp [ho])
    simp only [List.map_cons, Ch.run]
    cases op with
    | append v =>
      simp only [takeOver, Ch.step, hb]
      exact congrArg₂ _ rfl (ih _ _ hj' rfl hij hk)
    | drop n =>
      simp only [takeOver, Ch.step, hb]
      exact congrArg₂ _ rfl (ih _ _ hj' rfl hij hk)
    | rd k o =>
      by_cases hki : k = i
      · subst hki
        simp only [takeOver, if_true, Ch.step, ← hij, ← hb]
        refine congrArg₂ _ rfl (ih _ _ hj' rfl ?_ ?_)
        · simp
        · intro l h1 h2; simp [h1, h2, hk l h1 h2]
      · have hkj : k ≠ j := fun e => hj o (by simp [e])
        simp only [takeOver, hki, if_false, Ch.step, ← hb, ← hk k hki hkj]
        refine congrArg₂ _ rfl (ih _ _ hj' rfl ?_ ?_)
        · simp [Ne.symm hki, Ne.symm hkj, hij]
        · intro l h1 h2
          by_cases hl : l = k <;> simp [hl, hk l h1 h2]

end

/-- Reader 0 has read 1, 2, 3, 5; it goes back to 2. -/
def wSeek : List (ChOp Nat Nat) := [.append 1, .append 2, .append 3, .append 5, .rd 0 (.read (some 9) none none none), .rd 0 (.setLast 2)]
/-- Then it reads one, 7 comes, it reads the rest, looks again. -/
def wOn : List (ChOp Nat Nat) := [.rd 0 .readForNext, .append 7, .rd 0 (.range 0 9 none false none true false false), .append 8, .rd 0 (.read none (some true) none none)]

/-- Meets C153: back on 2, the reader is given 3, then 5 and 7, and can still read 8. Put on 6 instead, which is not there, it skips 5 and gets 7. Another
reader put on 2 is given the same. -/
theorem C153_meets : ∃ c : Ch Nat Nat, c = (Ch.run (Ch.init id (.error .typeError) none fun _ => Cfg.default) wSeek).1 ∧
    (c.readers 0).lastItem = some 2 ∧ unreadOf c 0 = [3, 5] ∧ (Ch.run c wOn).2 = [.ok (.one 3), .ok .none, .ok (.many [5, 7]), .ok .none, .ok (.one 8)] ∧
    unreadOf (Ch.run c wOn).1 0 = [8] ∧ (c.buf.items ++ takenAll wOn (Ch.run c wOn).2) = [1, 2, 3, 5, 7, 8] ∧
    OnlyNew (fun _ => Cfg.default) 0 wOn ∧
    (∀ o, .rd 0 o ∈ wOn → skipsNothing Cfg.default (fun k => ∃ v, (v ∈ c.buf.items ∨ v ∈ appended wOn) ∧ v = k) o ∨ peeks Cfg.default o) ∧
    (∀ n, .drop n ∉ wOn) ∧
    (Ch.run (c.step (.rd 0 (.setLast 6))).1 [.rd 0 (.read none none (some true) none), .append 7, .rd 0 .readForNext]).2 = [.ok .none, .ok .none, .ok (.one 7)] ∧
    (Ch.run (c.step (.rd 1 (.setLast 2))).1 (wOn.map (takeOver 0 1))).2 = (Ch.run c wOn).2 := by
  refine ⟨_, rfl, rfl, rfl, rfl, rfl, rfl, ?_, ?_, ?_, rfl, rfl⟩
  · intro o ho
    simp only [wOn, List.mem_cons, ChOp.rd.injEq, reduceCtorEq, false_or, or_false, List.not_mem_nil, true_and] at ho
    rcases ho with rfl | rfl | rfl
    all_goals first | exact .inl rfl | exact .inr rfl
  · intro o ho
    simp only [wOn, List.mem_cons, ChOp.rd.injEq, reduceCtorEq, false_or, or_false, List.not_mem_nil, true_and] at ho
    rcases ho with rfl | rfl | rfl
    all_goals first | exact .inl ⟨rfl, rfl, rfl, fun k _ => Nat.zero_le k⟩ | exact .inl rfl | exact .inr rfl
  · intro n hn
    simp [wOn] at hn

end S2P
