import Verif.Model.Aged
import Verif.Proofs.SortedDeque
/-
C160: items that change while they are in a SortedDeque.
-/
namespace S2P
open Spec
variable {K V : Type} [LinearOrder K]

theorem dqAppend_map2 {α β : Type} (f : α → β) (m : Option Nat) (l : List α) (x : α) : dqAppend m (l.map f) (f x) = (dqAppend m l x).map f := by
  rw [dqAppend_map]

theorem everyNth_map {α β : Type} (f : α → β) (n c : Nat) (l : List α) : everyNth n c (l.map f) = (everyNth n c l).map f := by
  induction l generalizing c with
  | nil => cases c <;> rfl
  | cons x xs ih => cases c <;> simp [everyNth, ih]

theorem dqGet_map {α β : Type} (f : α → β) (l : List α) (i : Nat) : dqGet (l.map f) i = (dqGet l i).map f := by
  unfold dqGet
  rw [List.getElem?_map]
  cases l[i]? <;> rfl

namespace SD

/-- The deque `s` keeps the keys and items of the notes `p`. -/
structure Keeps (s : SD K V) (p : Noted K V) : Prop where
  keys : s.keys = p.notes.map (·.1)
  items : s.items = p.notes.map (·.2)
  key : s.key = p.key
  maxlen : s.maxlen = p.maxlen
  sorted : p.notes.Pairwise (fun a b => a.1 ≤ b.1)
  bounded : ∀ m, p.maxlen = some m → p.notes.length ≤ m

variable {s : SD K V} {p : Noted K V}

/-- The deque of the notes themselves. -/
def pairs (s : SD K V) (p : Noted K V) : SD K (K × V) := ⟨s.keys, p.notes, (·.1), s.keyNone, s.maxlen⟩

theorem Keeps.wf (h : s.Keeps p) : (pairs s p).WF := ⟨h.keys, h.sorted, fun m hm => h.bounded m (by rw [← h.maxlen]; exact hm)⟩

theorem Keeps.len (h : s.Keeps p) : s.items.length = p.notes.length := by simp [h.items]

theorem Keeps.of_wf (h : s.Keeps p) {ns : List (K × V)} (hw : (⟨ns.map (·.1), ns, (·.1), s.keyNone, s.maxlen⟩ : SD K (K × V)).WF) {t : SD K V}
    (hk : t.keys = ns.map (·.1)) (hi : t.items = ns.map (·.2)) (hkey : t.key = s.key) (hm : t.maxlen = s.maxlen) : t.Keeps { p with notes := ns } :=
  ⟨hk, hi, hkey.trans h.key, hm.trans h.maxlen, hw.sorted, fun m hm' => hw.bounded m (h.maxlen.trans hm')⟩

theorem Keeps.grow (h : s.Keeps p) (v : V) (hm : mayAppend (·.1) p.notes (p.key v, v) = true) :
    ({ s with keys := dqAppend s.maxlen s.keys (s.key v), items := dqAppend s.maxlen s.items v } : SD K V).Keeps
      { p with notes := newest p.maxlen (p.notes ++ [(p.key v, v)]) } := by
  have hw := h.wf
  have hwa : (⟨(newest p.maxlen (p.notes ++ [(p.key v, v)])).map (·.1), newest p.maxlen (p.notes ++ [(p.key v, v)]), (·.1), s.keyNone, s.maxlen⟩ :
      SD K (K × V)).WF := by
    have h1 := hw.append (p.key v, v)
    rw [append_eq hw.aligned hw.bounded, if_pos (show mayAppend (pairs s p).key (pairs s p).items (p.key v, v) = true from hm)] at h1
    have h2 : (pairs s p).maxlen = p.maxlen := h.maxlen
    rw [h2] at h1
    exact ⟨h1.aligned, h1.sorted, fun m hm' => h1.bounded m (h2.symm.trans hm')⟩
  refine h.of_wf hwa ?_ ?_ rfl rfl
  · simp only [h.keys, h.key, h.maxlen]
    rw [show p.key v = (fun n : K × V => n.1) (p.key v, v) from rfl, dqAppend_map2, dqAppend_newest' _ _ _ h.bounded]
  · simp only [h.items, h.maxlen]
    rw [← dqAppend_newest' _ _ _ h.bounded, ← dqAppend_map2]

theorem Keeps.append (h : s.Keeps p) (v : V) :
    (s.append v).1.Keeps (if mayAppend (·.1) p.notes (p.key v, v) then { p with notes := newest p.maxlen (p.notes ++ [(p.key v, v)]) } else p) ∧
    (s.append v).2 = if mayAppend (·.1) p.notes (p.key v, v) then .ok () else .error .valueError := by
  have hl : s.keys.getLast? = p.notes.getLast?.map (·.1) := by rw [h.keys, List.getLast?_map]
  rcases s.append_cases v with ⟨he, hs⟩ | ⟨l, hl', hlt, hs⟩ | ⟨l, hl', hlt, hs⟩
  · have hn : p.notes = [] := by simpa [h.keys] using he
    have hm : mayAppend (fun n : K × V => n.1) p.notes (p.key v, v) = true := by simp [mayAppend, hn]
    rw [if_pos hm, if_pos hm, hs]
    exact ⟨h.grow v hm, rfl⟩
  · rw [hl] at hl'
    obtain ⟨w, hw', rfl⟩ := Option.map_eq_some_iff.1 hl'
    rw [h.key] at hlt
    have hm : mayAppend (fun n : K × V => n.1) p.notes (p.key v, v) = true := by simp [mayAppend, hw', hlt]
    rw [if_pos hm, if_pos hm, hs]
    exact ⟨h.grow v hm, rfl⟩
  · rw [hl] at hl'
    obtain ⟨w, hw', rfl⟩ := Option.map_eq_some_iff.1 hl'
    rw [h.key] at hlt
    have hm : ¬ mayAppend (fun n : K × V => n.1) p.notes (p.key v, v) = true := by simp [mayAppend, hw', hlt]
    rw [if_neg hm, if_neg hm, hs]
    exact ⟨h, rfl⟩

theorem Keeps.insertAt (h : s.Keeps p) (i : Nat) (v : V) (k : K) (hk : s.key v = k) {ns : List (K × V)}
    (hns : p.notes.take i ++ (k, v) :: p.notes.drop i = ns) (hw : ns.Pairwise (fun a b => a.1 ≤ b.1)) :
    (s.insertAt i v).1.Keeps (if p.maxlen = some p.notes.length then p else { p with notes := ns }) ∧
    (s.insertAt i v).2 = if p.maxlen = some p.notes.length then .error .indexError else .ok () := by
  have hkl : s.keys.length = p.notes.length := by simp [h.keys]
  have hil := h.len
  unfold SD.insertAt dqInsert
  rw [hkl, hil, h.maxlen]
  by_cases hm : p.maxlen = some p.notes.length
  · simp only [hm, if_true]; exact ⟨h, trivial⟩
  · simp only [hm, if_false]
    refine ⟨?_, trivial⟩
    refine ⟨?_, ?_, h.key, rfl, hw, ?_⟩
    · simp [h.keys, ← hns, hk]
    · simp [h.items, ← hns]
    · intro m hm'
      have := h.bounded m hm'
      have hne : m ≠ p.notes.length := fun he => hm (he ▸ hm')
      have hl := congrArg List.length hns
      simp only [List.length_append, List.length_cons, List.length_take, List.length_drop] at hl
      simp only
      omega

theorem Keeps.insert (h : s.Keeps p) (v : V) :
    (s.insert v).1.Keeps (if p.maxlen = some p.notes.length then p else { p with notes := p.notes.filter (fun n => decide (n.1 < p.key v)) ++ (p.key v, v) :: p.notes.filter (fun n => decide (p.key v ≤ n.1)) }) ∧
    (s.insert v).2 = if p.maxlen = some p.notes.length then .error .indexError else .ok () := by
  have hw := h.wf
  have hb : bisectLeft s.keys (some (p.key v)) = .ok (p.notes.countP fun n => decide (n.1 < p.key v)) := hw.bisectLeft (p.key v)
  have hd : p.notes.filter (fun n => !decide (n.1 < p.key v)) = p.notes.filter (fun n => decide (p.key v ≤ n.1)) := by
    apply List.filter_congr; intro w _; simp [← not_lt]
  simp only [SD.insert, h.key, hb]
  have h1 : p.notes.take (p.notes.countP fun n => decide (n.1 < p.key v)) = p.notes.filter (fun n => decide (n.1 < p.key v)) :=
    take_countP (hw.mono_lt (p.key v))
  have h2 : p.notes.drop (p.notes.countP fun n => decide (n.1 < p.key v)) = p.notes.filter (fun n => !decide (n.1 < p.key v)) :=
    drop_countP (hw.mono_lt (p.key v))
  refine h.insertAt _ v (p.key v) (by rw [h.key]) (by rw [h1, h2, hd]) ?_
  refine List.pairwise_append.2 ⟨h.sorted.filter _, List.pairwise_cons.2 ⟨fun a ha => by simpa using (List.mem_filter.1 ha).2, h.sorted.filter _⟩, ?_⟩
  intro a ha b hb
  have ha' : a.1 < p.key v := by simpa using (List.mem_filter.1 ha).2
  rcases List.mem_cons.1 hb with rfl | hb
  · exact le_of_lt ha'
  · have hb' : p.key v ≤ b.1 := by simpa using (List.mem_filter.1 hb).2
    exact le_of_lt (lt_of_lt_of_le ha' hb')

theorem Keeps.insertRight (h : s.Keeps p) (v : V) :
    (s.insertRight v).1.Keeps (if p.maxlen = some p.notes.length then p else { p with notes := p.notes.filter (fun n => decide (n.1 ≤ p.key v)) ++ (p.key v, v) :: p.notes.filter (fun n => decide (p.key v < n.1)) }) ∧
    (s.insertRight v).2 = if p.maxlen = some p.notes.length then .error .indexError else .ok () := by
  have hw := h.wf
  have hb : bisectRight s.keys (some (p.key v)) = .ok (p.notes.countP fun n => decide (n.1 ≤ p.key v)) := hw.bisectRight (p.key v)
  have hd : p.notes.filter (fun n => !decide (n.1 ≤ p.key v)) = p.notes.filter (fun n => decide (p.key v < n.1)) := by
    apply List.filter_congr; intro w _; simp [← not_le]
  simp only [SD.insertRight, h.key, hb]
  have h1 : p.notes.take (p.notes.countP fun n => decide (n.1 ≤ p.key v)) = p.notes.filter (fun n => decide (n.1 ≤ p.key v)) :=
    take_countP (hw.mono_le (p.key v))
  have h2 : p.notes.drop (p.notes.countP fun n => decide (n.1 ≤ p.key v)) = p.notes.filter (fun n => !decide (n.1 ≤ p.key v)) :=
    drop_countP (hw.mono_le (p.key v))
  refine h.insertAt _ v (p.key v) (by rw [h.key]) (by rw [h1, h2, hd]) ?_
  refine List.pairwise_append.2 ⟨h.sorted.filter _, List.pairwise_cons.2 ⟨fun a ha => le_of_lt (by simpa using (List.mem_filter.1 ha).2), h.sorted.filter _⟩, ?_⟩
  intro a ha b hb
  have ha' : a.1 ≤ p.key v := by simpa using (List.mem_filter.1 ha).2
  rcases List.mem_cons.1 hb with rfl | hb
  · exact ha'
  · have hb' : p.key v < b.1 := by simpa using (List.mem_filter.1 hb).2
    exact le_of_lt (lt_of_le_of_lt ha' hb')

/-- The notes between the two bisections. -/
theorem Keeps.slice (h : s.Keeps p) (lo hi : K) :
    ∃ i j, bisectLeft s.keys (some lo) = .ok i ∧ bisectRight s.keys (some hi) = .ok j ∧
      (s.items.take j).drop i = (between (·.1) lo hi p.notes).map (·.2) ∧ (p.notes.take j).drop i = between (·.1) lo hi p.notes := by
  have hw := h.wf
  have h1 : bisectLeft s.keys (some lo) = .ok (p.notes.countP fun n => decide (n.1 < lo)) := hw.bisectLeft lo
  have h2 : bisectRight s.keys (some hi) = .ok (p.notes.countP fun n => decide (n.1 ≤ hi)) := hw.bisectRight hi
  have h3 : (p.notes.take (p.notes.countP fun n => decide (n.1 ≤ hi))).drop (p.notes.countP fun n => decide (n.1 < lo)) = between (·.1) lo hi p.notes :=
    slice_eq hw lo hi
  exact ⟨_, _, h1, h2, by rw [h.items, ← List.map_take, ← List.map_drop, h3], h3⟩

theorem between_eq (k : K) (l : List (K × V)) : between (·.1) k k l = l.filter (fun n => decide (n.1 = k)) := by
  rw [Spec.between]
  apply List.filter_congr
  intro v _
  rw [← Bool.decide_and]
  congr 1
  exact propext ⟨fun h => le_antisymm h.2 h.1, fun h => ⟨le_of_eq h.symm, le_of_eq h⟩⟩

/-- Equality of notes. -/
def noteEq [BEq V] : BEq (K × V) := ⟨fun a b => decide (a.1 = b.1) && a.2 == b.2⟩

theorem findIdx_filter_map [BEq V] (k : K) (v : V) (l : List (K × V)) (hl : ∀ n ∈ l, n.1 = k) :
    (l.map (·.2)).findIdx? (· == v) = l.findIdx? (fun n => decide (n.1 = k) && n.2 == v) := by
  induction l with
  | nil => rfl
  | cons n ns ih =>
    simp only [List.map_cons, List.findIdx?_cons, hl n (by simp), decide_true, Bool.true_and]
    rw [ih (fun m hm => hl m (by simp [hm]))]

theorem Keeps.index [BEq V] (h : s.Keeps p) (v : V) : s.index v = @Spec.position _ noteEq (p.key v, v) p.notes := by
  have hw := h.wf
  letI : BEq (K × V) := noteEq
  have hi := index_eq hw (fun a b hab => of_decide_eq_true (Bool.and_eq_true_iff.1 hab).1) (p.key v, v)
  rw [show (pairs s p).items = p.notes from rfl] at hi
  rw [← hi]
  obtain ⟨i, j, h1, h2, h3, h4⟩ := h.slice (p.key v) (p.key v)
  rw [between_eq] at h3 h4
  simp only [SD.index, h.key, pairs, h1, h2, bind, Except.bind, dqIndex, h3, h4]
  rw [findIdx_filter_map (p.key v) v _ (fun n hn => by simpa using (List.mem_filter.1 hn).2)]
  rfl

theorem Keeps.remove [BEq V] (h : s.Keeps p) (v : V) :
    (s.remove v).1.Keeps (if p.notes.any (fun n => decide (n.1 = p.key v) && n.2 == v)
      then { p with notes := p.notes.eraseP (fun n => decide (n.1 = p.key v) && n.2 == v) } else p) ∧
    (s.remove v).2 = if p.notes.any (fun n => decide (n.1 = p.key v) && n.2 == v) then .ok () else .error .valueError := by
  have hkl : s.keys.length = p.notes.length := by simp [h.keys]
  unfold SD.remove
  rw [h.index v]
  letI : BEq (K × V) := noteEq
  rcases position_eraseP (p.key v, v) p.notes with ⟨i, h1, h2, h3⟩ | ⟨h1, h2⟩
  · have hany : p.notes.any (fun n => decide (n.1 = p.key v) && n.2 == v) = true := by
      by_contra hc
      have hc : ∀ n ∈ p.notes, (n == (p.key v, v)) = false := by
        intro n hn; simp only [List.any_eq_true, not_exists, not_and] at hc
        exact Bool.eq_false_iff.2 (hc n hn)
      have : (p.notes.findIdx? (· == (p.key v, v))) = none := by rw [List.findIdx?_eq_none_iff]; exact hc
      rw [position_eq, this] at h1
      simp at h1
    rw [h1, if_pos hany]
    simp only [dqDel, hkl, h.len, h2, if_true, hany]
    refine ⟨⟨?_, ?_, h.key, h.maxlen, h.sorted.sublist List.eraseP_sublist, ?_⟩, trivial⟩
    · simp only [h.keys, map_eraseIdx, h3]; rfl
    · simp only [h.items, map_eraseIdx, h3]; rfl
    · intro m hm
      have := h.bounded m hm
      have := (List.eraseP_sublist (p := fun n : K × V => decide (n.1 = p.key v) && n.2 == v) (l := p.notes)).length_le
      simp only; omega
  · rw [h1]
    have : ¬ p.notes.any (fun n => decide (n.1 = p.key v) && n.2 == v) = true := by
      simp only [List.any_eq_true, not_exists, not_and]
      intro n hn
      exact Bool.eq_false_iff.1 (h2 n hn)
    rw [if_neg this, if_neg this]
    exact ⟨h, rfl⟩

theorem Keeps.drop (h : s.Keeps p) (n : Int) :
    (s.drop n).1.Keeps { p with notes := p.notes.drop n.toNat } ∧ (s.drop n).2 = if n ≤ p.notes.length then .ok () else .error .indexError := by
  have hkl : s.keys.length = s.items.length := by simp [h.keys, h.items]
  rw [SD.drop, dropLoop_eq hkl]
  refine ⟨⟨by simp [h.keys], by simp [h.items], h.key, h.maxlen, h.sorted.drop, fun m hm => ?_⟩, ?_⟩
  · have := h.bounded m hm; simp; omega
  · rw [h.len]
    by_cases hn : n ≤ p.notes.length
    · rw [if_pos hn, if_pos (by omega)]
    · rw [if_neg hn, if_neg (by omega)]

theorem keeps_afresh [BEq V] [LT V] [DecidableLT V] (l : List V) (key : V → K) (kn : Py (Option K)) (m : Option Nat) :
    (new l key kn m).Keeps (.afresh l key m) := by
  refine ⟨?_, ?_, rfl, rfl, ?_, ?_⟩
  · simp only [new, dqOf_eq, Noted.afresh, newest]; cases m <;> simp
  · simp only [new, dqOf_eq, Noted.afresh, newest]; cases m <;> simp
  · have := sorted_pairs l key
    simp only [Noted.afresh, newest]
    cases m
    · exact this
    · exact this.drop
  · exact newest_length _ _

theorem Keeps.call [BEq V] [LT V] [DecidableLT V] (h : s.Keeps p) (op : Op K V) :
    (s.apply op).1.Keeps (p.call op).1 ∧ (s.apply op).2 = (p.call op).2 := by
  cases op with
  | append v => have := h.append v; simp only [SD.apply, Noted.call]; split <;> simp_all
  | insert v => have := h.insert v; simp only [SD.apply, Noted.call]; split <;> simp_all
  | insertRight v => have := h.insertRight v; simp only [SD.apply, Noted.call]; split <;> simp_all
  | remove v => have := h.remove v; simp only [SD.apply, Noted.call]; split <;> simp_all
  | drop n => exact h.drop n
  | clear =>
    refine ⟨?_, rfl⟩
    show (new [] s.key s.keyNone s.maxlen).Keeps { p with notes := [] }
    exact ⟨rfl, rfl, h.key, h.maxlen, .nil, fun _ _ => Nat.zero_le _⟩
  | setMaxlen m =>
    refine ⟨?_, rfl⟩
    simp only [SD.apply, Noted.call, setMaxlen, h.maxlen, h.key, h.items]
    split
    · exact keeps_afresh _ _ _ _
    · exact h
  | setKey k kn => simp only [SD.apply, Noted.call, setKey, h.items]; exact ⟨keeps_afresh _ _ _ _, trivial⟩
  | delKey k kn => simp only [SD.apply, Noted.call, delKey, h.items, h.maxlen]; exact ⟨keeps_afresh _ _ _ _, trivial⟩
  | copy => simp only [SD.apply, Noted.call, copy, h.items, h.maxlen, h.key]; exact ⟨keeps_afresh _ _ _ _, trivial⟩
  | roundTrip => simp only [SD.apply, Noted.call, roundTrip, h.items, h.maxlen, h.key]; exact ⟨keeps_afresh _ _ _ _, trivial⟩

theorem Keeps.run (h : s.Keeps p) (hs : List (Happens K V)) : (s.live hs).1.Keeps (p.run hs).1 ∧ (s.live hs).2 = (p.run hs).2 := by
  induction hs generalizing s p with
  | nil => exact ⟨h, rfl⟩
  | cons x hs ih =>
    cases x with
    | change k => exact ih ⟨h.keys, h.items, rfl, h.maxlen, h.sorted, h.bounded⟩
    | call eq lt dec op =>
      obtain ⟨h1, h2⟩ := @Keeps.call K V _ s p eq lt dec h op
      obtain ⟨h3, h4⟩ := ih h1
      exact ⟨h3, by simp only [live, Noted.run]; rw [h2, h4]⟩

variable [BEq V] [LT V] [DecidableLT V] (l : List V) (key : V → K) (kn : Py (Option K)) (m : Option Nat) (hs : List (Happens K V))

/-- **C160** calls and items: whatever happens to the items of a deque, every call does and raises what it does for a list in which each item stands with the
key it had when it was put in; that list is sorted by those keys and within the bound. -/
theorem C160_calls :
    ((new l key kn m).live hs).1.items = ((Noted.afresh l key m).run hs).1.items ∧ ((new l key kn m).live hs).2 = ((Noted.afresh l key m).run hs).2 ∧
    ((Noted.afresh l key m).run hs).1.notes.Pairwise (fun a b => a.1 ≤ b.1) ∧
    (∀ n, ((new l key kn m).live hs).1.maxlen = some n → ((new l key kn m).live hs).1.items.length ≤ n) := by
  obtain ⟨h1, h2⟩ := (keeps_afresh l key kn m).run hs
  exact ⟨h1.items, h2, h1.sorted, fun n hn => h1.len ▸ h1.bounded n (h1.maxlen ▸ hn)⟩

/-- **C160** searches and ranges go by the noted keys. -/
theorem C160_searches (k lo hi : K) :
    let s := ((new l key kn m).live hs).1
    let ns := ((Noted.afresh l key m).run hs).1.notes
    s.find (some k) = (first (fun n => decide (n.1 = k)) ns).map (·.2) ∧
    s.findLe (some k) = (last (fun n => decide (n.1 ≤ k)) ns).map (·.2) ∧ s.findLt (some k) = (last (fun n => decide (n.1 < k)) ns).map (·.2) ∧
    s.findGe (some k) = (first (fun n => decide (k ≤ n.1)) ns).map (·.2) ∧ s.findGt (some k) = (first (fun n => decide (k < n.1)) ns).map (·.2) ∧
    s.range (some lo) (some hi) none = .ok ((between (·.1) lo hi ns).map (·.2)) := by
  obtain ⟨h, -⟩ := (keeps_afresh l key kn m).run hs
  generalize ((new l key kn m).live hs).1 = s at h
  generalize ((Noted.afresh l key m).run hs).1 = p at h
  intro s' ns
  subst s' ns
  have hw := h.wf
  refine ⟨?_, ?_, ?_, ?_, ?_, ?_⟩
  · refine Eq.trans ?_ (congrArg (Except.map (·.2)) (find_some hw k))
    simp only [find, pairs, len, bind, h.len, h.items, dqGet_map]
    cases bisectLeft s.keys (some k) with
    | error e => rfl
    | ok i =>
      simp only [Except.bind, List.length_map]
      by_cases hc : i = p.notes.length
      · simp only [hc, ne_eq, not_true_eq_false, if_false]; rfl
      · simp only [ne_eq, hc, not_false_eq_true, if_true]
        cases dqGet s.keys i with
        | error e => rfl
        | ok ki => by_cases hk : some ki = some k <;> simp only [hk, if_true, if_false] <;> rfl
  · refine Eq.trans ?_ (congrArg (Except.map (·.2)) (findLe_some hw k))
    simp only [findLe, pairs, bind, h.items, dqGet_map]
    cases bisectRight s.keys (some k) with
    | error e => rfl
    | ok i => simp only [Except.bind]; by_cases hc : i = 0 <;> simp [hc, Except.map]
  · refine Eq.trans ?_ (congrArg (Except.map (·.2)) (findLt_some hw k))
    simp only [findLt, pairs, bind, h.items, dqGet_map]
    cases bisectLeft s.keys (some k) with
    | error e => rfl
    | ok i => simp only [Except.bind]; by_cases hc : i = 0 <;> simp [hc, Except.map]
  · refine Eq.trans ?_ (congrArg (Except.map (·.2)) (findGe_some hw k))
    simp only [findGe, pairs, len, bind, h.items, dqGet_map]
    cases bisectLeft s.keys (some k) with
    | error e => rfl
    | ok i => simp only [Except.bind, List.length_map]; by_cases hc : i = p.notes.length <;> simp [hc, Except.map]
  · refine Eq.trans ?_ (congrArg (Except.map (·.2)) (findGt_some hw k))
    simp only [findGt, pairs, len, bind, h.items, dqGet_map]
    cases bisectRight s.keys (some k) with
    | error e => rfl
    | ok i => simp only [Except.bind, List.length_map]; by_cases hc : i = p.notes.length <;> simp [hc, Except.map]
  · obtain ⟨i, j, h1, h2, h3, -⟩ := h.slice lo hi
    simp only [SD.range, h1, h2, bind, Except.bind, rangeByIndex, islice, h3]

/-- **C160** an item is found (`in`, `count`, `index`) exactly where an equal item stands with, as noted key, the key the item asked for has now. -/
theorem C160_membership (v : V) :
    let s := ((new l key kn m).live hs).1
    let p := ((Noted.afresh l key m).run hs).1
    s.contains v = .ok (p.notes.any fun n => decide (n.1 = p.key v) && n.2 == v) ∧ s.count v = .ok (p.notes.countP fun n => decide (n.1 = p.key v) && n.2 == v) ∧
    s.index v = (match p.notes.findIdx? (fun n => decide (n.1 = p.key v) && n.2 == v) with | some i => .ok i | none => .error .valueError) ∧
    s.key = p.key := by
  obtain ⟨h, -⟩ := (keeps_afresh l key kn m).run hs
  generalize ((new l key kn m).live hs).1 = s at h
  generalize ((Noted.afresh l key m).run hs).1 = p at h
  intro s' p'
  subst s' p'
  obtain ⟨i, j, h1, h2, h3, -⟩ := h.slice (p.key v) (p.key v)
  rw [between_eq] at h3
  refine ⟨?_, ?_, ?_, h.key⟩
  · simp only [contains, h.key, h1, h2, bind, Except.bind, islice, h3, List.any_map, List.any_filter, Function.comp_def]
  · simp only [count, h.key, h1, h2, bind, Except.bind, islice, h3, List.countP_map, List.countP_filter, Function.comp_def]
    congr 2; funext n; rw [Bool.and_comm]
  · rw [h.index v, @position_eq _ noteEq]; rfl

end SD
end S2P
