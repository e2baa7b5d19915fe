import Verif.Proofs.Cost
/-
C156: which user code the calls of a sorted deque run, and how often (Model/Cost.lean; `Proofs/Cost.lean` shows that the results are those of
Model/Raising.lean). The second component of what a call gives is the list of the calls of user code it made. `2 ^ d` more than the number of items:
`d` is the number of binary digits of that number, so `d` is about its logarithm.
-/
namespace S2P
variable {K V : Type}
open Tr Spec

theorem bisectT_calls {g : K → Tr K V Bool} {a : List K} {c : UCall K V} : ∀ (fuel lo hi : Nat), c ∈ (bisectT g a fuel lo hi).2 → ∃ m ∈ a, c ∈ (g m).2
  | 0, _, _, h => by simp [bisectT] at h
  | fuel + 1, lo, hi, h => by
    unfold bisectT at h
    split at h
    · split at h
      · simp at h
      · rename_i m hm
        rcases bind_mem h with h | ⟨b, -, h⟩
        · exact ⟨m, List.mem_of_getElem? hm, h⟩
        · split at h
          · exact bisectT_calls fuel _ _ h
          · exact bisectT_calls fuel _ _ h
    · simp at h

theorem bisectT_length {g : K → Tr K V Bool} (hg : ∀ m, (g m).2.length ≤ 1) {a : List K} : ∀ (fuel d lo hi : Nat), hi - lo < 2 ^ d →
    (bisectT g a fuel lo hi).2.length ≤ d
  | 0, _, _, _, _ => by simp [bisectT]
  | fuel + 1, d, lo, hi, h => by
    unfold bisectT
    split
    · rename_i hlt
      obtain ⟨d, rfl⟩ : ∃ d', d = d' + 1 := by
        cases d with
        | zero => simp at h; omega
        | succ d => exact ⟨d, rfl⟩
      rw [Nat.pow_succ] at h
      split
      · simp
      · rename_i m hm
        cases hx : (g m).1 with
        | error e => rw [bind_snd_error hx]; have := hg m; omega
        | ok b =>
          rw [bind_snd_ok hx, List.length_append]
          have h0 := hg m
          cases b
          · have := bisectT_length hg (a := a) fuel d lo ((lo + hi) / 2) (by omega); simp only [Bool.false_eq_true, if_false]; omega
          · have := bisectT_length hg (a := a) fuel d ((lo + hi) / 2 + 1) hi (by omega); simp only [if_true]; omega
    · simp

namespace XD
variable {e : PyEnv K V} {s : XD K V}

theorem bisectLT_calls {k : K} {c : UCall K V} (h : c ∈ (s.bisectLT e k).2) : ∃ x ∈ s.keys, c = .lt x k := by
  obtain ⟨m, hm, hc⟩ := bisectT_calls _ _ _ h; exact ⟨m, hm, by simpa using hc⟩
theorem bisectRT_calls {k : K} {c : UCall K V} (h : c ∈ (s.bisectRT e k).2) : ∃ x ∈ s.keys, c = .lt k x := by
  obtain ⟨m, hm, hc⟩ := bisectT_calls _ _ _ h; exact ⟨m, hm, by simpa using hc⟩
theorem bisectLT_length {k : K} {d : Nat} (hd : s.keys.length < 2 ^ d) : (s.bisectLT e k).2.length ≤ d := bisectT_length (fun _ => by simp) _ _ _ _ (by omega)
theorem bisectRT_length {k : K} {d : Nat} (hd : s.keys.length < 2 ^ d) : (s.bisectRT e k).2.length ≤ d := bisectT_length (fun _ => by simp) _ _ _ _ (by omega)

/-- A comparison of `k` with the key of a stored item. -/
def AsksFor (s : XD K V) (k : K) (c : UCall K V) : Prop := ∃ v ∈ s.items, ∃ x, s.key v = .ok x ∧ (c = .lt x k ∨ c = .lt k x)

theorem stored_key (h : s.Ok) {x : K} (hx : x ∈ s.keys) : ∃ v ∈ s.items, s.key v = .ok x := by
  obtain ⟨i, hi⟩ := List.getElem?_of_mem hx
  obtain ⟨v, hv, hk⟩ := at_key h hi
  exact ⟨v, List.mem_of_getElem? hv, hk⟩

theorem asksL (h : s.Ok) {k : K} {c : UCall K V} (hc : c ∈ (s.bisectLT e k).2) : AsksFor s k c := by
  obtain ⟨x, hx, rfl⟩ := bisectLT_calls hc
  obtain ⟨v, hv, hk⟩ := stored_key h hx
  exact ⟨v, hv, x, hk, .inl rfl⟩
theorem asksR (h : s.Ok) {k : K} {c : UCall K V} (hc : c ∈ (s.bisectRT e k).2) : AsksFor s k c := by
  obtain ⟨x, hx, rfl⟩ := bisectRT_calls hc
  obtain ⟨v, hv, hk⟩ := stored_key h hx
  exact ⟨v, hv, x, hk, .inr rfl⟩

/-- A bisection followed by code that calls no user code. -/
theorem then_quiet {α β : Type} (x : Tr K V α) (f : α → Tr K V β) (hf : ∀ a, (f a).2 = []) : (x.bind f).2 = x.2 := by
  cases hx : x.1 with
  | error e => exact bind_snd_error hx f
  | ok a => rw [bind_snd_ok hx, hf, List.append_nil]

/-- **C156** Searching by key runs no key function and compares no items: `find_le`, `find_lt`, `find_ge` and `find_gt` compare the given key with keys of stored
items, at most `d` times if there are fewer than `2 ^ d` items; `range` at most twice as often, for each of the two keys; `find` makes one test for equality more,
with the key of a stored item; `find_last_gt` makes one comparison, none if there are no items. Whatever the comparisons answer or raise. -/
theorem C156_search (hs : e.Sorts) (h : Reachable e s) (k : K) (d : Nat) (hd : s.items.length < 2 ^ d) :
    (∀ x ∈ [s.findLeT e k, s.findLtT e k, s.findGeT e k, s.findGtT e k], x.2.length ≤ d ∧ ∀ c ∈ x.2, AsksFor s k c) ∧
    (∀ k' step, (s.rangeT e k k' step).2.length ≤ 2 * d ∧ ∀ c ∈ (s.rangeT e k k' step).2, AsksFor s k c ∨ AsksFor s k' c) ∧
    (∃ l t, (s.findT e k).2 = l ++ t ∧ l.length ≤ d ∧ (∀ c ∈ l, AsksFor s k c) ∧ (t = [] ∨ ∃ v ∈ s.items, ∃ x, s.key v = .ok x ∧ t = [.eqK x k])) ∧
    (s.items = [] → (s.findLastGtT e k).2 = []) ∧ (s.items ≠ [] → ∃ v, s.items.getLast? = some v ∧ ∃ x, s.key v = .ok x ∧ (s.findLastGtT e k).2 = [.lt k x]) := by
  have ho := reach_ok hs h
  rw [← ho.len] at hd
  refine ⟨?_, ?_, ?_, ?_, ?_⟩
  · have q1 : (s.findLeT e k).2 = (s.bisectRT e k).2 := then_quiet _ _ fun a => by split <;> simp
    have q2 : (s.findLtT e k).2 = (s.bisectLT e k).2 := then_quiet _ _ fun a => by split <;> simp
    have q3 : (s.findGeT e k).2 = (s.bisectLT e k).2 := then_quiet _ _ fun a => by split <;> simp
    have q4 : (s.findGtT e k).2 = (s.bisectRT e k).2 := then_quiet _ _ fun a => by split <;> simp
    intro x hx
    simp only [List.mem_cons, List.not_mem_nil, or_false] at hx
    rcases hx with rfl | rfl | rfl | rfl
    · rw [q1]; exact ⟨bisectRT_length hd, fun _ => asksR ho⟩
    · rw [q2]; exact ⟨bisectLT_length hd, fun _ => asksL ho⟩
    · rw [q3]; exact ⟨bisectLT_length hd, fun _ => asksL ho⟩
    · rw [q4]; exact ⟨bisectRT_length hd, fun _ => asksR ho⟩
  · intro k' step
    have h1 := bisectLT_length (e := e) (k := k) hd
    have h2 := bisectRT_length (e := e) (k := k') hd
    have q : ∀ i : Nat, ((s.bisectRT e k').bind fun j => Tr.lift (K := K) (islice s.items i j step)).2 = (s.bisectRT e k').2 := fun i => then_quiet _ _ fun _ => rfl
    unfold rangeT
    simp only [Tr.bind_eq]
    cases hx : (s.bisectLT e k).1 with
    | error x => rw [bind_snd_error hx]; exact ⟨by omega, fun c hc => .inl (asksL ho hc)⟩
    | ok i =>
      rw [bind_snd_ok hx, q]
      refine ⟨by rw [List.length_append]; omega, fun c hc => ?_⟩
      rcases List.mem_append.1 hc with hc | hc
      · exact .inl (asksL ho hc)
      · exact .inr (asksR ho hc)
  · refine ⟨(s.bisectLT e k).2, ?_⟩
    have h1 := bisectLT_length (e := e) (k := k) hd
    unfold findT
    simp only [Tr.bind_eq]
    cases hx : (s.bisectLT e k).1 with
    | error x => rw [bind_snd_error hx]; exact ⟨[], by simp, h1, fun _ => asksL ho, .inl rfl⟩
    | ok i =>
      rw [bind_snd_ok hx]
      refine ⟨_, rfl, h1, fun _ => asksL ho, ?_⟩
      split
      · cases hk : dqGet s.keys i with
        | error x => left; exact bind_snd_error (e := x) (by simp) _
        | ok ki =>
          right
          have hi : s.keys[i]? = some ki := by
            unfold dqGet at hk; split at hk <;> simp_all
          obtain ⟨v, hv, hvk⟩ := stored_key ho (List.mem_of_getElem? hi)
          refine ⟨v, hv, ki, hvk, ?_⟩
          rw [bind_snd_ok (a := ki) (by simp)]
          simp only [lift_snd, List.nil_append]
          exact then_quiet _ _ fun b => by split <;> simp
      · left; simp
  · intro hn
    have : s.keys = [] := by have := ho.len; rw [hn] at this; exact List.eq_nil_of_length_eq_zero this
    simp [findLastGtT, this]
  · intro hn
    cases hl : s.keys.getLast? with
    | none => rw [List.getLast?_eq_none_iff] at hl; have := ho.len; rw [hl] at this; exact absurd (List.eq_nil_of_length_eq_zero this.symm) hn
    | some x =>
      have hl' : s.keys[s.keys.length - 1]? = some x := by rw [← List.getLast?_eq_getElem?]; exact hl
      obtain ⟨v, hv, hk⟩ := at_key ho hl'
      refine ⟨v, by rw [List.getLast?_eq_getElem?, ← ho.len]; exact hv, x, hk, ?_⟩
      unfold findLastGtT
      rw [hl]
      simp only [Tr.bind_eq]
      exact then_quiet _ _ fun b => by split <;> simp

/-! ### calls with an item -/

theorem change_snd {α : Type} (s : XD K V) (x : Tr K V α) (f : α → XD K V × Py Unit) : (change s x f).2 = x.2 := by
  unfold change; split <;> rfl

/-- `index`, `in`, `count` and `remove` up to the two bisections, and after. -/
theorem look {α : Type} (ho : s.Ok) (v : V) (f : Nat → Nat → Tr K V α) (d : Nat) (hd : s.keys.length < 2 ^ d) :
    ∃ l t, ((s.keyT v).bind fun k => (s.bisectLT e k).bind fun i => (s.bisectRT e k).bind fun j => f i j).2 = .key v :: (l ++ t) ∧ l.length ≤ 2 * d ∧
      (∀ c ∈ l, ∃ k, s.key v = .ok k ∧ AsksFor s k c) ∧
      (t = [] ∨ ∃ k i j, s.key v = .ok k ∧ s.bisectL e k = .ok i ∧ s.bisectR e k = .ok j ∧ t = (f i j).2) ∧
      (∀ k i j, s.key v = .ok k → s.bisectL e k = .ok i → s.bisectR e k = .ok j → t = (f i j).2) := by
  cases hk : s.key v with
  | error x => rw [bind_snd_error (e := x) (by simpa [keyT] using hk)]; exact ⟨[], [], rfl, by simp, by simp, .inl rfl, by simp⟩
  | ok k =>
    have h1 := bisectLT_length (e := e) (k := k) hd
    have h2 := bisectRT_length (e := e) (k := k) hd
    rw [bind_snd_ok (a := k) (by simpa [keyT] using hk)]
    simp only [keyT, call_snd, List.singleton_append]
    cases hl : (s.bisectLT e k).1 with
    | error x =>
      rw [bind_snd_error hl]
      refine ⟨_, [], by rw [List.append_nil], by omega, fun c hc => ⟨k, rfl, asksL ho hc⟩, .inl rfl, ?_⟩
      rw [bisectLT_fst] at hl; intro k' i j hk' hi; cases hk'; rw [hl] at hi; cases hi
    | ok i =>
      rw [bind_snd_ok hl]
      rw [bisectLT_fst] at hl
      cases hr : (s.bisectRT e k).1 with
      | error x =>
        rw [bind_snd_error hr]
        refine ⟨_, [], by rw [List.append_nil], by rw [List.length_append]; omega, ?_, .inl rfl, ?_⟩
        · intro c hc; rcases List.mem_append.1 hc with hc | hc
          · exact ⟨k, rfl, asksL ho hc⟩
          · exact ⟨k, rfl, asksR ho hc⟩
        · rw [bisectRT_fst] at hr; intro k' i j hk' _ hj; cases hk'; rw [hr] at hj; cases hj
      | ok j =>
        rw [bind_snd_ok hr]
        rw [bisectRT_fst] at hr
        refine ⟨(s.bisectLT e k).2 ++ (s.bisectRT e k).2, (f i j).2, by rw [List.append_assoc], by rw [List.length_append]; omega, ?_, .inr ⟨k, i, j, rfl, hl, hr, rfl⟩, ?_⟩
        · intro c hc; rcases List.mem_append.1 hc with hc | hc
          · exact ⟨k, rfl, asksL ho hc⟩
          · exact ⟨k, rfl, asksR ho hc⟩
        · intro k' i' j' hk' hi' hj'; cases hk'; rw [hl] at hi'; rw [hr] at hj'; cases hi'; cases hj'; rfl

theorem searchT_calls {v : V} {c : UCall K V} : ∀ {l : List V} {i : Nat}, c ∈ (searchT e v i l).2 → ∃ w ∈ l, c = .eqV w v
  | [], _, h => by simp [searchT] at h
  | w :: ws, i, h => by
    rcases bind_mem h with h | ⟨b, -, h⟩
    · exact ⟨w, by simp, by simpa using h⟩
    · split at h
      · simp at h
      · obtain ⟨w', hw, rfl⟩ := searchT_calls h; exact ⟨w', by simp [hw], rfl⟩

theorem anyT_calls {v : V} {c : UCall K V} : ∀ {l : List V}, c ∈ (anyT e v l).2 → ∃ w ∈ l, c = .eqV w v
  | [], h => by simp [anyT] at h
  | w :: ws, h => by
    rcases bind_mem h with h | ⟨b, -, h⟩
    · exact ⟨w, by simp, by simpa using h⟩
    · split at h
      · simp at h
      · obtain ⟨w', hw, rfl⟩ := anyT_calls h; exact ⟨w', by simp [hw], rfl⟩

theorem countAllT_calls {v : V} {c : UCall K V} : ∀ {l : List V}, c ∈ (countAllT e v l).2 → ∃ w ∈ l, c = .eqV w v
  | [], h => by simp [countAllT] at h
  | w :: ws, h => by
    rcases bind_mem h with h | ⟨b, -, h⟩
    · exact ⟨w, by simp, by simpa using h⟩
    · rw [then_quiet _ _ fun _ => by simp] at h
      obtain ⟨w', hw, rfl⟩ := countAllT_calls h; exact ⟨w', by simp [hw], rfl⟩

theorem mem_part {l : List V} {i j : Nat} {w : V} (h : w ∈ (l.take j).drop i) : w ∈ l := List.mem_of_mem_take (List.mem_of_mem_drop h)

/-- **C156** A call with an item runs the key function once, on this item, before anything else, and never on a stored item. `append` makes at most one comparison, of
the new key with the last one. `insert` and `insert_right` compare the new key with stored ones, at most `d` times if there are fewer than `2 ^ d` items.
`index`, `in`, `count` and `remove` at most twice as often, and then compare the item with stored items. Whatever the key function and the comparisons answer or
raise. -/
theorem C156_given (hs : e.Sorts) (h : Reachable e s) (v : V) (d : Nat) (hd : s.items.length < 2 ^ d) :
    ((s.appendT e v).2 = [.key v] ∨ ∃ k w x, s.key v = .ok k ∧ s.items.getLast? = some w ∧ s.key w = .ok x ∧ (s.appendT e v).2 = [.key v, .lt x k]) ∧
    (∀ x ∈ [(s.insertT e v).2, (s.insertRightT e v).2], ∃ l, x = .key v :: l ∧ l.length ≤ d ∧ ∀ c ∈ l, ∃ k, s.key v = .ok k ∧ AsksFor s k c) ∧
    (∀ x ∈ [(s.indexT e v).2, (s.containsT e v).2, (s.countT e v).2, (s.removeT e v).2], ∃ l t, x = .key v :: (l ++ t) ∧ l.length ≤ 2 * d ∧
      (∀ c ∈ l, ∃ k, s.key v = .ok k ∧ AsksFor s k c) ∧ ∀ c ∈ t, ∃ w ∈ s.items, c = .eqV w v) := by
  have ho := reach_ok hs h
  rw [← ho.len] at hd
  refine ⟨?_, ?_, ?_⟩
  · unfold appendT
    rw [change_snd]
    simp only [Tr.bind_eq]
    cases hk : s.key v with
    | error x => left; rw [bind_snd_error (e := x) (by simpa [keyT] using hk)]; rfl
    | ok k =>
      rw [bind_snd_ok (a := k) (by simpa [keyT] using hk)]
      cases hl : s.keys.getLast? with
      | none => left; rfl
      | some x =>
        right
        have hl' : s.keys[s.keys.length - 1]? = some x := by rw [← List.getLast?_eq_getElem?]; exact hl
        obtain ⟨w, hw, hwk⟩ := at_key ho hl'
        refine ⟨k, w, x, rfl, by rw [List.getLast?_eq_getElem?, ← ho.len]; exact hw, hwk, ?_⟩
        dsimp only
        rw [then_quiet _ _ fun b => by split <;> simp]
        rfl
  · intro x hx
    simp only [List.mem_cons, List.not_mem_nil, or_false] at hx
    rcases hx with rfl | rfl
    · unfold insertT
      rw [change_snd]
      simp only [Tr.bind_eq]
      cases hk : s.key v with
      | error x => rw [bind_snd_error (e := x) (by simpa [keyT] using hk)]; exact ⟨[], rfl, by simp, by simp⟩
      | ok k =>
        rw [bind_snd_ok (a := k) (by simpa [keyT] using hk), then_quiet _ _ fun _ => rfl]
        exact ⟨_, rfl, bisectLT_length hd, fun c hc => ⟨k, rfl, asksL ho hc⟩⟩
    · unfold insertRightT
      rw [change_snd]
      simp only [Tr.bind_eq]
      cases hk : s.key v with
      | error x => rw [bind_snd_error (e := x) (by simpa [keyT] using hk)]; exact ⟨[], rfl, by simp, by simp⟩
      | ok k =>
        rw [bind_snd_ok (a := k) (by simpa [keyT] using hk), then_quiet _ _ fun _ => rfl]
        exact ⟨_, rfl, bisectRT_length hd, fun c hc => ⟨k, rfl, asksR ho hc⟩⟩
  · have fin : ∀ {α : Type} (f : Nat → Nat → Tr K V α), (∀ i j c, c ∈ (f i j).2 → ∃ w ∈ (s.items.take j).drop i, c = .eqV w v) →
        ∃ l t, ((s.keyT v).bind fun k => (s.bisectLT e k).bind fun i => (s.bisectRT e k).bind fun j => f i j).2 = .key v :: (l ++ t) ∧ l.length ≤ 2 * d ∧
        (∀ c ∈ l, ∃ k, s.key v = .ok k ∧ AsksFor s k c) ∧ ∀ c ∈ t, ∃ w ∈ s.items, c = .eqV w v := by
      intro α f hf
      obtain ⟨l, t, h1, h2, h3, h4, -⟩ := look (e := e) ho v f d hd
      refine ⟨l, t, h1, h2, h3, fun c hc => ?_⟩
      rcases h4 with rfl | ⟨k, i, j, -, -, -, rfl⟩
      · simp at hc
      · obtain ⟨w, hw, rfl⟩ := hf i j c hc; exact ⟨w, mem_part hw, rfl⟩
    have hi := fin (fun i j => searchT e v i ((s.items.take j).drop i)) fun _ _ _ => searchT_calls
    intro x hx
    simp only [List.mem_cons, List.not_mem_nil, or_false] at hx
    rcases hx with rfl | rfl | rfl | rfl
    · exact hi
    · exact fin (fun i j => anyT e v ((s.items.take j).drop i)) fun _ _ _ => anyT_calls
    · exact fin (fun i j => countAllT e v ((s.items.take j).drop i)) fun _ _ _ => countAllT_calls
    · unfold removeT; rw [change_snd]; exact hi

/-! ### which items are compared -/

section order
variable [LinearOrder K]

theorem ranked_some (hlt : ∀ a b, e.ltK a b = .ok (decide (a < b))) (heq : ∀ a b, e.eqK a b = .ok true → a = b) : e.Ranked (some : K → Option K) where
  lt a b := hlt a b
  eq a b h := ⟨by rw [heq a b h], by simp⟩

/-- Between the two bisections are the items with this key. -/
theorem between (ho : s.Ok) (hp : s.keys.Pairwise (· ≤ ·)) (hlt : ∀ a b, e.ltK a b = .ok (decide (a < b))) (k : K) :
    ∃ i j, s.bisectL e k = .ok i ∧ s.bisectR e k = .ok j ∧ (s.items.take j).drop i = tied s.key k s.items := by
  let p : V → Bool := fun w => match s.key w with | .ok x => decide (x < k) | .error _ => false
  let q : V → Bool := fun w => match s.key w with | .ok x => decide (x ≤ k) | .error _ => false
  have e1 : s.bisectL e k = .ok (s.keys.countP fun x => decide (x < k)) := by
    unfold bisectL
    simp only [hlt]
    exact bisectLoop_spec (mono_lt hp k) _ _ _ (by omega) (by omega) List.countP_le_length (by omega)
  have e2 : s.bisectR e k = .ok (s.keys.countP fun x => decide (x ≤ k)) := by
    unfold bisectR
    have : (fun x => (e.ltK k x).map (! ·)) = fun x => (.ok (decide (x ≤ k)) : Py Bool) := by
      funext x; rw [hlt]; simp [Except.map, ← not_lt]
    rw [this]
    exact bisectLoop_spec (mono_le hp k) _ _ _ (by omega) (by omega) List.countP_le_length (by omega)
  have cnt : ∀ (r : K → Bool), s.keys.countP r = s.items.countP fun w => match s.key w with | .ok x => r x | .error _ => false := by
    intro r
    have : (s.keys.map (Except.ok (ε := PyErr))).countP (fun y => match y with | .ok x => r x | .error _ => false) = s.keys.countP r := by
      rw [List.countP_map]; rfl
    rw [← this, ← ho.aligned, List.countP_map]; rfl
  have pw : s.items.Pairwise fun a b => ∀ x y, s.key a = .ok x → s.key b = .ok y → x ≤ y := by
    have : (s.items.map s.key).Pairwise fun a b => ∀ x y, a = .ok x → b = .ok y → x ≤ y := by
      rw [ho.aligned, List.pairwise_map]
      exact hp.imp fun hab x y hx hy => by cases hx; cases hy; exact hab
    rwa [List.pairwise_map] at this
  have mp : s.items.Pairwise fun a b => p b → p a := by
    refine (List.Pairwise.and_mem.1 pw).imp ?_
    rintro a b ⟨ha, hb, hab⟩ hpb
    simp only [p] at hpb ⊢
    cases hkb : s.key b with
    | error x => simp [hkb] at hpb
    | ok y =>
      rw [hkb] at hpb
      have : s.key a ∈ s.keys.map Except.ok := by rw [← ho.aligned]; exact List.mem_map_of_mem ha
      obtain ⟨x, -, hx⟩ := List.mem_map.1 this
      rw [← hx]
      have := hab x y hx.symm hkb
      simp at hpb ⊢; exact lt_of_le_of_lt this hpb
  have mq : s.items.Pairwise fun a b => q b → q a := by
    refine (List.Pairwise.and_mem.1 pw).imp ?_
    rintro a b ⟨ha, hb, hab⟩ hpb
    simp only [q] at hpb ⊢
    cases hkb : s.key b with
    | error x => simp [hkb] at hpb
    | ok y =>
      rw [hkb] at hpb
      have : s.key a ∈ s.keys.map Except.ok := by rw [← ho.aligned]; exact List.mem_map_of_mem ha
      obtain ⟨x, -, hx⟩ := List.mem_map.1 this
      rw [← hx]
      have := hab x y hx.symm hkb
      simp at hpb ⊢; exact le_trans this hpb
  have pq : ∀ w, p w → q w := by
    intro w hw; simp only [p, q] at hw ⊢; cases hk : s.key w with
    | error x => simp [hk] at hw
    | ok x => rw [hk] at hw; simp at hw ⊢; exact hw.le
  refine ⟨_, _, e1, e2, ?_⟩
  have c1 : s.keys.countP (fun x => decide (x < k)) = (s.items.filter q).countP p := by
    rw [cnt, List.countP_filter]
    exact List.countP_congr fun w _ => by
      constructor
      · intro hw; have hw : p w = true := hw; simp [hw, pq w hw]
      · intro hw; simp at hw; exact hw.1
  have c2 : s.keys.countP (fun x => decide (x ≤ k)) = s.items.countP q := cnt _
  rw [c2, take_countP mq, c1, drop_countP (mp.sublist (List.filter_sublist)), List.filter_filter]
  unfold tied
  refine List.filter_congr fun w hw => ?_
  simp only [p, q]
  cases hk : s.key w with
  | error x => rfl
  | ok x => rcases lt_trichotomy x k with hx | hx | hx
            · simp [hx, hx.ne]
            · simp [hx]
            · simp [hx.le, not_le.2 hx, hx.ne']

theorem tested_append (a b : List (UCall K V)) : tested (a ++ b) = tested a ++ tested b := List.filterMap_append

theorem tested_asks {l : List (UCall K V)} (h : ∀ c ∈ l, ∃ k : K, s.key v = .ok k ∧ AsksFor s k c) : tested l = [] := by
  refine List.filterMap_eq_nil_iff.2 fun c hc => ?_
  obtain ⟨k, -, w, -, x, -, rfl | rfl⟩ := h c hc <;> rfl

theorem searchT_tested {v : V} : ∀ {l : List V} {i : Nat}, tested (searchT e v i l).2 <+: l
  | [], _ => by simp [searchT, tested]
  | w :: ws, i => by
    unfold searchT
    cases hb : e.eqV w v with
    | error x => rw [bind_snd_error (e := x) (by simpa using hb)]; exact ⟨ws, rfl⟩
    | ok b =>
      rw [bind_snd_ok (a := b) (by simpa using hb), tested_append]
      cases b
      · exact (List.prefix_cons_inj w).2 (searchT_tested (l := ws) (i := i + 1))
      · exact ⟨ws, rfl⟩

theorem anyT_tested {v : V} : ∀ {l : List V}, tested (anyT e v l).2 <+: l
  | [] => by simp [anyT, tested]
  | w :: ws => by
    unfold anyT
    cases hb : e.eqV w v with
    | error x => rw [bind_snd_error (e := x) (by simpa using hb)]; exact ⟨ws, rfl⟩
    | ok b =>
      rw [bind_snd_ok (a := b) (by simpa using hb), tested_append]
      cases b
      · exact (List.prefix_cons_inj w).2 (anyT_tested (l := ws))
      · exact ⟨ws, rfl⟩

theorem countAllT_tested {v : V} : ∀ {l : List V}, tested (countAllT e v l).2 <+: l ∧ ((∀ w ∈ l, ∃ b, e.eqV w v = .ok b) → tested (countAllT e v l).2 = l)
  | [] => by simp [countAllT, tested]
  | w :: ws => by
    unfold countAllT
    cases hb : e.eqV w v with
    | error x =>
      rw [bind_snd_error (e := x) (by simpa using hb)]
      exact ⟨⟨ws, rfl⟩, fun h => by obtain ⟨b, hb'⟩ := h w (by simp); rw [hb] at hb'; cases hb'⟩
    | ok b =>
      rw [bind_snd_ok (a := b) (by simpa using hb), tested_append, then_quiet _ _ fun _ => by simp]
      have ih := countAllT_tested (v := v) (l := ws)
      exact ⟨(List.prefix_cons_inj w).2 ih.1, fun h => by rw [ih.2 fun w' hw => h w' (by simp [hw])]; rfl⟩

/-- **C156** If keys are compared as numbers are: the items `index`, `in`, `count` and `remove` compare with the given one are among those with the same key, in
their order and each once; `count` compares all of these, if comparing them does not raise. -/
theorem C156_tied (hs : e.Sorts) (h : Reachable e s) (hlt : ∀ a b, e.ltK a b = .ok (decide (a < b))) (heq : ∀ a b, e.eqK a b = .ok true → a = b) (v : V) (k : K)
    (hk : s.key v = .ok k) :
    (∀ x ∈ [(s.indexT e v).2, (s.containsT e v).2, (s.countT e v).2, (s.removeT e v).2], tested x <+: tied s.key k s.items) ∧
    ((∀ w ∈ tied s.key k s.items, ∃ b, e.eqV w v = .ok b) → tested (s.countT e v).2 = tied s.key k s.items) := by
  have ho := reach_ok hs h
  have hp : s.keys.Pairwise (· ≤ ·) := (pw_reach hs (ranked_some hlt heq) h).imp fun hab => by
    rcases hab with ⟨x, y, hx, hy, hxy⟩ | ⟨hx, -⟩
    · cases hx; cases hy; exact hxy
    · cases hx
  obtain ⟨i, j, hi, hj, hb⟩ := between ho hp hlt k
  have fin : ∀ {α : Type} (f : Nat → Nat → Tr K V α),
      tested ((s.keyT v).bind fun k => (s.bisectLT e k).bind fun i => (s.bisectRT e k).bind fun j => f i j).2 = tested (f i j).2 := by
    intro α f
    obtain ⟨l, t, h1, -, h3, -, h5⟩ := look (e := e) ho v f s.keys.length Nat.lt_two_pow_self
    rw [h1, ← h5 k i j hk hi hj]
    show tested (l ++ t) = _
    rw [tested_append, tested_asks h3, List.nil_append]
  have hx := fin fun i j => searchT e v i ((s.items.take j).drop i)
  have hc := fin fun i j => countAllT e v ((s.items.take j).drop i)
  rw [← hb]
  refine ⟨?_, fun hw => ?_⟩
  · intro x hx'
    simp only [List.mem_cons, List.not_mem_nil, or_false] at hx'
    rcases hx' with rfl | rfl | rfl | rfl
    · exact hx ▸ searchT_tested
    · exact (fin fun i j => anyT e v ((s.items.take j).drop i)) ▸ anyT_tested
    · exact hc ▸ countAllT_tested.1
    · unfold removeT; rw [change_snd]; exact hx ▸ searchT_tested
  · exact hc.trans (countAllT_tested.2 hw)

end order

/-! ### histories -/

/-- The item a call was given. -/
def Op.item? : Op K V → Option V
  | .append v | .insert v | .insertRight v | .remove v => some v
  | _ => none

/-- The call makes the deque anew: an assignment or deletion of `maxlen` or `key`. -/
def Op.remakes : Op K V → Bool
  | .setMaxlen _ | .delMaxlen | .setKey _ | .delKey => true
  | _ => false

theorem keyed_cons_asks {l t : List (UCall K V)} {v : V} (h : ∀ c ∈ l ++ t, ∀ w, c ≠ .key w) : keyed (.key v :: (l ++ t)) = [v] := by
  have : keyed (l ++ t) = [] := List.filterMap_eq_nil_iff.2 fun c hc => by
    cases c with
    | key w => exact absurd rfl (h _ hc w)
    | _ => rfl
  show v :: keyed (l ++ t) = [v]
  rw [this]

theorem keyed_op (hs : e.Sorts) (h : Reachable e s) (op : Op K V) (hr : op.remakes = false) : keyed (s.applyT e op).2 = op.item?.toList := by
  have g := fun v => C156_given hs h v s.items.length Nat.lt_two_pow_self
  have nk : ∀ {c : UCall K V} {k : K}, AsksFor s k c → ∀ w, c ≠ .key w := by
    rintro c k ⟨_, -, _, -, rfl | rfl⟩ w hw <;> cases hw
  have ins : ∀ {v : V} {x : List (UCall K V)}, (∃ l, x = .key v :: l ∧ l.length ≤ s.items.length ∧ ∀ c ∈ l, ∃ k, s.key v = .ok k ∧ AsksFor s k c) → keyed x = [v] := by
    rintro v x ⟨l, rfl, -, hl⟩
    have := keyed_cons_asks (l := l) (t := []) (v := v) (by rw [List.append_nil]; exact fun c hc => by obtain ⟨k, -, ha⟩ := hl c hc; exact nk ha)
    rwa [List.append_nil] at this
  cases op with
  | append v =>
    rcases (g v).1 with h' | ⟨k, w, x, -, -, -, h'⟩ <;> · simp only [applyT]; rw [h']; rfl
  | insert v => exact ins ((g v).2.1 (s.insertT e v).2 (by simp))
  | insertRight v => exact ins ((g v).2.1 (s.insertRightT e v).2 (by simp))
  | remove v =>
    obtain ⟨l, t, h', -, hl, ht⟩ := (g v).2.2 (s.removeT e v).2 (by simp)
    simp only [applyT]; rw [h']
    refine keyed_cons_asks fun c hc => ?_
    rcases List.mem_append.1 hc with hc | hc
    · obtain ⟨k, -, ha⟩ := hl c hc; exact nk ha
    · obtain ⟨w, -, rfl⟩ := ht c hc; exact fun _ hw => by cases hw
  | drop n => rfl
  | clear => rfl
  | _ => cases hr

theorem keysT_keyed {key : V → Py K} : ∀ (l : List V), keyed (keysT key l).2 <+: l ∧ ((∀ v ∈ l, ∃ k, key v = .ok k) → keyed (keysT key l).2 = l)
  | [] => by simp [keysT, keyed]
  | v :: l => by
    unfold keysT
    cases hk : key v with
    | error x =>
      rw [bind_snd_error (e := x) (by simpa using hk)]
      exact ⟨⟨l, rfl⟩, fun h => by obtain ⟨k, hk'⟩ := h v (by simp); rw [hk] at hk'; cases hk'⟩
    | ok k =>
      rw [bind_snd_ok (a := k) (by simpa using hk), then_quiet _ _ fun _ => by simp]
      have ih := keysT_keyed (key := key) l
      show keyed (.key v :: (keysT key l).2) <+: _ ∧ _
      have e1 : keyed (.key v :: (keysT key l).2) = v :: keyed (keysT key l).2 := rfl
      have e2 : keyed ((Tr.call (UCall.key v) (Except.ok k) : Tr K V K).2 ++ (keysT key l).2) = v :: keyed (keysT key l).2 := rfl
      rw [e1, e2]
      exact ⟨(List.prefix_cons_inj v).2 ih.1, fun h => by rw [ih.2 fun w hw => h w (by simp [hw])]⟩

/-- **C156** The result of the key function is saved: over any calls of `append`, `insert`, `insert_right`, `remove`, `drop` and `clear`, whether they raise or not,
it is called once for each item given, in this order, and for nothing else. -/
theorem C156_history (hs : e.Sorts) : ∀ (ops : List (Op K V)) {s : XD K V}, Reachable e s → (∀ op ∈ ops, op.remakes = false) →
    keyed (runT e s ops).2 = ops.filterMap Op.item?
  | [], _, _, _ => rfl
  | op :: ops, s, h, hr => by
    have h1 := keyed_op hs h op (hr op (by simp))
    have h2 := C156_history hs ops (s := (s.applyT e op).1.1) (by rw [applyT_fst]; exact .step op h) fun o ho => hr o (by simp [ho])
    have : keyed (runT e s (op :: ops)).2 = keyed (s.applyT e op).2 ++ keyed (runT e (s.applyT e op).1.1 ops).2 := List.filterMap_append
    rw [this, h1, h2]
    cases hop : op.item? <;> simp [List.filterMap_cons, hop]

/-- **C156** An assignment or deletion of `maxlen` or `key` calls the key function once for each stored item, up to the one that raises: the current key function for
`maxlen`, the new one for `key`. (Deleting a `maxlen` that is `None` does nothing.) -/
theorem C156_remake (m : Py (Option Nat)) (f : V → Py K) :
    (keyed (s.applyT e (.setMaxlen m)).2 <+: s.items ∧ keyed (s.applyT e (.setKey f)).2 <+: s.items ∧ keyed (s.applyT e .delKey).2 <+: s.items ∧
      keyed (s.applyT e .delMaxlen).2 <+: s.items) ∧
    ((∀ v ∈ s.items, ∃ k, s.key v = .ok k) → keyed (s.applyT e (.setMaxlen m)).2 = s.items) ∧
    ((∀ v ∈ s.items, ∃ k, f v = .ok k) → keyed (s.applyT e (.setKey f)).2 = s.items) := by
  refine ⟨⟨(keysT_keyed s.items).1, (keysT_keyed s.items).1, (keysT_keyed s.items).1, ?_⟩, (keysT_keyed s.items).2, (keysT_keyed s.items).2⟩
  by_cases hm : s.maxlen = none
  · simp [applyT, hm, keyed]
  · simp only [applyT, hm, if_false]; exact (keysT_keyed s.items).1

end XD
end S2P
