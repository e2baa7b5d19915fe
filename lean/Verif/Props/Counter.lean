import Verif.Model.Counter
import Verif.Props.SourceObj
import Mathlib.Data.Int.Order.Basic
/-
C64 for the counter source of the examples.
-/
namespace S2P
open Spec
namespace Spec

/-- `s` followed by the decimal notation of `v`. -/
def label (v : Int) : List Char := ("s" ++ toString v).toList

/-- `s{start}`, `s{start+1}`, ...: `n` of them. -/
def labels (start : Int) (n : Nat) : List (List Char) := (List.range n).map fun (j : Nat) => label (start + (j : Int))

end Spec
namespace Counter

theorem fmt_eq (v : Int) : fmt v = label v := by
  have hr : ∀ n : Nat, n.repr.toList = Nat.toDigits 10 n := fun n => by simp [Nat.repr]
  cases v with
  | ofNat n =>
    have : ¬ ((n : Int) < 0) := by omega
    simp [fmt, pyStr, label, toString, Int.repr, hr, this]
  | negSucc n =>
    have h2 : (Int.negSucc n).natAbs = n + 1 := rfl
    simp [fmt, pyStr, label, toString, Int.repr, hr]

theorem all_digits (n : Nat) : (Nat.toDigits 10 n).all Char.isDigit = true := by
  rw [List.all_eq_true]
  intro c hc
  exact Nat.isDigit_of_mem_toDigits (by omega) (by omega) hc

theorem int_digits (n : Nat) : pyInt (Nat.toDigits 10 n) = .ok (n : Int) := by
  unfold pyInt
  split
  · rename_i l h
    have := all_digits n
    rw [h] at this
    simp at this
  · rw [if_pos ⟨Nat.toDigits_ne_nil, all_digits n⟩, Nat.ofDigitChars_toDigits (by omega) (by omega)]

/-- `int(str(v)) == v`. -/
theorem int_str (v : Int) : pyInt (pyStr v) = .ok v := by
  unfold pyStr
  split
  · unfold pyInt
    simp only []
    rw [if_pos ⟨Nat.toDigits_ne_nil, all_digits _⟩, Nat.ofDigitChars_toDigits (by omega) (by omega)]
    congr 1
    omega
  · rw [int_digits]
    congr 1
    omega

/-- What the open counter answers. -/
theorem answers_eq (stop : Int) (n : Nat) : ∀ (v : Int) (c : Nat), answers (read stop) { iter := some v, openCount := c } n =
    (List.range n).map fun (j : Nat) => .ok (if v + (j : Int) < stop then some (label (v + j)) else none) := by
  induction n with
  | zero => intro v c; rfl
  | succ n ih =>
    intro v c
    rw [answers, List.range_succ_eq_map, List.map_cons, List.map_map]
    by_cases h : v < stop
    · simp only [read, h, if_true]
      rw [ih]
      congr 1
      · simp [h, fmt_eq]
      · refine List.map_congr_left fun j _ => ?_
        simp only [Function.comp]
        have : v + ((j + 1 : Nat) : Int) = v + 1 + (j : Int) := by omega
        rw [Nat.succ_eq_add_one, this]
    · simp only [read, h, if_false]
      rw [ih]
      congr 1
      · simp [h]
      · refine List.map_congr_left fun j _ => ?_
        simp only [Function.comp]
        rw [if_neg (by omega), if_neg (by omega)]

theorem data_eq (stop : Int) (n : Nat) (v : Int) (c : Nat) :
    dataOf (answers (read stop) { iter := some v, openCount := c } n) = labels v (min n (stop - v).toNat) := by
  rw [answers_eq]
  induction n with
  | zero => simp [dataOf, labels]
  | succ n ih =>
    have hs : ∀ l l' : List (Py (Option (List Char))), dataOf (l ++ l') = dataOf l ++ dataOf l' := fun l l' => by simp [dataOf]
    rw [List.range_succ, List.map_append, hs, ih]
    by_cases h : v + (n : Int) < stop
    · have h1 : min n (stop - v).toNat = n := by omega
      have h2 : min (n + 1) (stop - v).toNat = n + 1 := by omega
      simp [h1, h2, labels, dataOf, h, List.range_succ]
    · have h1 : min n (stop - v).toNat = (stop - v).toNat := by omega
      have h2 : min (n + 1) (stop - v).toNat = (stop - v).toNat := by omega
      simp [h1, h2, dataOf, h]

variable {start stop : Int}

theorem key_label (v : Int) : (counter start stop).key (label v) = .ok v := by
  rw [← fmt_eq]; exact int_str v

theorem opened_eq {x st : St} (h : (counter start stop).open' x = (.ok (), st)) : st = { iter := some start, openCount := x.openCount + 1 } := by
  simp only [counter, Prod.mk.injEq] at h; exact h.2.symm

/-- **C64** the counter is orderly. -/
theorem orderly : ObjSB.Orderly (counter start stop) := by
  refine ⟨?_, ?_, ?_⟩
  · intro x st n e h
    rw [opened_eq h, show (counter start stop).read = read stop from rfl, answers_eq]
    simp
  · intro x st n v h hv
    rw [opened_eq h, show (counter start stop).read = read stop from rfl, data_eq] at hv
    obtain ⟨j, -, rfl⟩ := List.mem_map.1 hv
    exact ⟨_, key_label _⟩
  · intro x st n h
    rw [opened_eq h, show (counter start stop).read = read stop from rfl, data_eq, labels, List.pairwise_map]
    refine List.pairwise_lt_range.imp fun {i j} hij k l hk hl => ?_
    rw [key_label] at hk hl
    injection hk with hk; injection hl with hl
    omega

variable {cfg : SBCfg Int (List Char)} {xs : List (ObjAct Int (List Char) Info)} {s s' : ObjSB St Int (List Char) Info} {x : ObjAct Int (List Char) Info}

/-- **C64** what a session of the counter reads: `s{start}`, `s{start+1}`, ..., one per `read()`, nothing after `s{stop-1}`.
Missing: executions that are not settled (`C64_refuted`). -/
theorem C64_counter_data_partial (he : (ObjSB.init new).exec (counter start stop) cfg xs = some s)
    (hset : (ObjSB.init new : ObjSB St Int (List Char) Info).Settled (counter start stop) cfg xs) (t : Nat) :
    dataRead t s.sb.log = labels start (min (s.sb.log.countP (isReadBy t)) (stop - start).toNat) := by
  have hlen : (answered t s.sb.log).length = s.sb.log.countP (isReadBy t) := by
    generalize s.sb.log = l
    induction l with
    | nil => rfl
    | cons e l ih =>
      rw [show e :: l = [e] ++ l from rfl, answered_append, List.length_append, List.countP_append, ih]
      congr 1
      cases e <;> simp only [answered, isReadBy, List.filterMap_cons, List.filterMap_nil, List.countP_cons, List.countP_nil] <;> try rfl
      all_goals
        rename_i t' _
        by_cases h : t' = t <;> simp [h]
  rw [dataRead_eq, ← hlen]
  by_cases ht : answered t s.sb.log = []
  · rw [ht]; simp [dataOf, labels]
  · obtain ⟨x0, st0, h1, h2⟩ := ObjSB.C64_fresh_start_partial he hset t ht
    generalize (answered t s.sb.log).length = n at *
    rw [h2, opened_eq h1]
    exact data_eq stop n start _

/-- **C64** once `read()` has returned `None` to the thread, it has read everything up to `s{stop-1}`. Missing: as above. -/
theorem C64_counter_complete_partial (he : (ObjSB.init new).exec (counter start stop) cfg xs = some s)
    (hset : (ObjSB.init new : ObjSB St Int (List Char) Info).Settled (counter start stop) cfg xs) (t : Nat) (hn : Ev.read t none ∈ s.sb.log) :
    dataRead t s.sb.log = labels start (stop - start).toNat := by
  have hmem : (.ok none : Py (Option (List Char))) ∈ answered t s.sb.log := by
    simp only [answered, List.mem_filterMap]; exact ⟨_, hn, by simp⟩
  have ht : answered t s.sb.log ≠ [] := fun e => by rw [e] at hmem; simp at hmem
  obtain ⟨x0, st0, h1, h2⟩ := ObjSB.C64_fresh_start_partial he hset t ht
  rw [dataRead_eq]
  generalize (answered t s.sb.log).length = n at *
  rw [h2, opened_eq h1, show (counter start stop).read = read stop from rfl] at hmem
  rw [h2, opened_eq h1, show (counter start stop).read = read stop from rfl, data_eq]
  rw [answers_eq] at hmem
  obtain ⟨j, hj, hj'⟩ := List.mem_map.1 hmem
  rw [List.mem_range] at hj
  have : ¬ (start + (j : Int) < stop) := by
    intro h
    rw [if_pos h] at hj'
    simp at hj'
  congr 1
  omega

/-- **C64** the counter never kills the stream and none of its items is rejected. Missing: as above. -/
theorem C64_counter_never_dies_partial (hf : ObjSB.Fits (counter start stop) cfg) (hc : cfg.maxlen ≠ none ∨ cfg.autoDrop = true)
    (he : (ObjSB.init new).exec (counter start stop) cfg xs = some s)
    (hset : (ObjSB.init new : ObjSB St Int (List Char) Info).Settled (counter start stop) cfg xs) : ∀ e ∈ s.sb.log, isDeath e = false :=
  ObjSB.C64_orderly_never_dies_partial orderly hf hc he hset

/-- **C64** what a consumer of a session of the counter gets, with an unbounded buffer: received, then readable, then in the thread's hands, are
`s{start}`, `s{start+1}`, ... without gap; and all up to `s{stop-1}` once `read()` has returned `None`. Missing: as above. -/
theorem C64_counter_to_consumer_partial (hf : ObjSB.Fits (counter start stop) cfg) (hm : cfg.maxlen = none) (hd : cfg.autoDrop = true) (b i : Nat)
    (hpk : (cfg.rdCfg i).peek = false) (he : (ObjSB.init new).exec (counter start stop) cfg xs = some s)
    (hset : (ObjSB.init new : ObjSB St Int (List Char) Info).Settled (counter start stop) cfg xs)
    (hu : ∀ a, .other a ∈ xs → SB.OneUser b i a) (c : Cons Int (List Char)) (hv : s.sb.view b = some c) :
    (∃ n, received c i ++ unreadOf c.ch i ++ (s.sb.thr b).inHand = labels start n ∧ n ≤ (stop - start).toNat) ∧
    (Ev.read b none ∈ s.sb.log → received c i ++ unreadOf c.ch i ++ (s.sb.thr b).inHand = labels start (stop - start).toNat) := by
  obtain ⟨bs, h1, h2, h3⟩ := ObjSB.real_one he hset hu
  have hall := ObjSB.C64_orderly_all_stored_partial orderly hf he hset b
  rw [← SB.C63_unbounded hm hd b i hpk h3 h1 c hv] at hall
  rw [hall]
  exact ⟨⟨_, C64_counter_data_partial he hset b, by omega⟩, C64_counter_complete_partial he hset b⟩

/-- How many opens there were. -/
structure Opens (s : ObjSB St Int (List Char) Info) : Prop where
  count : s.st.openCount + (if s.sb.start = some .mkEvt ∨ s.sb.start = some .opening then 1 else 0) = s.sb.n
  at' : ∀ t st, s.opened t = some st → st.openCount = t + 1

theorem read_count (s : St) : (read stop s).2.openCount = s.openCount := by
  unfold read; split <;> try rfl
  split <;> rfl

theorem Opens.step (h : Opens s) (hb : ObjSB.Below (counter start stop) cfg s s' x) : Opens s' := by
  obtain ⟨h1, h2⟩ := h
  have h3 : ∀ t st, s'.opened t = some st → st.openCount = t + 1 := by
    intro t st ht
    rcases ObjSB.opened_step hb t st ht with ht | ⟨-, k1, k2, k3⟩
    · exact h2 t st ht
    · rw [opened_eq k3]
      rw [k2] at h1
      simp at h1 ⊢
      omega
  refine ⟨?_, h3⟩
  cases hb with
  | other a hx ha hk hr hs e1 e2 =>
    rw [e1]
    refine ObjSB.opens_count hs _ ⟨?_, ?_⟩ h1 <;> (rintro rfl; simp [SBAct.noCall] at ha)
  | openOk hx hs h0 e2 =>
    rw [opened_eq h0]
    have hst := SB.step_to hs
    clear hs
    generalize s'.sb = y at hst
    cases hst
    rename_i hst
    rw [hst] at h1
    simp [SB.say] at h1 ⊢
    exact h1
  | openRaise hx e hs h0 e2 => simp [counter] at h0
  | bufOk hx i hs h0 e1 e2 => rw [e1]; exact ObjSB.opens_count hs _ (by simp) h1
  | bufRaise hx e hs h0 e1 e2 => rw [e1]; exact ObjSB.opens_count hs _ (by simp) h1
  | readOk t hx r hs h0 e2 =>
    have := read_count (stop := stop) s.st
    rw [show read stop s.st = _ from h0] at this
    dsimp only at this
    rw [this]; exact ObjSB.opens_count hs _ (by simp) h1
  | readRaise t hx e hs h0 e2 =>
    have := read_count (stop := stop) s.st
    rw [show read stop s.st = _ from h0] at this
    dsimp only at this
    rw [this]; exact ObjSB.opens_count hs _ (by simp) h1
  | close t hx ok hs h0 hok e2 =>
    have : s'.st.openCount = s.st.openCount := by rw [← h0]; rfl
    rw [this]; exact ObjSB.opens_count hs _ (by simp) h1

/-- **C64** the info of the `t`-th session (from 0) of the counter says how often it was opened: `t + 1` times. Missing: as above. -/
theorem C64_counter_info_partial (he : (ObjSB.init new).exec (counter start stop) cfg xs = some s)
    (hset : (ObjSB.init new : ObjSB St Int (List Char) Info).Settled (counter start stop) cfg xs) (t : Nat) (i : Info)
    (ht : Ev.bufferMade t i ∈ s.sb.log) : i = { start := start, stop := stop, openCount := t + 1 } := by
  have h := ObjSB.acc he hset
  have ho : Opens s := by
    refine ObjSB.exec_ind_settled (P := Opens) (fun _ _ _ _ h hs _ => h.step (ObjSB.below hs)) ⟨rfl, ?_⟩ he hset
    intro t st h; simp [ObjSB.init] at h
  obtain ⟨st0, k1, k2⟩ := h.info t i ht
  simp only [counter, Except.ok.injEq] at k2
  rw [← k2, ho.at' t st0 k1]

end Counter
end S2P
