import Verif.Props.Instances
import Verif.Props.Careful
/-
C103: the documented example: a file read line by line through `mk_stream_buffer`.
-/
namespace S2P
open Spec

theorem answered_length {V I : Type} (t : Nat) (l : List (Ev V I)) : (answered t l).length = l.countP (isReadBy t) := by
  induction l with
  | nil => rfl
  | cons e l ih =>
    rw [show e :: l = [e] ++ l from rfl, answered_append, List.length_append, List.countP_append, ih]
    congr 1
    cases e <;> simp only [answered, isReadBy, List.filterMap_cons, List.filterMap_nil, List.countP_cons, List.countP_nil] <;> try rfl
    all_goals
      rename_i t' _
      by_cases h : t' = t <;> simp [h]

namespace Spec

/-- The first `n` lines, each with its number; beyond the end, `None` with a number. -/
def numbered {D : Type} (ls : List D) (n : Nat) : List (SItem D) := (List.range n).map fun j => .pair j ls[j]?

end Spec

namespace SimplySrc
variable {D : Type} {ls : List D}

theorem lines_answers (n : Nat) : ∀ (h k p : Nat) (w : Files) (us : List (Use Nat)), w.pos h = some p →
    answers (read (lines ls)) { inst := some h, readIdx := k, world := w, uses := us } n =
      (List.range n).map fun j => .ok (some (.pair (k + j) ls[p + j]?)) := by
  induction n with
  | zero => intros; rfl
  | succ n ih =>
    intro h k p w us hp
    rw [answers, List.range_succ_eq_map, List.map_cons, List.map_map]
    simp only [read, lines, hp, simpRead, if_true, Nat.add_zero]
    congr 1
    refine (ih h (k + 1) (p + 1) _ _ (by simp)).trans ?_
    refine List.map_congr_left fun j _ => ?_
    simp only [Function.comp, Nat.succ_eq_add_one, Nat.add_assoc, Nat.add_comm 1 j]

theorem lines_opened {x st : St Files Nat} (h : open' (lines ls) x = (.ok (), st)) :
    st.readIdx = 0 ∧ ∃ n, st.inst = some n ∧ st.world.pos n = some 0 := by
  simp only [open', lines, Prod.mk.injEq, true_and] at h
  subst h
  exact ⟨rfl, _, rfl, by simp⟩

theorem lines_read {x st : St Files Nat} (h : open' (lines ls) x = (.ok (), st)) (n : Nat) :
    answers (simply (lines ls)).read st n = (numbered ls n).map fun v => .ok (some v) := by
  obtain ⟨h1, m, h2, h3⟩ := lines_opened h
  obtain ⟨i, r, w, us⟩ := st
  simp only at h1 h2 h3
  subst h1 h2
  refine (lines_answers n m 0 0 w us h3).trans ?_
  simp [numbered]

theorem lines_data {x st : St Files Nat} (h : open' (lines ls) x = (.ok (), st)) (n : Nat) :
    dataOf (answers (simply (lines ls)).read st n) = numbered ls n := by
  rw [lines_read h]
  simp only [dataOf, List.filterMap_map]
  exact List.filterMap_some

theorem lines_orderly : ObjSB.Orderly (simply (lines ls)) := by
  refine ⟨?_, ?_, ?_⟩
  · intro x st n e h
    rw [lines_read h]; simp
  · intro x st n v h hv
    rw [lines_data h] at hv
    obtain ⟨j, -, rfl⟩ := List.mem_map.1 hv
    exact ⟨j, rfl⟩
  · intro x st n h
    rw [lines_data h, numbered, List.pairwise_map]
    refine List.pairwise_lt_range.imp fun {i j} hij k l hk hl => ?_
    simp only [simply, lines, Except.ok.injEq] at hk hl
    omega

variable [BEq D] [ReflBEq D] {cfg : SBCfg Nat (SItem D)} {xs : List (ObjAct Nat (SItem D) (Option Nat))}
  {s s' : ObjSB (St Files Nat) Nat (SItem D) (Option Nat)}

/-- **C103** each session reads the file from its first line: thread `t`, having called `read()` `n` times, was given the first `n` lines, numbered from 0, and
`(k, None)` beyond the end. -/
theorem C103_lines_read (w : Files) (he : (ObjSB.init (new w)).exec (simply (lines ls)) cfg xs = some s)
    (hc : (ObjSB.init (new w) : ObjSB (St Files Nat) Nat (SItem D) (Option Nat)).Calm (simply (lines ls)) cfg xs) (t : Nat) :
    dataRead t s.sb.log = numbered ls (s.sb.log.countP (isReadBy t)) := by
  rw [dataRead_eq, ← answered_length]
  by_cases ht : answered t s.sb.log = []
  · rw [ht]; simp [dataOf, numbered]
  · obtain ⟨x0, st0, h1, h2⟩ := ObjSB.C64_fresh_start_partial he (ObjSB.calm_settled he hc) t ht
    generalize (answered t s.sb.log).length = n at *
    rw [h2]
    exact lines_data h1 n

/-- **C103** the stream does not die: no exception leaves the reading thread. -/
theorem C103_never_dies (hf : ObjSB.Fits (simply (lines ls)) cfg) (hm : cfg.maxlen ≠ none ∨ cfg.autoDrop = true) (w : Files)
    (he : (ObjSB.init (new w)).exec (simply (lines ls)) cfg xs = some s)
    (hc : (ObjSB.init (new w) : ObjSB (St Files Nat) Nat (SItem D) (Option Nat)).Calm (simply (lines ls)) cfg xs) :
    ∀ e ∈ s.sb.log, isDeath e = false :=
  ObjSB.C64_orderly_never_dies_partial lines_orderly hf hm he (ObjSB.calm_settled he hc)

/-- **C103** after `6 * n + 15` steps of the reading thread (`auto_drop=True`) the first `n` lines have been stored, in order, numbered, none missing. -/
theorem C103_stored (hf : ObjSB.Fits (simply (lines ls)) cfg) (hd : cfg.autoDrop = true) (w : Files)
    (he : (ObjSB.init (new w)).exec (simply (lines ls)) cfg xs = some s)
    (hc : (ObjSB.init (new w) : ObjSB (St Files Nat) Nat (SItem D) (Option Nat)).Calm (simply (lines ls)) cfg xs) (b n : Nat)
    (hk : 6 * n + 15 ≤ xs.countP (·.ofThread b)) : ∃ m, n ≤ m ∧ storedIn b s.sb.log = numbered ls m := by
  obtain ⟨bs, hb, hcount⟩ := ObjSB.exec_act he
  obtain ⟨l, hl, hle⟩ := SB.C86_keeps_reading_auto hd (as := []) rfl b hb
  simp only [SB.init, List.nil_append] at hl
  rw [hcount b, ← hl] at hle
  have hall := ObjSB.C87_all_stored lines_orderly hf he hc b
  rw [C103_lines_read w he hc b] at hall
  generalize s.sb.log.countP (isReadBy b) = r at *
  have hh : (s.sb.thr b).inHand.length ≤ 1 := by cases s.sb.thr b <;> simp [TPC.inHand]
  have hlen := congrArg List.length hall
  simp only [List.length_append, numbered, List.length_map, List.length_range] at hlen
  refine ⟨(storedIn b s.sb.log).length, by omega, ?_⟩
  have : storedIn b s.sb.log <+: numbered ls r := ⟨_, hall⟩
  rw [List.prefix_iff_eq_take] at this
  rw [this]
  simp only [numbered, ← List.map_take, List.take_range, List.length_map, List.length_range]

/-- **C103**, the example's last line: `buffer_reader.range(start=lo, stop=hi)` returns the lines `lo` to `hi`, each with its number, when the reading thread
has done `6 * (hi + 1) + 15` steps; any settings of the reader, whatever was read before. -/
theorem C103_range (hf : ∀ i (d : Option D), cfg.key (.pair i d) = i) (hm : cfg.maxlen = none) (hd : cfg.autoDrop = true) (w : Files)
    (he : (ObjSB.init (new w)).exec (simply (lines ls)) cfg xs = some s)
    (hc : (ObjSB.init (new w) : ObjSB (St Files Nat) Nat (SItem D) (Option Nat)).Calm (simply (lines ls)) cfg xs) (b i : Nat) (c : Cons Nat (SItem D))
    (hv : s.sb.view b = some c) (lo hi : Nat) (hlh : lo ≤ hi) (hk : 6 * (hi + 1) + 15 ≤ xs.countP (·.ofThread b)) (p : Bool) (ig : Option Bool) :
    (c.ch.step (.rd i (.range lo hi none p ig false false false))).2 =
      .ok (.many ((List.range (hi + 1 - lo)).map fun j => .pair (lo + j) ls[lo + j]?)) := by
  have hfit : ObjSB.Fits (simply (lines ls)) cfg := by
    intro v k h
    cases v with
    | pair i d => simp only [simply, lines, Except.ok.injEq] at h; rw [hf, h]
    | raw d => simp [simply, lines] at h
  obtain ⟨m, hm1, hm2⟩ := C103_stored hfit hd w he hc b (hi + 1) hk
  obtain ⟨bs, hb, -⟩ := ObjSB.exec_act he
  have hitems := SB.C44_unbounded_auto_partial hm hd hb b
  have hr := SB.view_reach hb b c hv
  have hci : c.ch.buf.items = numbered ls m := by
    rw [← hm2, ← hitems]
    obtain ⟨x, hx, rfl⟩ := Option.map_eq_some_iff.1 hv
    simp [SB.items, hx]
  rw [(hr.ch.rd i _).1]
  simp only [rdStep, Spec.range, lowerBound, true_or, if_true, Bool.false_eq_true, if_false, answer]
  rw [hci]
  have hsel : between cfg.key lo hi (numbered ls m) = (List.range (hi + 1 - lo)).map fun j => .pair (lo + j) ls[lo + j]? := by
    obtain ⟨q, rfl⟩ : ∃ q, m = lo + ((hi + 1 - lo) + q) := ⟨m - (hi + 1), by omega⟩
    have h1 : ((List.range lo).map fun j => SItem.pair j ls[j]?).filter (fun v => decide (lo ≤ cfg.key v) && decide (cfg.key v ≤ hi)) = [] := by
      rw [List.filter_eq_nil_iff]
      intro v hv
      obtain ⟨j, hj, rfl⟩ := List.mem_map.1 hv
      have := List.mem_range.1 hj
      rw [hf]
      simp
      omega
    have h2 : ∀ n k, (∀ j, j < n → lo ≤ k + j ∧ k + j ≤ hi) →
        ((List.range n).map fun j => SItem.pair (k + j) ls[k + j]?).filter (fun v => decide (lo ≤ cfg.key v) && decide (cfg.key v ≤ hi)) =
          (List.range n).map fun j => SItem.pair (k + j) ls[k + j]? := by
      intro n k h
      rw [List.filter_eq_self]
      intro v hv
      obtain ⟨j, hj, rfl⟩ := List.mem_map.1 hv
      have := h j (List.mem_range.1 hj)
      rw [hf]
      simp
      omega
    have h3 : ((List.range q).map fun j => SItem.pair (lo + (hi + 1 - lo + j)) ls[lo + (hi + 1 - lo + j)]?).filter
        (fun v => decide (lo ≤ cfg.key v) && decide (cfg.key v ≤ hi)) = [] := by
      rw [List.filter_eq_nil_iff]
      intro v hv
      obtain ⟨j, hj, rfl⟩ := List.mem_map.1 hv
      rw [hf]
      simp
      omega
    simp only [between, numbered, List.range_add, List.map_append, List.filter_append, List.map_map]
    refine Eq.trans (congrArg₂ _ h1 (congrArg₂ _ (h2 (hi + 1 - lo) lo fun j hj => by omega) h3)) ?_
    simp
  rw [hsel, finish, if_neg]
  rintro ⟨h, -⟩
  have := congrArg List.length h
  simp at this
  omega

end SimplySrc
end S2P
