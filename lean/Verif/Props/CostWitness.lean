import Verif.Props.Cost
import Verif.Props.RaisingWitness
/- Concrete cases for C156: numbers as items and as keys. -/
namespace S2P
namespace XDW
open XD Spec

def nbase : PyEnv Nat Nat where
  ltK a b := .ok (decide (a < b))
  eqK a b := .ok (a == b)
  ltV a b := .ok (decide (a < b))
  eqV a b := .ok (a == b)
  ident v := .ok v
  sort _ := .ok []

def nenv : PyEnv Nat Nat := { nbase with sort := insSort nbase.tupleLt }

theorem nsorts : nenv.Sorts where
  perm _ _ h := (insSort_ok h).1
  neighbours _ _ h := (insSort_ok h).2
  nil := rfl

theorem nlt (a b : Nat) : nenv.ltK a b = .ok (decide (a < b)) := rfl
theorem neq (a b : Nat) (h : nenv.eqK a b = .ok true) : a = b := by
  have : (a == b) = true := by injection h
  simpa using this

/-- Items 0 to 9 have the same key 0, 10 to 19 the key 1 and so on. -/
def tens (v : Nat) : Py Nat := .ok (v / 10)

/-- `SortedDeque([40, 10, 12, 20, 11, 30], lambda v: v // 10)`. -/
def d6 : XD Nat Nat := ⟨[1, 1, 1, 2, 3, 4], [10, 11, 12, 20, 30, 40], tens, some tens, none, none⟩

theorem reach6 : Reachable nenv d6 := .new (iterable := [40, 10, 12, 20, 11, 30]) (given := some tens) (m := .ok none) rfl

/-- Meets C156: six items, so at most three comparisons per bisection. `find_gt(4)` asks `4 < 2`, `4 < 3`, `4 < 4` and raises; `insert(35)` calls the key function
on 35 and compares three times; `index(12)` calls it on 12, makes two bisections, and compares 12 with 10, 11 and 12; `append(35)` makes one comparison and
raises. -/
theorem C156_meets : Reachable nenv d6 ∧ nenv.Sorts ∧ d6.items.length < 2 ^ 3 ∧
    d6.findGtT nenv 4 = (.error .valueError, [.lt 4 2, .lt 4 4]) ∧
    d6.findGeT nenv 1 = (.ok 10, [.lt 2 1, .lt 1 1, .lt 1 1]) ∧
    (d6.insertT nenv 35).2 = [.key 35, .lt 2 3, .lt 4 3, .lt 3 3] ∧ (d6.insertT nenv 35).1.1.items = [10, 11, 12, 20, 35, 30, 40] ∧
    d6.indexT nenv 12 = (.ok 2, [.key 12, .lt 2 1, .lt 1 1, .lt 1 1, .lt 1 2, .lt 1 1, .lt 1 1, .eqV 10 12, .eqV 11 12, .eqV 12 12]) ∧
    (d6.appendT nenv 35).2 = [.key 35, .lt 4 3] ∧ (d6.appendT nenv 35).1.2 = .error .valueError := by
  exact ⟨reach6, nsorts, by decide, rfl, rfl, rfl, rfl, rfl, rfl, rfl⟩

/-- Meets `C156_tied`: `count(12)` compares 12 with the three items of its key. -/
theorem C156_meets_tied : (d6.key 12 = .ok 1) ∧ tied d6.key 1 d6.items = [10, 11, 12] ∧ tested (d6.countT nenv 12).2 = [10, 11, 12] ∧
    tested (d6.containsT nenv 11).2 = [10, 11] ∧ (d6.countT nenv 12).1 = .ok 1 ∧ (d6.containsT nenv 11).1 = .ok true := ⟨rfl, rfl, rfl, rfl, rfl, rfl⟩

/-- Meets `C156_history` and `C156_remake`: calls that raise too; then an assignment of `maxlen`. -/
theorem C156_meets_history : keyed (runT nenv d6 [.append 50, .append 7, .drop 2, .insert 33, .remove 99, .clear, .insertRight 5]).2 = [50, 7, 33, 99, 5] ∧
    (runT nenv d6 [.append 50, .append 7, .drop 2, .insert 33, .remove 99]).1.items = [12, 20, 33, 30, 40, 50] ∧
    keyed (d6.applyT nenv (.setMaxlen (.ok (some 2)))).2 = d6.items := ⟨rfl, rfl, rfl⟩

/-- The key function `lambda v: 0`. -/
def zero (_ : Nat) : Py Nat := .ok 0

theorem all_tied : ∀ n : Nat, ∃ s : XD Nat Nat, Reachable nenv s ∧ s.items.length = n ∧ s.key = zero ∧ s.cap = none
  | 0 => ⟨⟨[], [], zero, some zero, none, none⟩, .new (iterable := []) (given := some zero) (m := .ok none) rfl, rfl, rfl, rfl⟩
  | n + 1 => by
    obtain ⟨s, hr, hn, hk, hc⟩ := all_tied n
    have ho := reach_ok nsorts hr
    have hp : s.keys.Pairwise (· ≤ ·) := (pw_reach nsorts (ranked_some nlt neq) hr).imp fun hab => by
      rcases hab with ⟨x, y, hx, hy, hxy⟩ | ⟨hx, -⟩
      · cases hx; cases hy; exact hxy
      · cases hx
    obtain ⟨i, j, hi, -, -⟩ := between ho hp nlt 0
    have hi' := (bisectL_ends hi).1
    have he : (s.apply nenv (.insert n)).1 = { s with keys := s.keys.take i ++ 0 :: s.keys.drop i, items := s.items.take i ++ n :: s.items.drop i } := by
      have : s.key n = .ok 0 := by rw [hk]; rfl
      simp only [XD.apply, XD.insert, this, hi]
      rcases insertAt_cases ho i 0 n with ⟨x, hx⟩ | ⟨-, hx⟩
      · simp [insertAt, dqInsert, hc] at hx
      · rw [hx]
    refine ⟨_, .step (.insert n) hr, ?_, ?_, ?_⟩
    · rw [he]; have := ho.len; simp; omega
    · rw [he]; exact hk
    · rw [he]; exact hc

/-- **C156** "Finding and indexing are O(log n)" (sorted_collection.py 31) is true of comparisons of keys only: for every `n` there is a deque of `n` items in which
`count` compares `n` items. -/
theorem C156_ties (n : Nat) : ∃ s : XD Nat Nat, Reachable nenv s ∧ s.items.length = n ∧ ∀ v, (tested (s.countT nenv v).2).length = n := by
  obtain ⟨s, hr, hn, hk, -⟩ := all_tied n
  refine ⟨s, hr, hn, fun v => ?_⟩
  have := (C156_tied nsorts hr nlt neq v 0 (by rw [hk]; rfl)).2 fun w _ => ⟨w == v, rfl⟩
  rw [this, tied, hk, ← hn]
  congr 1
  exact List.filter_eq_self.2 fun _ _ => rfl

end XDW
end S2P
