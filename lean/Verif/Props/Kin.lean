import Verif.Props.Past
import Verif.Props.Poll
import Verif.Props.RWLock
import Verif.Props.StreamSource
/-
C122-C127: exactly what is true where C20, C22, C30, C45, C58, C73 and C74 are not.
-/
namespace S2P
open Spec

section
variable {K V : Type} [LinearOrder K] [BEq V] [ReflBEq V] {key : V → K} {kn : Py (Option K)} {m : Option Nat} {cfg : Nat → Cfg} {c : Ch K V}

/-! ### C122 -/

/-- **C122** `range(start, stop, step, only_new_items=True, ...)` on a buffer whose key function raises `TypeError` when called on `None`: with a cursor and
nothing unread `None` or `ValueError`; with `stop_ge` and no retained key at or above `stop` the same; in all other cases the unread items between the
bounds (rounded if asked for), every `step`-th of them. Any history of the buffer and its readers. -/
theorem C122_new_items (h : c.Reach key (.error .typeError) m cfg) (i : Nat) (start stop : K) (step : Option Int) (p ig le ge : Bool) :
    ((c.readers i).lastKey ≠ none ∧ unreadOf c i = [] →
      (c.step (.rd i (.range start stop step p (some ig) true le ge))).2 = if ig then .ok .none else .error .valueError) ∧
    (¬ ((c.readers i).lastKey ≠ none ∧ unreadOf c i = []) →
      (∃ lo hi, StartsAt (HasKey key (unreadOf c i)) start le lo ∧ StopsAt (HasKey key c.buf.items) stop ge hi ∧
        (c.step (.rd i (.range start stop step p (some ig) true le ge))).2 =
          answer step p ig ((unreadOf c i).filter fun v => decide (lo ≤ key v) && decide (key v ≤ hi))) ∨
      (ge = true ∧ (∀ k, HasKey key c.buf.items k → ¬ stop ≤ k) ∧
        (c.step (.rd i (.range start stop step p (some ig) true le ge))).2 = if ig then .ok .none else .error .valueError)) := by
  cases hk : (c.readers i).lastKey with
  | none =>
    have hit : (c.readers i).lastItem = none := by
      have := h.sim.coh i
      rw [this] at hk
      cases hl : (c.readers i).lastItem with
      | none => rfl
      | some x => rw [hl] at hk; simp at hk
    have hun : unreadOf c i = c.buf.items := by
      rw [unreadOf_eq h, hit]; rfl
    refine ⟨fun h => absurd rfl h.1, fun _ => ?_⟩
    have hsame : (c.step (.rd i (.range start stop step p (some ig) true le ge))).2 = (c.step (.rd i (.range start stop step p (some ig) false le ge))).2 := by
      rw [(h.rd i _).1, (h.rd i _).1]
      simp only [rdStep, Spec.range, lowerBound, hit, Option.isNone_none, or_true, true_or, if_true]
    rw [hsame, hun]
    rcases C21_rounding h i start stop step p ig le ge with h1 | h1
    · exact .inl h1
    · exact .inr h1
  | some k =>
    refine ⟨fun hu => ?_, fun hu => ?_⟩
    · have hcur : (c.readers i).lastItem.isNone = false := by
        have := h.sim.coh i
        rw [this] at hk
        cases hl : (c.readers i).lastItem with
        | none => rw [hl] at hk; simp at hk
        | some x => rfl
      rw [(h.rd i _).1]
      simp only [rdStep, Option.getD_some, Spec.range, lowerBound, reduceCtorEq, hcur, or_self, if_false, Bool.false_eq_true]
      rw [← unreadOf_eq h, hu.2]
      cases ig <;> rfl
    · rcases C20_only_new_partial h i k hk start stop step p ig le ge (.inr (by simp)) with ⟨-, h1⟩ | ⟨h1, -⟩ | ⟨-, h1⟩
      · exact .inl h1
      · exact absurd ⟨by simp, h1⟩ hu
      · exact .inr h1

/-- Meets C122: two of four items read, then `range(0, 3)` gives the unread one in it; nothing is unread after `range(0, 9)`. -/
theorem C122_meets :
    let c := (Ch.run (Ch.init id (.error .typeError) (some 4) fun _ => Cfg.default)
      ([.append 1, .append 2, .append 3, .append 4, .rd 0 (.read (some 2) none none none)] : List (ChOp Nat Nat))).1
    c.Reach id (.error .typeError) (some 4) (fun _ => Cfg.default) ∧
    (c.step (.rd 0 (.range 0 3 none true (some true) true false false))).2 = .ok (.many [3]) ∧
    ((c.step (.rd 0 (.range 0 9 none false (some true) true false false))).1.step (.rd 0 (.range 0 9 none false (some true) true false false))).2 = .ok .none := by
  refine ⟨⟨_, rfl⟩, rfl, rfl⟩

/-! ### C124 -/

/-- **C124** `read(n, strict_n=True)` for `n > 1` returns exactly the next `n` unread items if more than `n` are unread; with `1` to `n` unread items it
raises `ValueError`; with none it returns `None` or raises `ValueError`. If it raises, returns `None` or peeks the cursor stays. Any history. -/
theorem C124_strict (h : c.Reach key kn m cfg) (i : Nat) (n : Nat) (hn : 1 < n) (p ig : Bool) :
    let out := (c.step (.rd i (.read (some n) (some p) (some ig) (some true)))).2
    let last := ((c.step (.rd i (.read (some n) (some p) (some ig) (some true)))).1.readers i).lastItem
    (n < (unreadOf c i).length → out = .ok (.many ((unreadOf c i).take n)) ∧ last = if p then (c.readers i).lastItem else (unreadOf c i)[n - 1]?) ∧
    (unreadOf c i ≠ [] ∧ (unreadOf c i).length ≤ n → out = .error .valueError ∧ last = (c.readers i).lastItem) ∧
    (unreadOf c i = [] → out = (if ig then .ok .none else .error .valueError) ∧ last = (c.readers i).lastItem) := by
  dsimp only
  rw [unreadOf_eq h, (h.rd i _).1, (h.rd i _).2]
  simp only [rdStep, Option.getD_some, Spec.read]
  cases hq : unread key c.buf.items (c.readers i).lastItem with
  | nil => cases ig <;> cases p <;> simp [noItem, cursorAfter, outItems, move]
  | cons v vs =>
    have h1 : ¬ ((n : Int) ≤ 1) := by omega
    simp only [h1, if_false, Int.toNat_natCast, true_and]
    refine ⟨fun hl => ?_, fun hl => ?_, fun hl => by simp at hl⟩
    · have : ¬ (((v :: vs).length : Int) ≤ n) := by omega
      simp only [this, if_false]
      cases p with
      | true => simp [move]
      | false =>
        simp only [move, Bool.false_eq_true, if_false, cursorAfter_last, outItems, Ret.items, true_and]
        have : ((v :: vs).take n).getLast? = (v :: vs)[n - 1]? := by
          rw [List.getLast?_eq_getElem?, List.length_take, Nat.min_eq_left (by omega), List.getElem?_take, if_pos (by omega)]
        rw [this]
        cases hg : (v :: vs)[n - 1]? with
        | some w => rfl
        | none => simp at hg; simp at hl; omega
    · have : ((v :: vs).length : Int) ≤ n := by omega
      simp only [this, if_true]
      cases p <;> simp [cursorAfter, move]

/-- Meets C124: with three items unread, two are returned, then none of the last. -/
theorem C124_meets :
    let c := (Ch.run (Ch.init id (.ok none) none fun _ => Cfg.default) ([.append 1, .append 2, .append 3] : List (ChOp Nat Nat))).1
    c.Reach id (.ok none) none (fun _ => Cfg.default) ∧ unreadOf c 0 = [1, 2, 3] ∧
    (c.step (.rd 0 (.read (some 2) (some false) (some true) (some true)))).2 = .ok (.many [1, 2]) ∧
    unreadOf (c.step (.rd 0 (.read (some 2) (some false) (some true) (some true)))).1 0 = [3] := by
  refine ⟨⟨_, rfl⟩, rfl, rfl, rfl⟩

/-! ### C125 -/

omit [LinearOrder K] [ReflBEq V] in
/-- **C125** the `peek` given to `mk_reader` is used by `__next__` and the `for` loop and by nothing else: every other call, on any buffer and reader,
returns the same and moves the cursor the same whether it was given or not. -/
theorem C125_peek_default [LT K] [DecidableLT K] (s : SD K V) (r : Reader K V) (q : Bool) :
    Ch.rdStep s r .readForNext = Ch.rdStep s r (.read none (some r.cfg.peek) (some true) none) ∧
    ∀ o : RdOp K V, o ≠ .readForNext →
      (Ch.rdStep s { r with cfg := { r.cfg with peek := q } } o).1 = (Ch.rdStep s r o).1 ∧
      (Ch.rdStep s { r with cfg := { r.cfg with peek := q } } o).2 = { (Ch.rdStep s r o).2 with cfg := { r.cfg with peek := q } } := by
  have key : ∀ n p ig st, (Reader.read s { r with cfg := { r.cfg with peek := q } } n p ig st).1 = (Reader.read s r n p ig st).1 ∧
      (Reader.read s { r with cfg := { r.cfg with peek := q } } n p ig st).2 = { (Reader.read s r n p ig st).2 with cfg := { r.cfg with peek := q } } := by
    intro n p ig st
    have hn : ∀ g, ({ r with cfg := { r.cfg with peek := q } } : Reader K V).nextItem s g = r.nextItem s g := fun g => rfl
    simp only [Reader.read, hn]
    cases r.nextItem s (ig.getD r.cfg.ignore) with
    | error e => exact ⟨rfl, rfl⟩
    | ok o =>
      cases o with
      | none => exact ⟨rfl, rfl⟩
      | some v =>
        dsimp only
        repeat' split
        all_goals first | exact ⟨rfl, rfl⟩ | simp_all [Reader.setLast]
  refine ⟨rfl, fun o ho => ?_⟩
  cases o with
  | read n p ig st => exact key n p ig st
  | nextMethod n p ig st => exact key _ _ _ _
  | readForNext => exact absurd rfl ho
  | range a b st p ig on le ge =>
    have hs : ∀ g, ({ r with cfg := { r.cfg with peek := q } } : Reader K V).rangeStart s a g on = r.rangeStart s a g on := by
      intro g
      simp only [Reader.rangeStart, (key _ _ _ _).1]
    simp only [Ch.rdStep, Reader.range, hs]
    repeat' split
    all_goals first | exact ⟨rfl, rfl⟩ | simp_all [Reader.setLast]
  | tail p ig on =>
    simp only [Ch.rdStep, Reader.tail]
    repeat' split
    all_goals first | exact ⟨rfl, rfl⟩ | simp_all [Reader.setLast]
  | head p =>
    simp only [Ch.rdStep, Reader.head]
    repeat' split
    all_goals first | exact ⟨rfl, rfl⟩ | simp_all [Reader.setLast]
  | setLast v => exact ⟨rfl, rfl⟩
  | delLast => exact ⟨rfl, rfl⟩

/-- C125: a reader made with `peek=True` sees 7 on every `__next__` but moves on with `read()`. -/
theorem C125_meets :
    let s := ((SD.empty id (.ok none) none : SD Nat Nat).append 7).1
    let r : Reader Nat Nat := Reader.init { Cfg.default with peek := true }
    (Ch.rdStep s r .readForNext).1 = .ok (.one 7) ∧ (Ch.rdStep s r .readForNext).2.lastItem = none ∧
    (Ch.rdStep s r (.read none none none none)).1 = .ok (.one 7) ∧ (Ch.rdStep s r (.read none none none none)).2.lastItem = some 7 := by
  refine ⟨rfl, rfl, rfl, rfl⟩
end
end S2P
