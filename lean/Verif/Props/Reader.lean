import Mathlib.Order.Nat
import Mathlib.Order.Bounds.Defs
import Verif.Proofs.Reader
import Verif.Proofs.Consumer
import Verif.Props.SortedDeque
/-
Properties C11–C24 of the buffer readers. `Ch.run (Ch.init key kn m cfg) ops` is the history `ops` of calls (in the order of
their critical sections) on a fresh buffer with key function `key` (`kn` on `None`), bound `m` and readers with settings `cfg i`.
`Ch.Reach` = reached by some history.
-/
namespace S2P
open Spec
variable {K V : Type}

section props
variable [LinearOrder K] [BEq V] [ReflBEq V]
variable {key : V → K} {kn : Py (Option K)} {m : Option Nat} {cfg : Nat → Cfg} {c : Ch K V}

/-! ### C11 -/

/-- C11: for every history, every outcome, the retained items and every cursor are those of the linear-scan reference
(`Spec/Window.lean`). -/
theorem C11_window_refinement (key : V → K) (kn : Py (Option K)) (m : Option Nat) (cfg : Nat → Cfg) (ops : List (ChOp K V)) :
    (Ch.run (Ch.init key kn m cfg) ops).2 = (Window.run key kn m cfg Window.init ops).2 ∧
    (Ch.run (Ch.init key kn m cfg) ops).1.buf.items = (Window.run key kn m cfg Window.init ops).1.items ∧
    ∀ i, ((Ch.run (Ch.init key kn m cfg) ops).1.readers i).lastItem = (Window.run key kn m cfg Window.init ops).1.cur i :=
  have h := (Ch.Sim.init key kn m cfg).run ops
  ⟨h.1, h.2.items, h.2.cur⟩

/-! ### C12 -/

/-- C12: whatever the interleaving, what reader `i` gets from its successive reads has strictly increasing keys. -/
theorem C12_reads_increase (key : V → K) (kn : Py (Option K)) (m : Option Nat) (cfg : Nat → Cfg) (i : Nat)
    (ops : List (ChOp K V)) (hops : OnlyReads cfg i ops) :
    (delivered cfg i ops (Ch.run (Ch.init key kn m cfg) ops).2).Pairwise (fun v w => key v < key w) :=
  (delivered_increasing i ops hops (Ch.Sim.init key kn m cfg)).1

/-! ### C13 -/

/-- C13: if appended keys increase, every outcome (of `read`, `next`, `head`, `tail`, peeks, `del last_item`) is the one
given by positions in the append log (`Spec/Log.lean`): a read starts right after the reader's last seen item or, if that
left the buffer, at the oldest retained item. -/
theorem C13_positions (key : V → K) (kn : Py (Option K)) (m : Option Nat) (cfg : Nat → Cfg) (ops : List (ChOp K V))
    (hinc : (appended ops).Pairwise (fun v w => key v < key w)) {l : Log V} {outs : List (Py (Ret V))}
    (hl : Log.run m cfg Log.init ops = some (l, outs)) :
    (Ch.run (Ch.init key kn m cfg) ops).2 = outs ∧
    (Ch.run (Ch.init key kn m cfg) ops).1.buf.items = l.log.drop l.evicted ∧ l.log = appended ops ∧
    ∀ i, unread key (Ch.run (Ch.init key kn m cfg) ops).1.buf.items ((Ch.run (Ch.init key kn m cfg) ops).1.readers i).lastItem
      = l.log.drop (max l.evicted (l.pos i)) := by
  obtain ⟨h1, h2, h3⟩ := log_run ops (Ch.Sim.init key kn m cfg) (LogRel.init key) (by simpa [Log.init] using hinc) hl
  refine ⟨h1, by rw [h2.items, h3.items], by simpa [Log.init] using Log.run_log ops hl, fun i => ?_⟩
  have := h3.unread i
  rw [h2.items, h2.cur i, this]; rfl

/-- C13, no gap: if appended keys increase, reader `i` only reads, and eviction never overtakes it (at every moment the
items that left the buffer are no more than the items it received), then what it received so far followed by what it can
still read is exactly the appended sequence. Other readers may do anything. -/
theorem C13_no_gap (key : V → K) (kn : Py (Option K)) (m : Option Nat) (cfg : Nat → Cfg) (i : Nat) (ops : List (ChOp K V))
    (hops : OnlyReads cfg i ops) (hinc : (appended ops).Pairwise (fun v w => key v < key w))
    (hover : ∀ k, (appended (ops.take k)).length ≤ (Ch.run (Ch.init key kn m cfg) (ops.take k)).1.buf.items.length +
      (delivered cfg i (ops.take k) (Ch.run (Ch.init key kn m cfg) (ops.take k)).2).length) :
    delivered cfg i ops (Ch.run (Ch.init key kn m cfg) ops).2 ++
      unread key (Ch.run (Ch.init key kn m cfg) ops).1.buf.items ((Ch.run (Ch.init key kn m cfg) ops).1.readers i).lastItem
    = appended ops :=
  (no_gap_inv i ops hops hinc hover).2.2.2

/-- C13 for an unbounded buffer that nobody drops from: the proviso of `C13_no_gap` always holds. -/
theorem C13_no_gap_unbounded (key : V → K) (kn : Py (Option K)) (cfg : Nat → Cfg) (i : Nat) (ops : List (ChOp K V))
    (hops : OnlyReads cfg i ops) (hinc : (appended ops).Pairwise (fun v w => key v < key w)) (hd : ∀ n, .drop n ∉ ops) :
    delivered cfg i ops (Ch.run (Ch.init key kn none cfg) ops).2 ++
      unread key (Ch.run (Ch.init key kn none cfg) ops).1.buf.items ((Ch.run (Ch.init key kn none cfg) ops).1.readers i).lastItem
    = appended ops := by
  refine C13_no_gap key kn none cfg i ops hops hinc fun k => ?_
  rw [unbounded_items (ops.take k) (fun n hn => hd n (List.mem_of_mem_take hn))]
  · omega
  · have h := List.take_append_drop k ops
    rw [← h, appended_append] at hinc
    exact (List.pairwise_append.1 hinc).1

/-! ### C14 -/

/-- C14: leaving out the calls of any set of readers changes neither the buffer, nor any other reader, nor any other outcome. -/
theorem C14_readers_independent {K V : Type} [LT K] [DecidableLT K] [BEq V] (keep : Nat → Bool) (ops : List (ChOp K V))
    (c : Ch K V) :
    restrictOuts keep ops (c.run ops).2 = (c.run (restrict keep ops)).2 ∧
    (c.run ops).1.buf = (c.run (restrict keep ops)).1.buf ∧
    ∀ i, keep i = true → (c.run ops).1.readers i = (c.run (restrict keep ops)).1.readers i := by
  suffices H : ∀ (c c' : Ch K V), c.buf = c'.buf → (∀ i, keep i = true → c.readers i = c'.readers i) →
      restrictOuts keep ops (c.run ops).2 = (c'.run (restrict keep ops)).2 ∧
      (c.run ops).1.buf = (c'.run (restrict keep ops)).1.buf ∧
      ∀ i, keep i = true → (c.run ops).1.readers i = (c'.run (restrict keep ops)).1.readers i from
    H c c rfl (fun _ _ => rfl)
  induction ops with
  | nil => intro c c' h1 h2; exact ⟨rfl, h1, h2⟩
  | cons op ops ih =>
    intro c c' h1 h2
    cases op with
    | append v =>
      have := ih (c.step (.append v)).1 (c'.step (.append v)).1 (by simp [Ch.step, h1]) (fun i hi => h2 i hi)
      simp only [Ch.run, restrict, restrictOuts]
      exact ⟨by rw [this.1]; simp [Ch.step, h1], this.2⟩
    | drop n =>
      have := ih (c.step (.drop n)).1 (c'.step (.drop n)).1 (by simp [Ch.step, h1]) (fun i hi => h2 i hi)
      simp only [Ch.run, restrict, restrictOuts]
      exact ⟨by rw [this.1]; simp [Ch.step, h1], this.2⟩
    | rd j o =>
      simp only [restrict, Ch.run, restrictOuts]
      cases hk : keep j with
      | true =>
        have := ih (c.step (.rd j o)).1 (c'.step (.rd j o)).1 h1 (fun i hi => by
          simp only [Ch.step, h1, h2 j hk]
          split
          · rfl
          · exact h2 i hi)
        simp only [if_true, Ch.run]
        exact ⟨by rw [this.1]; simp [Ch.step, h1, h2 j hk], this.2⟩
      | false =>
        have := ih (c.step (.rd j o)).1 c' h1 (fun i hi => by
          simp only [Ch.step]
          have : i ≠ j := by rintro rfl; simp [hk] at hi
          simp only [this, if_false]
          exact h2 i hi)
        simpa using this

/-- C14, one call: a reader call leaves the buffer and all other readers as they were. -/
theorem C14_read_only {K V : Type} [LT K] [DecidableLT K] [BEq V] (c : Ch K V) (i : Nat) (o : RdOp K V) :
    (c.step (.rd i o)).1.buf = c.buf ∧ ∀ j, j ≠ i → (c.step (.rd i o)).1.readers j = c.readers j :=
  ⟨rfl, fun j hj => by simp [Ch.step, hj]⟩

/-! ### C15 -/

/-- The same call with `peek` set to `p`. -/
def withPeek (p : Bool) : RdOp K V → RdOp K V
  | .read n _ ig st => .read n (some p) ig st
  | .nextMethod n _ ig st => .nextMethod n p ig st
  | .range a b st _ ig on le ge => .range a b st p ig on le ge
  | .tail _ ig on => .tail p ig on
  | .head _ => .head p
  | o => o

/-- C15: any call that peeks leaves the reader exactly as it was. -/
theorem C15_peek_keeps_cursor {K V : Type} [LT K] [DecidableLT K] [BEq V] (s : SD K V) (r : Reader K V) (o : RdOp K V)
    (hp : peeks r.cfg o = true) : (Ch.rdStep s r o).2 = r := by
  have hread : ∀ n ig st, (r.read s n (some true) ig st).2 = r := by
    intro n ig st
    simp only [Reader.read, Option.getD_some, Bool.not_true, Bool.false_eq_true, if_false]
    repeat' split
    all_goals rfl
  cases o with
  | read n p ig st =>
    cases p with
    | none => simp [peeks] at hp
    | some p => simp [peeks] at hp; subst hp; exact hread _ _ _
  | nextMethod n p ig st => simp [peeks] at hp; subst hp; exact hread _ _ _
  | readForNext => simp only [peeks] at hp; simp only [Ch.rdStep, Reader.readForNext, hp]; exact hread _ _ _
  | range a b st p ig on le ge =>
    simp only [peeks] at hp; subst hp
    simp only [Ch.rdStep, Reader.range, Bool.not_true, Bool.false_eq_true, if_false]
    repeat' split
    all_goals rfl
  | tail p ig on =>
    simp only [peeks] at hp; subst hp
    simp only [Ch.rdStep, Reader.tail, Bool.not_true, Bool.false_eq_true, if_false]
    repeat' split
    all_goals rfl
  | head p =>
    simp only [peeks] at hp; subst hp
    simp only [Ch.rdStep, Reader.head, Bool.not_true, Bool.false_eq_true, if_false]
    repeat' split
    all_goals rfl
  | setLast v => simp [peeks] at hp
  | delLast => simp [peeks] at hp

/-- C15: a peek returns what the same call without peek returns; for `range` this holds unless the interval is empty, where
the peek returns `[]` and the other call raises `IndexError` or returns `None`. -/
theorem C15_peek_same_result (h : c.Reach key kn m cfg) (i : Nat) (o : RdOp K V) :
    (c.step (.rd i (withPeek true o))).2 = (c.step (.rd i (withPeek false o))).2 ∨
    (∃ a b st p ig on le ge, o = .range a b st p ig on le ge ∧ (c.step (.rd i (withPeek true o))).2 = .ok (.many []) ∧
      ((c.step (.rd i (withPeek false o))).2 = .ok .none ∨ (c.step (.rd i (withPeek false o))).2 = .error .indexError)) := by
  rw [(h.rd i _).1, (h.rd i _).1]
  cases o with
  | read n p ig st => exact .inl rfl
  | nextMethod n p ig st => exact .inl rfl
  | readForNext => exact .inl rfl
  | tail p ig on => exact .inl rfl
  | head p => exact .inl rfl
  | setLast v => exact .inl rfl
  | delLast => exact .inl rfl
  | range a b st p ig on le ge =>
    have up : ∀ {x y : Py (Ret V)}, (x = y ∨ x = .ok (.many []) ∧ (y = .ok .none ∨ y = .error .indexError)) → x = y ∨ (∃ a' b' st' p' ig' on' le' ge',
        (RdOp.range a b st p ig on le ge : RdOp K V) = .range a' b' st' p' ig' on' le' ge' ∧ x = .ok (.many []) ∧ (y = .ok .none ∨ y = .error .indexError)) := by
      rintro x y (h | h)
      · exact .inl h
      · exact .inr ⟨_, _, _, _, _, _, _, _, rfl, h⟩
    apply up
    simp only [withPeek, rdStep]
    unfold Spec.range
    have fin : ∀ (ig : Bool) (l : List V), finish true ig l = finish false ig l ∨ finish true ig l = .ok (.many []) ∧
        (finish false ig l = .ok .none ∨ finish false ig l = .error .indexError) := by
      intro ig l
      unfold finish
      by_cases hl : l = []
      · right; cases ig <;> simp [hl]
      · left; simp [hl]
    have ans : ∀ (ig : Bool) (l : List V), answer st true ig l = answer st false ig l ∨ answer st true ig l = .ok (.many []) ∧
        (answer st false ig l = .ok .none ∨ answer st false ig l = .error .indexError) := by
      intro ig l
      unfold answer
      cases st with
      | none => exact fin _ _
      | some st =>
        dsimp only
        split
        · exact .inl rfl
        · exact fin _ _
    cases lowerBound key kn c.buf.items (c.readers i).lastItem a (ig.getD (cfg i).ignore) on with
    | error e => exact .inl rfl
    | ok lo =>
      cases lo with
      | none => exact .inl rfl
      | some lo =>
        dsimp only
        generalize (if ge = true then Except.map key (first (fun v => decide (b ≤ key v)) c.buf.items) else Except.ok b) = hi
        cases hi with
        | error e => exact .inl rfl
        | ok hi => exact ans _ _

/-- C15: repeating a peek gives the same value. -/
theorem C15_peek_repeatable {K V : Type} [LT K] [DecidableLT K] [BEq V] (s : SD K V) (r : Reader K V) (o : RdOp K V)
    (hp : peeks r.cfg o = true) : Ch.rdStep s (Ch.rdStep s r o).2 o = Ch.rdStep s r o := by
  rw [C15_peek_keeps_cursor s r o hp]

/-! ### C16 -/

/-- C16: unspecified `n`, `ignore_no_item_found`, `strict_n` take the constructor's values, given ones are used; any buffer, any reader. -/
theorem C16_defaults {K V : Type} [LT K] [DecidableLT K] [BEq V] (s : SD K V) (r : Reader K V) (n : Option Int) (p ig st : Option Bool) :
    Ch.rdStep s r (.read n p ig st) =
      Ch.rdStep s r (.read (some (n.getD r.cfg.n)) p (some (ig.getD r.cfg.ignore)) (some (st.getD r.cfg.strict))) := by
  simp only [Ch.rdStep, Reader.read, Option.getD_some]

/-- C73: `peek`, too, is used when it is given explicitly, and the constructor's value is used if it is `False`. Missing: `peek=True` given to the
constructor. -/
theorem C73_peek_partial {K V : Type} [LT K] [DecidableLT K] [BEq V] (s : SD K V) (r : Reader K V)
    (n : Option Int) (p ig st : Option Bool) (hp : p.isSome ∨ r.cfg.peek = false) :
    Ch.rdStep s r (.read n p ig st) =
      Ch.rdStep s r (.read (some (n.getD r.cfg.n)) (some (p.getD r.cfg.peek)) (some (ig.getD r.cfg.ignore)) (some (st.getD r.cfg.strict))) := by
  have : p.getD false = p.getD r.cfg.peek := by
    rcases hp with hp | hp
    · cases p <;> simp_all
    · rw [hp]
  simp only [Ch.rdStep, Reader.read, Option.getD_some, this]

/-- C73 is false as stated: a reader made with `peek=True` still moves its cursor on `read()`. -/
theorem C73_refuted : ¬ ∀ (s : SD Nat Nat) (r : Reader Nat Nat) (n : Option Int) (p ig st : Option Bool),
    Ch.rdStep s r (.read n p ig st) =
      Ch.rdStep s r (.read (some (n.getD r.cfg.n)) (some (p.getD r.cfg.peek)) (some (ig.getD r.cfg.ignore)) (some (st.getD r.cfg.strict))) := by
  intro h
  have := congrArg (fun x => x.2.lastItem) (h ((SD.empty id (.ok none) none).append 7).1 (Reader.init { Cfg.default with peek := true }) none none none none)
  revert this; decide

/-! ### C17 -/

/-- The unread items of reader `i` in state `c`: the retained ones with a key above `last_key` (all if it is `None`). -/
def unreadOf (c : Ch K V) (i : Nat) : List V :=
  c.buf.items.filter (fun v => match (c.readers i).lastKey with | some k => decide (k < c.buf.key v) | none => true)

theorem unreadOf_eq (h : c.Reach key kn m cfg) (i : Nat) :
    unreadOf c i = unread key c.buf.items (c.readers i).lastItem := by
  unfold unreadOf
  have := h.sim.coh i
  rw [this, h.sim.key]
  cases (c.readers i).lastItem with
  | none => simp [unread]
  | some x => rfl

/-- C74: `read(n, strict_n=True)` with `n > 1` and something unread returns exactly the next `n` items if more than `n` are unread, and raises `ValueError`
without moving if fewer than `n` are. Missing: with exactly `n` unread items the code raises too (last clause, see `C74_refuted`). -/
theorem C74_strict_partial (h : c.Reach key kn m cfg) (i : Nat) (n : Nat) (hn : 1 < n) (p ig : Option Bool) (hu : unreadOf c i ≠ []) :
    (n < (unreadOf c i).length →
      (c.step (.rd i (.read (some n) p ig (some true)))).2 = .ok (.many ((unreadOf c i).take n)) ∧
      ((unreadOf c i).take n).length = n) ∧
    ((unreadOf c i).length ≤ n →
      (c.step (.rd i (.read (some n) p ig (some true)))).2 = .error .valueError ∧
      ((c.step (.rd i (.read (some n) p ig (some true)))).1.readers i).lastItem = (c.readers i).lastItem) := by
  rw [unreadOf_eq h] at hu ⊢
  rw [(h.rd i _).1, (h.rd i _).2]
  simp only [rdStep, Option.getD_some, Spec.read]
  cases hq : unread key c.buf.items (c.readers i).lastItem with
  | nil => exact absurd hq hu
  | cons v vs =>
    have h1 : ¬ ((n : Int) ≤ 1) := by omega
    simp only [h1, if_false, Int.toNat_natCast, true_and]
    refine ⟨fun hl => ?_, fun hl => ?_⟩
    · have : ¬ (((v :: vs).length : Int) ≤ n) := by omega
      simp only [this, if_false]
      refine ⟨trivial, ?_⟩
      rw [List.length_take]; omega
    · have : (((v :: vs).length : Int) ≤ n) := by omega
      simp only [this, if_true]
      refine ⟨trivial, ?_⟩
      unfold move
      split <;> rfl

/-- C17: `read(n)` with `n > 1` and something unread returns the next `min(n, available)` unread items, and without `peek` the rest is what is unread
then. -/
theorem C17_read_n (h : c.Reach key kn m cfg) (i : Nat) (n : Nat) (hn : 1 < n) (ig : Option Bool) (hu : unreadOf c i ≠ []) :
    (∀ p, (c.step (.rd i (.read (some n) p ig (some false)))).2 = .ok (.many ((unreadOf c i).take n))) ∧
    unreadOf (c.step (.rd i (.read (some n) (some false) ig (some false)))).1 i = (unreadOf c i).drop n := by
  have h' := h.step (.rd i (.read (some n) (some false) ig (some false)))
  rw [unreadOf_eq h', unreadOf_eq h, (h.rd i _).2] at *
  have h1 : ¬ ((n : Int) ≤ 1) := by omega
  refine ⟨fun p => ?_, ?_⟩
  · rw [(h.rd i _).1]
    simp only [rdStep, Option.getD_some, Spec.read]
    cases hq : unread key c.buf.items (c.readers i).lastItem with
    | nil => exact absurd hq hu
    | cons v vs => simp only [h1, if_false, Bool.false_eq_true, false_and, Int.toNat_natCast]
  · have hr : read key c.buf.items (c.readers i).lastItem n (ig.getD (cfg i).ignore) false =
        .ok (chunkOf n (unread key c.buf.items (c.readers i).lastItem)) := by
      simp only [Spec.read]
      cases hq : unread key c.buf.items (c.readers i).lastItem with
      | nil => exact absurd hq hu
      | cons v vs => simp only [h1, if_false, Bool.false_eq_true, false_and, chunkOf]
    simp only [rdStep, Option.getD_some, move, Bool.false_eq_true, if_false]
    have hst := h.sim.swf.strict
    rw [h.sim.key] at hst
    have := unread_chunk hst (c.readers i).lastItem n
    rw [← hr] at this
    rw [show chunkSize (n : Int) = n by unfold chunkSize; omega] at this
    exact this

/-- C17: `read(n)` with `n ≤ 1` returns the first unread item, whatever `strict_n`. -/
theorem C17_read_one (h : c.Reach key kn m cfg) (i : Nat) (n : Int) (hn : n ≤ 1) (p ig st : Option Bool) (v : V) (vs : List V)
    (hu : unreadOf c i = v :: vs) :
    (c.step (.rd i (.read (some n) p ig st))).2 = .ok (.one v) := by
  rw [unreadOf_eq h] at hu
  rw [(h.rd i _).1]
  simp [rdStep, Spec.read, hu, hn]

/-- C74 is false as stated: two unread items, `read(2, strict_n=True)` raises `ValueError`. -/
theorem C74_refuted : ¬ ∀ (c : Ch Nat Nat), c.Reach id (.ok none) none (fun _ => Cfg.default) → ∀ (i n : Nat), 1 < n →
    n ≤ (unreadOf c i).length →
    (c.step (.rd i (.read (some n) none none (some true)))).2 = .ok (.many ((unreadOf c i).take n)) := by
  intro h
  have := h _ ⟨[.append 1, .append 2], rfl⟩ 0 2 (by decide) (by decide)
  revert this; decide

/-! ### C18 -/

/-- C18: if a call (other than assigning/deleting `last_item`) raises or returns `None`, the reader is unchanged; for every
buffer and reader state whatsoever. -/
theorem C18_failed_call_keeps_cursor {K V : Type} [LT K] [DecidableLT K] [BEq V] (s : SD K V) (r : Reader K V) (o : RdOp K V)
    (ho : (∀ v, o ≠ .setLast v) ∧ o ≠ .delLast)
    (hf : (∃ e, (Ch.rdStep s r o).1 = .error e) ∨ (Ch.rdStep s r o).1 = .ok .none) : (Ch.rdStep s r o).2 = r := by
  have hread : ∀ n p ig st, ((∃ e, (r.read s n p ig st).1 = .error e) ∨ (r.read s n p ig st).1 = .ok .none) →
      (r.read s n p ig st).2 = r := by
    intro n p ig st
    simp only [Reader.read]
    repeat' split
    all_goals simp
  cases o with
  | read n p ig st => exact hread _ _ _ _ hf
  | nextMethod n p ig st => exact hread _ _ _ _ hf
  | readForNext => exact hread _ _ _ _ hf
  | range a b st p ig on le ge =>
    revert hf
    simp only [Ch.rdStep, Reader.range]
    repeat' split
    all_goals simp
  | tail p ig on =>
    revert hf
    simp only [Ch.rdStep, Reader.tail]
    repeat' split
    all_goals simp
  | head p =>
    revert hf
    simp only [Ch.rdStep, Reader.head]
    repeat' split
    all_goals simp
  | setLast v => exact absurd rfl (ho.1 v)
  | delLast => exact absurd rfl ho.2

/-! ### C19 -/

/-- C19: `read` reports "no item" (`None` with `ignore_no_item_found`, `ValueError` without) if no retained item is newer
than the cursor; if there is one it hands out at least one item, unless `strict_n` rejects (`ValueError`). -/
theorem C19_no_data (h : c.Reach key kn m cfg) (i : Nat) (n : Int) (p : Option Bool) (ig st : Bool) :
    ((∀ v ∈ c.buf.items, ¬ (∀ k, (c.readers i).lastKey = some k → k < key v)) →
      (c.step (.rd i (.read (some n) p (some ig) (some st)))).2 = if ig then .ok .none else .error .valueError) ∧
    ((∃ v ∈ c.buf.items, ∀ k, (c.readers i).lastKey = some k → k < key v) →
      (∃ r, (c.step (.rd i (.read (some n) p (some ig) (some st)))).2 = .ok r ∧ r.items ≠ [] ∧ r ≠ .none) ∨
      (st = true ∧ 1 < n ∧ (c.step (.rd i (.read (some n) p (some ig) (some st)))).2 = .error .valueError)) := by
  have hmem : ∀ v, v ∈ unread key c.buf.items (c.readers i).lastItem ↔
      v ∈ c.buf.items ∧ ∀ k, (c.readers i).lastKey = some k → k < key v := by
    intro v
    rw [← unreadOf_eq h, unreadOf, List.mem_filter, h.sim.key]
    cases (c.readers i).lastKey <;> simp
  rw [(h.rd i _).1]
  simp only [rdStep, Option.getD_some, Spec.read]
  cases hu : unread key c.buf.items (c.readers i).lastItem with
  | nil =>
    rw [hu] at hmem
    refine ⟨fun _ => rfl, ?_⟩
    rintro ⟨v, hv, hk⟩
    have := (hmem v).2 ⟨hv, hk⟩
    simp at this
  | cons v vs =>
    rw [hu] at hmem
    refine ⟨fun hno => absurd ((hmem v).1 (by simp)).2 (hno v ((hmem v).1 (by simp)).1), fun _ => ?_⟩
    dsimp only
    split
    · exact .inl ⟨_, rfl, by simp [Ret.items], by simp⟩
    · rename_i hn
      split
      · rename_i hs; exact .inr ⟨hs.1, by omega, rfl⟩
      · refine .inl ⟨_, rfl, ?_, by simp⟩
        simp only [Ret.items]
        intro h0
        rw [List.take_eq_nil_iff] at h0
        simp at h0; omega

/-! ### C20, C21, C22 -/

/-- `lo` is where an interval asked to start at `start` really starts, given the keys `keys`: with `startLe` the greatest key
at or below `start` if there is one, else `start`. -/
def StartsAt (keys : K → Prop) (start : K) (startLe : Bool) (lo : K) : Prop :=
  (startLe = true ∧ IsGreatest {k | keys k ∧ k ≤ start} lo) ∨
  ((startLe = false ∨ ∀ k, keys k → ¬ k ≤ start) ∧ lo = start)

/-- `hi` is where an interval asked to stop at `stop` really stops: with `stopGe` the least key at or above `stop`. -/
def StopsAt (keys : K → Prop) (stop : K) (stopGe : Bool) (hi : K) : Prop :=
  (stopGe = true ∧ IsLeast {k | keys k ∧ stop ≤ k} hi) ∨ (stopGe = false ∧ hi = stop)

/-- `k` is the key of a retained item. -/
def HasKey (key : V → K) (items : List V) (k : K) : Prop := ∃ v ∈ items, key v = k

omit [BEq V] [ReflBEq V] in
theorem startsAt_spec {items : List V} (hs : items.Pairwise (fun v w => key v < key w)) (start : K) (le : Bool) :
    StartsAt (HasKey key items) start le
      (if le then (match last (fun v => decide (key v ≤ start)) items with | .ok v => key v | .error _ => start) else start) := by
  cases le with
  | false => exact .inr ⟨.inl rfl, rfl⟩
  | true =>
    simp only [if_true]
    rw [last_eq]
    cases hl : (items.filter (fun v => decide (key v ≤ start))).getLast? with
    | none =>
      refine .inr ⟨.inr ?_, rfl⟩
      simp only [List.getLast?_eq_none_iff, List.filter_eq_nil_iff] at hl
      rintro k ⟨v, hv, rfl⟩
      simpa using hl v hv
    | some z =>
      refine .inl ⟨rfl, ?_⟩
      have hz := List.mem_of_getLast? hl
      rw [List.mem_filter] at hz
      refine ⟨⟨⟨z, hz.1, rfl⟩, by simpa using hz.2⟩, ?_⟩
      rintro k ⟨⟨v, hv, rfl⟩, hk⟩
      have hmem : v ∈ items.filter (fun v => decide (key v ≤ start)) := List.mem_filter.2 ⟨hv, by simpa using hk⟩
      obtain ⟨pre, hpre⟩ := List.getLast?_eq_some_iff.1 hl
      have hsf := hs.filter (fun v => decide (key v ≤ start))
      rw [hpre] at hmem hsf
      rcases List.mem_append.1 hmem with h | h
      · exact le_of_lt ((List.pairwise_append.1 hsf).2.2 v h z (by simp))
      · simp at h; subst h; exact le_refl _

omit [BEq V] [ReflBEq V] in
theorem stopsAt_spec {items : List V} (hs : items.Pairwise (fun v w => key v < key w)) (stop : K) (ge : Bool) :
    (∃ hi, (if ge then (first (fun v => decide (stop ≤ key v)) items).map key else .ok stop) = .ok hi ∧
      StopsAt (HasKey key items) stop ge hi) ∨
    (∃ e, (if ge then (first (fun v => decide (stop ≤ key v)) items).map key else .ok stop) = .error e ∧ ge = true ∧
      ∀ k, HasKey key items k → ¬ stop ≤ k) := by
  cases ge with
  | false => exact .inl ⟨stop, rfl, .inr ⟨rfl, rfl⟩⟩
  | true =>
    simp only [if_true]
    rw [first_eq]
    cases hl : (items.filter (fun v => decide (stop ≤ key v))).head? with
    | none =>
      right
      simp only [List.head?_eq_none_iff, List.filter_eq_nil_iff] at hl
      refine ⟨_, rfl, trivial, ?_⟩
      rintro k ⟨v, hv, rfl⟩
      simpa using hl v hv
    | some z =>
      left
      refine ⟨key z, rfl, .inl ⟨rfl, ?_⟩⟩
      have hz := List.mem_of_head? hl
      rw [List.mem_filter] at hz
      refine ⟨⟨⟨z, hz.1, rfl⟩, by simpa using hz.2⟩, ?_⟩
      rintro k ⟨⟨v, hv, rfl⟩, hk⟩
      have hmem : v ∈ items.filter (fun v => decide (stop ≤ key v)) := List.mem_filter.2 ⟨hv, by simpa using hk⟩
      obtain ⟨post, hpost⟩ := List.head?_eq_some_iff.1 hl
      have hsf := hs.filter (fun v => decide (stop ≤ key v))
      rw [hpost] at hmem hsf
      rcases List.mem_cons.1 hmem with h | h
      · subst h; exact le_refl _
      · exact le_of_lt ((List.pairwise_cons.1 hsf).1 v h)

/-- C21: without `only_new_items`, `range` answers with exactly the retained items between the rounded bounds; with
`stop_ge` and no key at or above `stop` it is `ValueError` (`None` with `ignore_no_item_found`). -/
theorem C21_rounding (h : c.Reach key kn m cfg) (i : Nat) (start stop : K) (step : Option Int) (p ig le ge : Bool) :
    (∃ lo hi, StartsAt (HasKey key c.buf.items) start le lo ∧ StopsAt (HasKey key c.buf.items) stop ge hi ∧
      (c.step (.rd i (.range start stop step p (some ig) false le ge))).2 =
        answer step p ig (c.buf.items.filter (fun v => decide (lo ≤ key v) && decide (key v ≤ hi)))) ∨
    (ge = true ∧ (∀ k, HasKey key c.buf.items k → ¬ stop ≤ k) ∧
      (c.step (.rd i (.range start stop step p (some ig) false le ge))).2 = if ig then .ok .none else .error .valueError) := by
  rw [(h.rd i _).1]
  have hs : c.buf.items.Pairwise (fun v w => key v < key w) := h.sim.strict
  simp only [rdStep, Option.getD_some, Spec.range, lowerBound, true_or, if_true]
  rcases stopsAt_spec hs stop ge with ⟨hi, h1, h2⟩ | ⟨e, h1, h2, h3⟩
  · left
    refine ⟨_, hi, startsAt_spec hs start le, h2, ?_⟩
    rw [h1]
    rfl
  · right
    refine ⟨h2, h3, ?_⟩
    rw [h1]; rfl

theorem unread_split (h : c.Reach key kn m cfg) (i : Nat) :
    ∃ a, c.buf.items = a ++ unreadOf c i ∧ (∀ k, (c.readers i).lastKey = some k → ∀ w ∈ a, key w ≤ k) := by
  obtain ⟨a, h1, h2, _⟩ := SD.unread_suffix h.sim.swf (c.readers i).lastItem
  rw [unreadOf_eq h]
  rw [h.sim.key] at h1 h2
  refine ⟨a, h1, fun k hk => ?_⟩
  have := h.sim.coh i
  rw [this, h.sim.key] at hk
  cases hl : (c.readers i).lastItem with
  | none => rw [hl] at hk; simp at hk
  | some x => rw [hl] at hk; simp at hk; subst hk; exact h2 x hl

/-- C20: with `only_new_items` and a cursor, `range` hands out exactly the *unseen* retained items between the rounded
bounds (`start_le` rounds to unseen keys); it hands out nothing if there is no unseen item or `stop_ge` fails.
Missing: `ignore_no_item_found` together with a key function that maps `None` to a key (see `C20_refuted`). -/
theorem C20_only_new_partial (h : c.Reach key kn m cfg) (i : Nat) (k : K) (hk : (c.readers i).lastKey = some k)
    (start stop : K) (step : Option Int) (p ig le ge : Bool) (hkn : ig = false ∨ ∀ k', kn ≠ .ok (some k')) :
    (unreadOf c i ≠ [] ∧ ∃ lo hi, StartsAt (HasKey key (unreadOf c i)) start le lo ∧ StopsAt (HasKey key c.buf.items) stop ge hi ∧
      (c.step (.rd i (.range start stop step p (some ig) true le ge))).2 =
        answer step p ig ((unreadOf c i).filter (fun v => decide (lo ≤ key v) && decide (key v ≤ hi)))) ∨
    (unreadOf c i = [] ∧ ∀ r, (c.step (.rd i (.range start stop step p (some ig) true le ge))).2 = .ok r → r = .none) ∨
    (unreadOf c i ≠ [] ∧ ge = true ∧ (∀ k, HasKey key c.buf.items k → ¬ stop ≤ k) ∧
      (c.step (.rd i (.range start stop step p (some ig) true le ge))).2 = if ig then .ok .none else .error .valueError) := by
  rw [(h.rd i _).1]
  have hs : c.buf.items.Pairwise (fun v w => key v < key w) := h.sim.strict
  obtain ⟨a, ha, hak⟩ := unread_split h i
  have hcur : (c.readers i).lastItem.isNone = false := by
    have := h.sim.coh i
    rw [this] at hk
    cases hl : (c.readers i).lastItem with
    | none => rw [hl] at hk; simp at hk
    | some x => rfl
  simp only [rdStep, Option.getD_some, Spec.range, lowerBound, reduceCtorEq, hcur, or_self, if_false, Bool.false_eq_true]
  rw [← unreadOf_eq h]
  cases hu : unreadOf c i with
  | nil =>
    right; left
    refine ⟨rfl, fun r => ?_⟩
    cases ig with
    | false => simp
    | true =>
      simp only [reduceCtorEq, if_false]
      cases hkn' : kn with
      | error e => cases e <;> simp <;> exact fun h => h.symm
      | ok o =>
        cases o with
        | none => simp
        | some k' => simp [hkn'] at hkn
  | cons v vs =>
    dsimp only
    rcases stopsAt_spec hs stop ge with ⟨hi, h1, h2⟩ | ⟨e, h1, h2, h3⟩
    · left
      rw [h1]
      dsimp only
      refine ⟨by simp, ?_⟩
      -- unseen keys, in order
      have hsu : (unreadOf c i).Pairwise (fun v w => key v < key w) := by
        rw [ha] at hs; exact (List.pairwise_append.1 hs).2.1
      have hv : ∀ w ∈ unreadOf c i, key v ≤ key w := by
        rw [hu] at hsu ⊢
        intro w hw
        rcases List.mem_cons.1 hw with rfl | hw
        · exact le_refl _
        · exact le_of_lt ((List.pairwise_cons.1 hsu).1 w hw)
      have hav : ∀ w ∈ a, key w < key v := by
        intro w hw
        rw [ha] at hs
        exact (List.pairwise_append.1 hs).2.2 w hw v (by rw [hu]; simp)
      -- the part before the cursor contributes nothing as soon as the lower bound is at least `key v`
      have hsel : ∀ lo, key v ≤ lo → between key lo hi c.buf.items =
          (unreadOf c i).filter (fun v => decide (lo ≤ key v) && decide (key v ≤ hi)) := by
        intro lo hlo
        unfold between
        rw [ha, List.filter_append]
        have : a.filter (fun v => decide (lo ≤ key v) && decide (key v ≤ hi)) = [] := by
          rw [List.filter_eq_nil_iff]
          intro w hw
          have := lt_of_lt_of_le (hav w hw) hlo
          simp [not_le.2 this]
        rw [this]; rfl
      rw [← hu]
      have hvu : v ∈ unreadOf c i := by rw [hu]; simp
      have hvi : v ∈ c.buf.items := by rw [ha]; simp [hvu]
      generalize hlo0 : (if key v < start then start else key v) = lo0
      have hlo0v : key v ≤ lo0 := by
        rw [← hlo0]; split
        · exact le_of_lt ‹_›
        · exact le_refl _
      have hsa := startsAt_spec hs lo0 le
      generalize (if le = true then (match last (fun v => decide (key v ≤ lo0)) c.buf.items with
        | .ok v => key v | .error _ => lo0) else lo0) = lo1 at hsa ⊢
      have hlo1v : key v ≤ lo1 := by
        rcases hsa with ⟨_, hg⟩ | ⟨_, rfl⟩
        · exact hg.2 ⟨⟨v, hvi, rfl⟩, hlo0v⟩
        · exact hlo0v
      by_cases hvs : key v < start
      · -- start lies above the first unseen key
        simp only [hvs, if_true] at hlo0
        subst hlo0
        refine ⟨lo1, hi, ?_, h2, ?_⟩
        · rcases hsa with ⟨hle, hg⟩ | ⟨hn, rfl⟩
          · left
            refine ⟨hle, ?_, ?_⟩
            · obtain ⟨⟨⟨w, hw, hwk⟩, hws⟩, _⟩ := hg
              refine ⟨⟨w, ?_, hwk⟩, hws⟩
              rw [ha] at hw
              rcases List.mem_append.1 hw with hw | hw
              · exact absurd (hav w hw) (not_lt.2 (hwk ▸ hlo1v))
              · exact hw
            · rintro k' ⟨⟨w, hw, rfl⟩, hk'⟩
              exact hg.2 ⟨⟨w, by rw [ha]; simp [hw], rfl⟩, hk'⟩
          · right
            refine ⟨hn.imp id fun hn k' => ?_, rfl⟩
            rintro ⟨w, hw, rfl⟩
            exact hn _ ⟨w, by rw [ha]; simp [hw], rfl⟩
        · rw [hsel lo1 hlo1v]
      · simp only [hvs, if_false] at hlo0
        subst hlo0
        have e1 : lo1 = key v := by
          rcases hsa with ⟨_, hg⟩ | ⟨_, h⟩
          · exact le_antisymm hg.1.2 hlo1v
          · exact h
        subst e1
        rw [hsel _ (le_refl _)]
        by_cases heq : key v = start
        · refine ⟨key v, hi, ?_, h2, rfl⟩
          cases le with
          | false => exact .inr ⟨.inl rfl, heq⟩
          | true =>
            refine .inl ⟨rfl, ⟨⟨⟨v, hvu, rfl⟩, le_of_eq heq⟩, ?_⟩⟩
            rintro k' ⟨_, hk'⟩; rw [heq]; exact hk'
        · have hlt : start < key v := lt_of_le_of_ne (not_lt.1 hvs) (fun h => heq h.symm)
          refine ⟨start, hi, .inr ⟨.inr ?_, rfl⟩, h2, ?_⟩
          · rintro k' ⟨w, hw, rfl⟩ hk'
            exact absurd (lt_of_lt_of_le hlt (hv w hw)) (not_lt.2 hk')
          · congr 1
            apply List.filter_congr
            intro w hw
            have h3 := hv w hw
            have h4 := le_of_lt (lt_of_lt_of_le hlt h3)
            simp [h3, h4]
    · right; right
      refine ⟨by simp, h2, h3, ?_⟩
      rw [h1]; rfl

theorem answer_mem (step : Option Int) (p ig : Bool) (sel : List V) (r : Ret V) (h : answer step p ig sel = .ok r) :
    ∀ v ∈ r.items, v ∈ sel := by
  have fin : ∀ (l : List V) (r : Ret V), finish p ig l = .ok r → ∀ v ∈ r.items, v ∈ l := by
    intro l r hr v hv
    unfold finish at hr
    split at hr
    · split at hr
      · cases hr; simp [Ret.items] at hv
      · simp at hr
    · cases hr; exact hv
  unfold answer at h
  cases step with
  | none => exact fin _ _ h
  | some st =>
    dsimp only at h
    split at h
    · simp at h
    · intro v hv
      have := fin _ _ h v hv
      unfold stride at this
      obtain ⟨j, _, hj⟩ := List.mem_filterMap.1 this
      exact List.mem_of_getElem? hj

/-- C20, safety: no item at or before the cursor is ever handed out by `range(only_new_items=True)`. Same proviso. -/
theorem C20_only_new_safe_partial (h : c.Reach key kn m cfg) (i : Nat) (k : K) (hk : (c.readers i).lastKey = some k)
    (start stop : K) (step : Option Int) (p ig le ge : Bool) (hkn : ig = false ∨ ∀ k', kn ≠ .ok (some k')) (r : Ret V)
    (hr : (c.step (.rd i (.range start stop step p (some ig) true le ge))).2 = .ok r) : ∀ v ∈ r.items, k < key v := by
  have hun : ∀ v ∈ unreadOf c i, k < key v := by
    intro v hv
    have := (List.mem_filter.1 hv).2
    rw [hk, h.sim.key] at this
    simpa using this
  rcases C20_only_new_partial h i k hk start stop step p ig le ge hkn with ⟨_, lo, hi, _, _, he⟩ | ⟨_, he⟩ | ⟨_, _, _, he⟩
  · rw [he] at hr
    intro v hv
    exact hun v (List.mem_filter.1 (answer_mem _ _ _ _ _ hr v hv)).1
  · rw [he r hr]; simp [Ret.items]
  · rw [he] at hr
    split at hr
    · cases hr; simp [Ret.items]
    · simp at hr

/-- C20 is false as stated: with a key function that maps `None` to a key (e.g. `lambda x: x or 0`), nothing new and
`ignore_no_item_found`, items already seen are handed out again. -/
theorem C20_refuted : ¬ ∀ (kn : Py (Option Nat)) (c : Ch Nat Nat), c.Reach id kn none (fun _ => Cfg.default) →
    ∀ (k start stop : Nat) (r : Ret Nat), (c.readers 0).lastKey = some k →
    (c.step (.rd 0 (.range start stop none false (some true) true false false))).2 = .ok r → ∀ v ∈ r.items, k < v := by
  intro h
  have := h (.ok (some 0)) _ ⟨[.append 1, .append 2, .rd 0 (.read (some 2) none none none)], rfl⟩ 2 0 9 (.many [1, 2])
    (by decide) (by decide) 1 (by simp [Ret.items])
  exact absurd this (by decide)

/-- C22: with a cursor, `only_new_items` and `ignore_no_item_found`, `range` returns `None` when no retained item is newer than
`last_key` — if calling the key function on `None` raises `TypeError`. -/
theorem C22_nothing_new_partial (h : c.Reach key (.error .typeError) m cfg) (i : Nat) (k : K)
    (hk : (c.readers i).lastKey = some k) (hno : ∀ v ∈ c.buf.items, ¬ k < key v)
    (start stop : K) (step : Option Int) (p le ge : Bool) :
    (c.step (.rd i (.range start stop step p (some true) true le ge))).2 = .ok .none := by
  have hu : unreadOf c i = [] := by
    unfold unreadOf
    rw [List.filter_eq_nil_iff]
    intro v hv
    rw [hk, h.sim.key]
    simpa using hno v hv
  rw [(h.rd i _).1]
  have hcur : (c.readers i).lastItem.isNone = false := by
    have := h.sim.coh i
    rw [this] at hk
    cases hl : (c.readers i).lastItem with
    | none => rw [hl] at hk; simp at hk
    | some x => rfl
  rw [unreadOf_eq h] at hu
  simp [rdStep, Spec.range, lowerBound, hcur, hu]

/-- C22 is false for other key functions: the identity key (`key(None)` is `None`) makes it a `TypeError`, a key function
reading an attribute (`AttributeError` on `None`) lets that through. -/
theorem C22_refuted :
    (∃ c : Ch Nat Nat, c.Reach id (.ok none) none (fun _ => Cfg.default) ∧ (c.readers 0).lastKey = some 1 ∧ c.buf.items = [1] ∧
      (c.step (.rd 0 (.range 0 9 none false (some true) true false false))).2 = .error .typeError) ∧
    (∃ c : Ch Nat Nat, c.Reach id (.error .attributeError) none (fun _ => Cfg.default) ∧ (c.readers 0).lastKey = some 1 ∧
      c.buf.items = [1] ∧ (c.step (.rd 0 (.range 0 9 none false (some true) true false false))).2 = .error .attributeError) := by
  refine ⟨⟨_, ⟨[.append 1, .rd 0 .readForNext], rfl⟩, ?_⟩, ⟨_, ⟨[.append 1, .rd 0 .readForNext], rfl⟩, ?_⟩⟩ <;> decide

/-! ### C23 -/

/-- C23: `head` / `tail` on a buffer with items: the oldest / the newest retained item; `tail(only_new_items)` iff it is
newer than the cursor. -/
theorem C23_head_tail (h : c.Reach key kn m cfg) (i : Nat) (p ig : Bool) (v w : V) (hv : c.buf.items.head? = some v)
    (hw : c.buf.items.getLast? = some w) :
    (c.step (.rd i (.head p))).2 = .ok (.one v) ∧ (c.step (.rd i (.tail p ig false))).2 = .ok (.one w) ∧
    ((∀ k, (c.readers i).lastKey = some k → k < key w) → (c.step (.rd i (.tail p ig true))).2 = .ok (.one w)) ∧
    ((∃ k, (c.readers i).lastKey = some k ∧ ¬ k < key w) →
      (c.step (.rd i (.tail p ig true))).2 = if ig then .ok .none else .error .valueError) := by
  rw [(h.rd i _).1, (h.rd i _).1, (h.rd i _).1]
  have hc : (c.readers i).lastKey = (c.readers i).lastItem.map key := by
    have := h.sim.coh i; rwa [Reader.Coherent, h.sim.key] at this
  simp only [rdStep, Spec.head, Spec.tail, hv, hw, hc]
  refine ⟨trivial, trivial, ?_, ?_⟩
  · cases (c.readers i).lastItem with
    | none => simp
    | some x => intro hh; simp [hh (key x) rfl]
  · rintro ⟨k, hk, hlt⟩
    cases hl : (c.readers i).lastItem with
    | none => rw [hl] at hk; simp at hk
    | some x => rw [hl] at hk; simp at hk; subst hk; simp [hlt, noItem]

/-- C23: on an empty buffer `head` and plain `tail` raise `IndexError`, `tail(only_new_items)` raises `ValueError`; `tail` returns
`None` with `ignore_no_item_found`. -/
theorem C23_empty (h : c.Reach key kn m cfg) (i : Nat) (p on : Bool) (he : c.buf.items = []) :
    (c.step (.rd i (.head p))).2 = .error .indexError ∧
    (c.step (.rd i (.tail p true on))).2 = .ok .none ∧
    (c.step (.rd i (.tail p false on))).2 = .error (if on then .valueError else .indexError) := by
  rw [(h.rd i _).1, (h.rd i _).1, (h.rd i _).1]
  simp [rdStep, Spec.head, Spec.tail, he]

/-! ### C24 -/

/-- C24: after any history `last_key` is the key of `last_item` (both `None` if there is none). -/
theorem C24_last_key (h : c.Reach key kn m cfg) (i : Nat) : (c.readers i).lastKey = (c.readers i).lastItem.map key := by
  have := h.sim.coh i; rwa [Reader.Coherent, h.sim.key] at this

end props

/-! ### The hypotheses are satisfiable: one concrete history exercising everything -/
section examples

/-- Two readers (the second peeks and chunks by default), bound 3, with evictions, a manual drop, a rejected append, reads of both
kinds, an empty read and a range. -/
def exOps : List (ChOp Nat It) :=
  [.append ⟨1, 0⟩, .append ⟨2, 0⟩, .rd 0 (.read none none none none), .append ⟨3, 0⟩, .append ⟨4, 0⟩,
   .rd 1 (.range 0 9 none false none false false false), .rd 0 (.read (some 2) none none none), .drop 1, .rd 0 .readForNext,
   .append ⟨6, 0⟩, .rd 0 (.read none (some true) none none)]

def exCfg : Nat → Cfg := fun i => if i = 0 then Cfg.default else { n := 2, peek := true, ignore := true, strict := true }

/-- Its final state. -/
def exCh : Ch Nat It := (Ch.run (Ch.init It.k (.error .typeError) (some 3) exCfg) exOps).1

theorem exCh_reach : exCh.Reach It.k (.error .typeError) (some 3) exCfg := ⟨exOps, rfl⟩

example : (Ch.run (Ch.init It.k (.error .typeError) (some 3) exCfg) exOps).2 =
    [.ok .none, .ok .none, .ok (.one ⟨1, 0⟩), .ok .none, .ok .none, .ok (.many [⟨2, 0⟩, ⟨3, 0⟩, ⟨4, 0⟩]),
     .ok (.many [⟨2, 0⟩, ⟨3, 0⟩]), .ok .none, .ok (.one ⟨4, 0⟩), .ok .none, .ok (.one ⟨6, 0⟩)] := by decide

/-- C12 / C13: reader 0 only reads, keys increase, and it is never overtaken. -/
theorem exOnlyReads : OnlyReads exCfg 0 exOps := by
  intro o ho
  simp [exOps] at ho
  rcases ho with rfl | rfl | rfl | rfl <;> decide

example : (appended exOps).Pairwise (fun v w => It.k v < It.k w) := by decide

example : delivered exCfg 0 exOps (Ch.run (Ch.init It.k (.error .typeError) (some 3) exCfg) exOps).2 ++
    unread It.k exCh.buf.items (exCh.readers 0).lastItem = [⟨1, 0⟩, ⟨2, 0⟩, ⟨3, 0⟩, ⟨4, 0⟩, ⟨6, 0⟩] :=
  C13_no_gap It.k (.error .typeError) (some 3) exCfg 0 exOps exOnlyReads (by decide) (by
    intro k
    have hl : exOps.length = 11 := rfl
    by_cases hk : k ≤ 11
    · revert k; decide
    · rw [List.take_of_length_le (by omega)]; decide)

/-- C13_positions applies when no reader uses `range`. -/
example : (Log.run (some 3) exCfg Log.init (restrict (· = 0) exOps)).isSome = true := by decide

/-- C16: a reader with non-default settings meets the hypothesis. -/
example : (some true).isSome ∨ (exCh.readers 1).cfg.peek = false := .inl rfl
/-- C17, C19, C20: unread items, a cursor. -/
example : unreadOf exCh 1 = [⟨6, 0⟩] ∧ (exCh.readers 1).lastKey = some 4 ∧ unreadOf exCh 0 = [⟨6, 0⟩] := by decide
example : unreadOf (exCh.step (.append ⟨7, 0⟩)).1 0 = [⟨6, 0⟩, ⟨7, 0⟩] := by decide
/-- C22: nothing new after reading everything. -/
example : let c := (exCh.step (.rd 0 .readForNext)).1
    (c.readers 0).lastKey = some 6 ∧ (∀ v ∈ c.buf.items, ¬ 6 < It.k v) ∧ c.buf.items ≠ [] := by decide
/-- C23: items, and an empty buffer after traffic. -/
example : exCh.buf.items.head? = some ⟨3, 0⟩ ∧ exCh.buf.items.getLast? = some ⟨6, 0⟩ ∧
    (exCh.step (.drop 5)).1.buf.items = [] := by decide

end examples
end S2P
