import Mathlib.Data.List.Induction
import Verif.Proofs.Log
import Verif.Spec.Deliver
/- Consequences of the two refinements used by Props/Reader.lean. -/
namespace S2P
variable {K V : Type}

section
variable [LT K] [DecidableLT K] [BEq V]

/-- `c` is the state of a buffer and its readers after some history of calls. -/
def Ch.Reach (key : V → K) (kn : Py (Option K)) (m : Option Nat) (cfg : Nat → Cfg) (c : Ch K V) : Prop :=
  ∃ ops : List (ChOp K V), c = (Ch.run (Ch.init key kn m cfg) ops).1

theorem Ch.run_append (c : Ch K V) (a b : List (ChOp K V)) :
    c.run (a ++ b) = (((c.run a).1.run b).1, (c.run a).2 ++ ((c.run a).1.run b).2) := by
  induction a generalizing c with
  | nil => simp [Ch.run]
  | cons op a ih => simp [Ch.run, ih]

theorem Ch.run_length (c : Ch K V) (ops : List (ChOp K V)) : (c.run ops).2.length = ops.length := by
  induction ops generalizing c with
  | nil => rfl
  | cons op ops ih => simp [Ch.run, ih]

theorem Ch.Reach.step {key : V → K} {kn : Py (Option K)} {m : Option Nat} {cfg : Nat → Cfg} {c : Ch K V}
    (h : c.Reach key kn m cfg) (op : ChOp K V) : (c.step op).1.Reach key kn m cfg := by
  obtain ⟨ops, rfl⟩ := h
  exact ⟨ops ++ [op], by rw [Ch.run_append]; rfl⟩
end

variable [LinearOrder K] [BEq V] [ReflBEq V]

/-- The reference state of a model state. -/
def Ch.window (c : Ch K V) : Spec.Window V := ⟨c.buf.items, fun i => (c.readers i).lastItem⟩

theorem Ch.Sim.self {key : V → K} {kn : Py (Option K)} {m : Option Nat} {cfg : Nat → Cfg} {c : Ch K V} {w : Spec.Window V}
    (h : Ch.Sim key kn m cfg c w) : w = c.window := by
  cases w
  simp only [Ch.window]
  have h1 := h.items
  have h2 := funext h.cur
  simp only at h1 h2
  rw [h1, h2]

theorem Ch.Reach.sim {key : V → K} {kn : Py (Option K)} {m : Option Nat} {cfg : Nat → Cfg} {c : Ch K V}
    (h : c.Reach key kn m cfg) : Ch.Sim key kn m cfg c c.window := by
  obtain ⟨ops, rfl⟩ := h
  have := ((Ch.Sim.init key kn m cfg).run ops).2
  have h2 := this.self
  rwa [h2] at this

/-- A call on reader `i` in a reachable state. -/
theorem Ch.Reach.rd {key : V → K} {kn : Py (Option K)} {m : Option Nat} {cfg : Nat → Cfg} {c : Ch K V}
    (h : c.Reach key kn m cfg) (i : Nat) (op : RdOp K V) :
    (c.step (.rd i op)).2 = (Spec.rdStep key kn c.buf.items (cfg i) (c.readers i).lastItem op).1 ∧
    ((c.step (.rd i op)).1.readers i).lastItem = (Spec.rdStep key kn c.buf.items (cfg i) (c.readers i).lastItem op).2 := by
  obtain ⟨h1, h2⟩ := h.sim.step (.rd i op)
  refine ⟨h1, ?_⟩
  have := h2.cur i
  rw [this]
  simp [Spec.Window.step, Ch.window]

/-! ### What a reader delivers -/

omit [BEq V] [ReflBEq V] in
/-- What `read` hands out is a prefix of the unread items, and the cursor moves to its end. -/
theorem Spec.read_prefix (key : V → K) (items : List V) (cur : Option V) (n : Int) (ig st : Bool) :
    Spec.outItems (Spec.read key items cur n ig st) <+: Spec.unread key items cur ∧
    Spec.cursorAfter cur (Spec.read key items cur n ig st) =
      (match (Spec.outItems (Spec.read key items cur n ig st)).getLast? with | some v => some v | none => cur) := by
  unfold Spec.read
  cases hu : Spec.unread key items cur with
  | nil => cases ig <;> simp [Spec.noItem, outItems, Ret.items, Spec.cursorAfter]
  | cons v vs =>
    dsimp only
    split
    · simp [Spec.outItems, Ret.items, Spec.cursorAfter]
    · split
      · simp [Spec.outItems, Spec.cursorAfter]
      · refine ⟨?_, ?_⟩
        · exact List.take_prefix _ _
        · simp only [Spec.outItems, Ret.items, Spec.cursorAfter]
          cases (List.take n.toNat (v :: vs)).getLast? <;> rfl

omit [BEq V] [ReflBEq V] in
theorem Spec.unread_above (key : V → K) (items : List V) (cur : Option V) :
    ∀ v ∈ Spec.unread key items cur, ∀ c, cur = some c → key c < key v := by
  rintro v hv c rfl
  simpa using (List.mem_filter.1 hv).2

omit [BEq V] [ReflBEq V] in
theorem Spec.unread_sorted {key : V → K} {items : List V} (cur : Option V)
    (h : items.Pairwise (fun v w => key v < key w)) :
    (Spec.unread key items cur).Pairwise (fun v w => key v < key w) := by
  cases cur with
  | none => exact h
  | some c => exact h.filter _

end S2P

namespace S2P
open Spec
variable {K V : Type}

theorem delivered_append (cfg : Nat → Cfg) (i : Nat) (a b : List (ChOp K V)) (x y : List (Py (Ret V)))
    (h : x.length = a.length) : delivered cfg i (a ++ b) (x ++ y) = delivered cfg i a x ++ delivered cfg i b y := by
  induction a generalizing x with
  | nil => cases x with
    | nil => rfl
    | cons => simp at h
  | cons op a ih => cases x with
    | nil => simp at h
    | cons o x => simp only [List.cons_append, delivered, ih x (by simpa using h), List.append_assoc]

theorem delivered_snoc (cfg : Nat → Cfg) (i : Nat) (a : List (ChOp K V)) (op : ChOp K V) (x : List (Py (Ret V)))
    (out : Py (Ret V)) (h : x.length = a.length) :
    delivered cfg i (a ++ [op]) (x ++ [out]) = delivered cfg i a x ++ handed cfg i op out := by
  rw [delivered_append _ _ _ _ _ _ h]; simp [delivered]

theorem appended_append (a b : List (ChOp K V)) : appended (a ++ b) = appended a ++ appended b := by
  induction a with
  | nil => rfl
  | cons op a ih => cases op <;> simp [appended, ih]

section
variable [LT K] [DecidableLT K] [BEq V]
theorem Ch.run_snoc (c : Ch K V) (a : List (ChOp K V)) (op : ChOp K V) :
    c.run (a ++ [op]) = (((c.run a).1.step op).1, (c.run a).2 ++ [((c.run a).1.step op).2]) := by
  rw [Ch.run_append]; rfl
end

variable [LinearOrder K]

/-- What a consuming or peeking call does on the reference. -/
theorem rdStep_reads (key : V → K) (kn : Py (Option K)) (items : List V) (cfg : Cfg) (cur : Option V) (o : RdOp K V)
    (ho : consumes cfg o ∨ peeks cfg o) :
    (consumes cfg o = true → outItems (rdStep key kn items cfg cur o).1 <+: unread key items cur ∧
      (rdStep key kn items cfg cur o).2 =
        (match (outItems (rdStep key kn items cfg cur o).1).getLast? with | some v => some v | none => cur)) ∧
    (consumes cfg o = false → (rdStep key kn items cfg cur o).2 = cur) := by
  have hr := read_prefix key items cur
  cases o with
  | read n p ig st =>
    simp only [consumes, rdStep, move]
    cases hp : p.getD false
    · simp; exact hr _ _ _
    · simp
  | nextMethod n p ig st =>
    simp only [consumes, rdStep, move]
    cases p
    · simp; exact hr _ _ _
    · simp
  | readForNext =>
    simp only [consumes, rdStep, move]
    cases hp : cfg.peek
    · simp; exact hr _ _ _
    · simp
  | range a b st p ig on le ge => simp [consumes, peeks] at ho; simp [consumes, rdStep, move, ho]
  | tail p ig on => simp [consumes, peeks] at ho; simp [consumes, rdStep, move, ho]
  | head p => simp [consumes, peeks] at ho; simp [consumes, rdStep, move, ho]
  | setLast v => simp [consumes, peeks] at ho
  | delLast => simp [consumes, peeks] at ho

variable [BEq V] [ReflBEq V] {key : V → K} {kn : Py (Option K)} {m : Option Nat} {cfg : Nat → Cfg}

theorem Ch.Sim.strict {c : Ch K V} {w : Window V} (h : Ch.Sim key kn m cfg c w) :
    w.items.Pairwise (fun v x => key v < key x) := by
  have := h.swf.strict
  rwa [h.items, h.key] at this

/-- Everything delivered from now on is above the cursor and increasing. -/
theorem delivered_increasing (i : Nat) (ops : List (ChOp K V)) (hops : OnlyReads cfg i ops) {c : Ch K V} {w : Window V}
    (h : Ch.Sim key kn m cfg c w) :
    (delivered cfg i ops (c.run ops).2).Pairwise (fun v x => key v < key x) ∧
    ∀ v ∈ delivered cfg i ops (c.run ops).2, ∀ x, w.cur i = some x → key x < key v := by
  induction ops generalizing c w with
  | nil => simp [delivered, Ch.run]
  | cons op ops ih =>
    obtain ⟨h1, h2⟩ := h.step op
    have hops' : OnlyReads cfg i ops := fun o ho => hops o (List.mem_cons_of_mem _ ho)
    obtain ⟨i1, i2⟩ := ih hops' h2
    simp only [Ch.run, delivered]
    rw [h1]
    by_cases hop : ∃ o, op = .rd i o
    · obtain ⟨o, rfl⟩ := hop
      obtain ⟨r1, r2⟩ := rdStep_reads key kn w.items (cfg i) (w.cur i) o (hops o (by simp))
      have hcur : ((w.step key kn m cfg (.rd i o)).1).cur i = (rdStep key kn w.items (cfg i) (w.cur i) o).2 := by
        simp [Window.step]
      have hout : (w.step key kn m cfg (.rd i o)).2 = (rdStep key kn w.items (cfg i) (w.cur i) o).1 := rfl
      rw [hcur] at i2
      simp only [handed, hout, true_and]
      cases hcons : consumes (cfg i) o with
      | false =>
        rw [r2 hcons] at i2
        simpa using ⟨i1, i2⟩
      | true =>
        obtain ⟨p1, p2⟩ := r1 hcons
        simp only [if_true]
        generalize hO : outItems (rdStep key kn w.items (cfg i) (w.cur i) o).1 = O at p1 p2 ⊢
        have hOs : O.Pairwise (fun v x => key v < key x) := (unread_sorted _ h.strict).sublist p1.sublist
        have hOa : ∀ v ∈ O, ∀ x, w.cur i = some x → key x < key v :=
          fun v hv => unread_above key _ _ v (p1.subset hv)
        have hlast : ∀ v ∈ O, ∃ z, O.getLast? = some z ∧ key v ≤ key z := by
          intro v hv
          obtain ⟨z, hz⟩ : ∃ z, O.getLast? = some z := by
            cases hq : O.getLast? with
            | none => simp at hq; subst hq; simp at hv
            | some z => exact ⟨z, rfl⟩
          refine ⟨z, hz, ?_⟩
          obtain ⟨pre, rfl⟩ := List.getLast?_eq_some_iff.1 hz
          rcases List.mem_append.1 hv with hv | hv
          · exact le_of_lt ((List.pairwise_append.1 hOs).2.2 v hv z (by simp))
          · simp at hv; subst hv; exact le_refl _
        refine ⟨List.pairwise_append.2 ⟨hOs, i1, ?_⟩, ?_⟩
        · intro v hv x hx
          obtain ⟨z, hz, hle⟩ := hlast v hv
          rw [hz] at p2
          exact lt_of_le_of_lt hle (i2 x hx z p2)
        · intro v hv x hx
          rcases List.mem_append.1 hv with hv | hv
          · exact hOa v hv x hx
          · cases hO' : O.getLast? with
            | none => rw [hO'] at p2; exact i2 v hv x (p2.trans hx)
            | some z =>
              rw [hO'] at p2
              have hz := List.mem_of_getLast? hO'
              exact lt_trans (hOa z hz x hx) (i2 v hv z p2)
    · have hcur : ((w.step key kn m cfg op).1).cur i = w.cur i := by
        cases op with
        | append v => simp only [Window.step]; split <;> rfl
        | drop n => rfl
        | rd j o =>
          have : i ≠ j := by rintro rfl; exact hop ⟨o, rfl⟩
          simp [Window.step, this]
      have hh : handed cfg i op (w.step key kn m cfg op).2 = [] := by
        cases op with
        | append v => rfl
        | drop n => rfl
        | rd j o =>
          have : ¬ j = i := by rintro rfl; exact hop ⟨o, rfl⟩
          simp [handed, this]
      rw [hcur] at i2
      rw [hh]
      exact ⟨i1, i2⟩

theorem newest_suffix (m : Option Nat) (l : List V) : newest m l <:+ l := by
  cases m with
  | none => exact List.suffix_refl _
  | some m => exact List.drop_suffix _ _

/-- Invariant of the no-gap theorem. -/
theorem no_gap_inv (i : Nat) (ops : List (ChOp K V)) (hops : OnlyReads cfg i ops)
    (hinc : (appended ops).Pairwise (fun v x => key v < key x))
    (hover : ∀ k, (appended (ops.take k)).length ≤ (Ch.run (Ch.init key kn m cfg) (ops.take k)).1.buf.items.length +
      (delivered cfg i (ops.take k) (Ch.run (Ch.init key kn m cfg) (ops.take k)).2).length) :
    let c := (Ch.run (Ch.init key kn m cfg) ops).1
    let D := delivered cfg i ops (Ch.run (Ch.init key kn m cfg) ops).2
    c.buf.items <:+ appended ops ∧ (c.readers i).lastItem = D.getLast? ∧ D <+: appended ops ∧
      D ++ unread key c.buf.items (c.readers i).lastItem = appended ops := by
  -- the last part follows from the others
  have fin : ∀ (A D items : List V), A.Pairwise (fun v x => key v < key x) → items <:+ A → D <+: A →
      A.length ≤ items.length + D.length → D ++ unread key items D.getLast? = A := by
    intro A D items hA hs hp hl
    obtain ⟨pre, rfl⟩ := hs
    have hd : items = (pre ++ items).drop pre.length := by simp
    have hpl : pre.length ≤ D.length := by simp at hl; omega
    have hu : unread key items D.getLast? = (pre ++ items).drop D.length := by
      cases hD : D.getLast? with
      | none => simp at hD; subst hD; simp at hpl; subst hpl; simp [unread]
      | some z =>
        have h0 : 0 < D.length := by rw [List.length_pos_iff]; rintro rfl; simp at hD
        have hz : (pre ++ items)[D.length - 1]? = some z := by
          obtain ⟨t, ht⟩ := hp
          rw [← ht, List.getElem?_append_left (by omega), ← List.getLast?_eq_getElem?, hD]
        have := filter_above hA hz pre.length
        rw [← hd] at this
        simp only [unread]
        rw [this]
        congr 1
        omega
    rw [hu]
    obtain ⟨t, ht⟩ := hp
    rw [← ht]; simp
  induction ops using List.reverseRecOn with
  | nil => exact ⟨List.suffix_refl _, rfl, List.nil_prefix, by simp [delivered, unread, appended, Ch.run, Ch.init, SD.empty, Reader.init]⟩
  | append_singleton ops op ih =>
    have hops' : OnlyReads cfg i ops := fun o ho => hops o (by simp [ho])
    have hinc' : (appended ops).Pairwise (fun v x => key v < key x) := by
      rw [appended_append] at hinc; exact (List.pairwise_append.1 hinc).1
    have hover' : ∀ k, (appended (ops.take k)).length ≤ (Ch.run (Ch.init key kn m cfg) (ops.take k)).1.buf.items.length +
      (delivered cfg i (ops.take k) (Ch.run (Ch.init key kn m cfg) (ops.take k)).2).length := by
      intro k
      by_cases hk : k ≤ ops.length
      · have := hover k; rwa [List.take_append_of_le_length hk] at this
      · have := hover ops.length
        rw [List.take_left'] at this
        · rwa [List.take_of_length_le (by omega)]
        · rfl
    have hfin := hover (ops.length + 1)
    rw [List.take_of_length_le (by simp)] at hfin
    obtain ⟨hsuf, hcur, hpre, hall⟩ := ih hops' hinc' hover'
    have hlen := Ch.run_length (Ch.init key kn m cfg) ops
    have hsim := ((Ch.Sim.init key kn m cfg).run ops).2
    rw [hsim.self] at hsim
    rw [Ch.run_snoc] at hfin ⊢
    dsimp only at hsuf hcur hpre hall hfin ⊢
    rw [delivered_snoc _ _ _ _ _ _ hlen] at hfin ⊢
    generalize hc : (Ch.run (Ch.init key kn m cfg) ops).1 = c at hsuf hcur hpre hall hfin hsim ⊢
    generalize delivered cfg i ops (Ch.run (Ch.init key kn m cfg) ops).2 = D at hcur hpre hall hfin ⊢
    obtain ⟨s1, s2⟩ := hsim.step op
    rw [s1] at hfin ⊢
    -- it is enough to show the first three parts
    suffices H : (c.step op).1.buf.items <:+ appended (ops ++ [op]) ∧
        ((c.step op).1.readers i).lastItem = (D ++ handed cfg i op (c.window.step key kn m cfg op).2).getLast? ∧
        D ++ handed cfg i op (c.window.step key kn m cfg op).2 <+: appended (ops ++ [op]) by
      obtain ⟨a, b, d⟩ := H
      refine ⟨a, b, d, ?_⟩
      rw [b]
      exact fin _ _ _ hinc a d hfin
    rw [appended_append] at hinc ⊢
    rw [s2.items, s2.cur i]
    cases op with
    | append v =>
      have hmay : mayAppend key c.window.items v = true := by
        unfold mayAppend
        cases hl : c.window.items.getLast? with
        | none => rfl
        | some x =>
          have hx : x ∈ appended ops := hsuf.subset (List.mem_of_getLast? hl)
          simpa using (List.pairwise_append.1 hinc).2.2 x hx v (by simp [appended])
      simp only [Window.step, hmay, if_true, handed, List.append_nil, appended]
      refine ⟨(newest_suffix _ _).trans ?_, hcur, hpre.trans (List.prefix_append _ _)⟩
      obtain ⟨t, ht⟩ := hsuf
      exact ⟨t, by rw [← ht]; simp [Ch.window]⟩
    | drop n =>
      simp only [Window.step, handed, List.append_nil, appended]
      exact ⟨(List.drop_suffix _ _).trans hsuf, hcur, hpre⟩
    | rd j o =>
      simp only [Window.step, handed, List.append_nil, appended]
      refine ⟨hsuf, ?_⟩
      by_cases hj : j = i
      · subst hj
        obtain ⟨r1, r2⟩ := rdStep_reads key kn c.window.items (cfg j) (c.window.cur j) o (hops o (by simp))
        simp only [if_true, true_and]
        cases hcons : consumes (cfg j) o with
        | false =>
          rw [r2 hcons]
          simpa using ⟨hcur, hpre⟩
        | true =>
          obtain ⟨p1, p2⟩ := r1 hcons
          rw [p2]
          simp only [if_true]
          generalize outItems (rdStep key kn c.window.items (cfg j) (c.window.cur j) o).1 = O at p1 ⊢
          refine ⟨?_, ?_⟩
          · rw [List.getLast?_append]
            cases O.getLast? with
            | none => exact hcur
            | some z => rfl
          · rw [← hall]
            exact (List.prefix_append_right_inj D).2 p1
      · have : ¬ i = j := fun h => hj h.symm
        simp only [this, hj, if_false, false_and, List.append_nil]
        exact ⟨hcur, hpre⟩

/-- Without a bound and without manual drops nothing ever leaves the buffer. -/
theorem unbounded_items (ops : List (ChOp K V)) (hd : ∀ n, .drop n ∉ ops)
    (hinc : (appended ops).Pairwise (fun v w => key v < key w)) :
    (Ch.run (Ch.init key kn none cfg) ops).1.buf.items = appended ops := by
  induction ops using List.reverseRecOn with
  | nil => rfl
  | append_singleton ops op ih =>
    rw [appended_append] at hinc ⊢
    have ih := ih (fun n hn => hd n (by simp [hn])) (List.pairwise_append.1 hinc).1
    have hsim := ((Ch.Sim.init key kn none cfg).run ops).2
    rw [hsim.self] at hsim
    rw [Ch.run_snoc]
    dsimp only
    have s2 := (hsim.step op).2
    rw [s2.items]
    cases op with
    | append v =>
      have hmay : mayAppend key (Ch.run (Ch.init key kn none cfg) ops).1.window.items v = true := by
        unfold mayAppend
        cases hl : (Ch.run (Ch.init key kn none cfg) ops).1.window.items.getLast? with
        | none => rfl
        | some x =>
          have hx : x ∈ appended ops := by rw [← ih]; exact List.mem_of_getLast? hl
          simpa using (List.pairwise_append.1 hinc).2.2 x hx v (by simp [appended])
      simp only [Window.step, hmay, if_true, newest, appended]
      rw [← ih]; rfl
    | drop n => exact absurd (by simp) (hd n)
    | rd j o => simp only [Window.step, appended, List.append_nil]; exact ih

end S2P
