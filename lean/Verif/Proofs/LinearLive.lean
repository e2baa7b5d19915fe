import Verif.Proofs.LinearBal
/- Calls return: no endless run of statements, and no deadlock among calls that do not take the reader lock again inside their section. -/
namespace S2P

/-- Accesses and lock operations a body still makes, on data that stay as they are. -/
def Prog.cost {D α : Type} (d : D) : Prog D α → Nat
  | .ret _ => 0
  | .look k => 1 + (k d).cost d
  | .lock k => 1 + k.cost d
  | .unlock k => 1 + k.cost d

/-- A body that does not touch the lock. -/
def Prog.Flat {D α : Type} : Prog D α → Prop
  | .ret _ => True
  | .look k => ∀ d, (k d).Flat
  | .lock _ => False
  | .unlock _ => False

theorem Prog.flat_bind {D α β : Type} (p : Prog D α) (f : α → Prog D β) (h : p.Flat) (hf : ∀ a, (f a).Flat) : (p.bind f).Flat := by
  induction p with
  | ret a => exact hf a
  | look k ih => exact fun d => ih d (h d)
  | lock k ih => exact h.elim
  | unlock k ih => exact h.elim

namespace PM
variable {K V α β : Type}

/-- A body that does not touch the lock. -/
def Flat (p : PM K V α) : Prop := (ExceptT.run p).Flat

theorem flat_pure (a : α) : Flat (pure a : PM K V α) := trivial
theorem flat_throw (e : PyErr) : Flat (throw e : PM K V α) := trivial
theorem flat_ask (f : SD K V → Py α) : Flat (ask f) := fun _ => trivial
theorem flat_ofPy (x : Py α) : Flat (ofPy x : PM K V α) := trivial

theorem flat_bind {p : PM K V α} {f : α → PM K V β} (hp : Flat p) (hf : ∀ a, Flat (f a)) : Flat (p >>= f) := by
  refine Prog.flat_bind _ _ hp ?_
  intro x
  cases x with
  | ok a => exact hf a
  | error e => trivial

theorem flat_except {p : PM K V α} {h : PyErr → PM K V α} (hp : Flat p) (hh : ∀ e, Flat (h e)) : Flat (except p h) := by
  refine Prog.flat_bind _ _ hp ?_
  intro x
  cases x with
  | ok a => trivial
  | error e => exact hh e

theorem flat_ite {c : Prop} [Decidable c] {p q : PM K V α} (hp : Flat p) (hq : Flat q) : Flat (if c then p else q) := by split <;> assumption

variable [LT K] [DecidableLT K]

theorem flat_bisectLoop (g : K → Py Bool) (fuel lo hi : Nat) : Flat (bisectLoop g fuel lo hi : PM K V Nat) := by
  induction fuel generalizing lo hi with
  | zero => exact flat_pure _
  | succ n ih =>
    unfold bisectLoop
    exact flat_ite (flat_bind (flat_ask _) fun m => flat_bind (flat_ofPy _) fun b => flat_ite (ih _ _) (ih _ _)) (flat_pure _)

end PM

/-- Applies the lemmas above. -/
macro "flat" : tactic => `(tactic| repeat' first
  | exact PM.flat_pure _ | exact PM.flat_throw _ | exact PM.flat_ask _ | exact PM.flat_ofPy _ | exact PM.flat_bisectLoop _ _ _ _ | assumption
  | apply PM.flat_bind | apply PM.flat_except | apply PM.flat_ite | split | intro _)

namespace PM
variable {K V α β : Type} [LT K] [DecidableLT K]

theorem flat_findGt (k : Option K) : Flat (findGt k : PM K V V) := by unfold findGt bisectRight len; flat
theorem flat_findGe (k : Option K) : Flat (findGe k : PM K V V) := by unfold findGe bisectLeft len; flat
theorem flat_findLe (k : Option K) : Flat (findLe k : PM K V V) := by unfold findLe bisectRight; flat
theorem flat_findLastGt (k : Option K) : Flat (findLastGt k : PM K V V) := by unfold findLastGt; flat
theorem flat_index [BEq V] (v : V) : Flat (index v : PM K V Nat) := by unfold index keyOf bisectLeft bisectRight; flat
theorem flat_range (a b : Option K) (st : Option Int) : Flat (range a b st : PM K V (List V)) := by unfold range bisectLeft bisectRight rangeByIndex; flat

end PM

namespace Reader
variable {K V : Type} [LT K] [DecidableLT K]
open PM

theorem flat_setLastP (r : Reader K V) (v : V) : Flat (r.setLastP v) := by unfold setLastP keyOf; flat

theorem flat_nextP (r : Reader K V) (ignore : Bool) : Flat (r.nextP ignore) := by
  unfold nextP getItem
  repeat' first | exact flat_findGt _ | exact PM.flat_pure _ | exact PM.flat_throw _ | exact PM.flat_ask _ | apply PM.flat_bind | apply PM.flat_except | apply PM.flat_ite | split | intro _

theorem flat_readP [BEq V] (r : Reader K V) (n : Int) (p i st : Bool) : Flat (r.readP n p i st) := by
  unfold readP len rangeByIndex
  repeat' first | exact flat_nextP _ _ | exact flat_setLastP _ _ | exact flat_index _ | exact PM.flat_pure _ | exact PM.flat_throw _ | exact PM.flat_ask _ | exact PM.flat_ofPy _ | apply PM.flat_bind | apply PM.flat_except | apply PM.flat_ite | split | intro _

theorem flat_roundStartP (a : K) (le : Bool) : Flat (roundStartP a le : PM K V K) := by
  unfold roundStartP keyOf
  repeat' first | exact flat_findLe _ | exact PM.flat_pure _ | exact PM.flat_throw _ | exact PM.flat_ask _ | apply PM.flat_bind | apply PM.flat_except | apply PM.flat_ite | split | intro _

theorem flat_roundStopP (b : K) (i ge : Bool) : Flat (roundStopP b i ge : PM K V (Option K)) := by
  unfold roundStopP keyOf
  repeat' first | exact flat_findGe _ | exact PM.flat_pure _ | exact PM.flat_throw _ | exact PM.flat_ask _ | apply PM.flat_bind | apply PM.flat_except | apply PM.flat_ite | split | intro _

theorem flat_rangeP [BEq V] (r : Reader K V) (a b : K) (st : Option Int) (p i le ge : Bool) : Flat (r.rangeP a b st p i false le ge) := by
  have h : r.rangeStartP a i false = pure (some a) := rfl
  unfold rangeP rangeEndP
  rw [h]
  repeat' first | exact flat_roundStartP _ _ | exact flat_roundStopP _ _ _ | exact flat_range _ _ _ | exact flat_setLastP _ _ | exact PM.flat_pure _ | exact PM.flat_throw _ | apply PM.flat_bind | apply PM.flat_ite | split | intro _

theorem flat_tailP (r : Reader K V) (p i o : Bool) : Flat (r.tailP p i o) := by
  unfold tailP tailItemP getItem
  repeat' first | exact flat_findLastGt _ | exact flat_setLastP _ _ | exact PM.flat_pure _ | exact PM.flat_throw _ | exact PM.flat_ask _ | apply PM.flat_bind | apply PM.flat_except | apply PM.flat_ite | split | intro _

theorem flat_headP (r : Reader K V) (p : Bool) : Flat (r.headP p) := by
  unfold headP getItem
  repeat' first | exact flat_setLastP _ _ | exact PM.flat_pure _ | exact PM.flat_ask _ | apply PM.flat_bind | apply PM.flat_ite | split | intro _

theorem flat_finish (r : Reader K V) (p : PM K V (Ret V × Reader K V)) (h : Flat p) : (r.finish p).Flat :=
  Prog.flat_bind _ _ h fun _ => trivial

end Reader

namespace LM
open RW
variable {K V : Type} [LinearOrder K] [BEq V]
variable {s s' : LM K V} {i : Nat} {p : Pend K V} {t : Th (SD K V) (WOp V)} {d0 : SD K V} {r0 : Nat → Reader K V}

omit [LinearOrder K] [BEq V] in
/-- `range(..., only_new_items=True)`, the one call that calls `read` inside its own section. -/
def nests : ChOp K V → Prop
  | .rd _ (.range _ _ _ _ _ onlyNew _ _) => onlyNew = true
  | _ => False

theorem flat_prog (r : Nat) (R : Reader K V) (op : RdOp K V) (h : ¬ nests (.rd r op : ChOp K V)) : (R.prog op).Flat := by
  cases op with
  | read n p i st => exact Reader.flat_finish _ _ (Reader.flat_readP _ _ _ _ _)
  | nextMethod n p i st => exact Reader.flat_finish _ _ (Reader.flat_readP _ _ _ _ _)
  | readForNext => exact Reader.flat_finish _ _ (Reader.flat_readP _ _ _ _ _)
  | range a b st p i o le ge =>
    simp only [nests, Bool.not_eq_true] at h
    subst h
    exact Reader.flat_finish _ _ (Reader.flat_rangeP _ _ _ _ _ _ _ _)
  | tail p i o => exact Reader.flat_finish _ _ (Reader.flat_tailP _ _ _ _)
  | head p => exact Reader.flat_finish _ _ (Reader.flat_headP _ _)
  | setLast v => exact Reader.flat_finish _ _ (PM.flat_bind (Reader.flat_setLastP _ _) fun _ => PM.flat_pure _)
  | delLast => trivial

/-- What a statement does to the threads and to the rest of the call. -/
theorem go_shape (hs : s.step (.go i) = some s') : ∃ p t, s.pend i = some p ∧ s.m.th[i]? = some t ∧ (∀ j, j ≠ i → s'.pend j = s.pend j) ∧
    ((s.m.step bufBody (.go i) = some s'.m ∧ (s'.pend i = none ∨ ∃ p', s'.pend i = some p' ∧ p'.call = p.call ∧ (p'.rest = p.rest ∨ p.rest = .unlock p'.rest))) ∨
      (∃ k p', t.pc = .rCS ∧ s.m.step bufBody (.look i) = some s'.m ∧ p.rest = .look k ∧ s'.pend i = some p' ∧ p'.call = p.call ∧ p'.rest = k s.m.data) ∨
      (∃ k p', t.pc = .rCS ∧ s.m.step bufBody (.nest i) = some s'.m ∧ p.rest = .lock k ∧ s'.pend i = some p' ∧ p'.call = p.call ∧ p'.rest = k)) := by
  have hW : ∀ {p t op}, s.pend i = some p → s.goW i p op t = some s' → (∀ j, j ≠ i → s'.pend j = s.pend j) ∧
      s.m.step bufBody (.go i) = some s'.m ∧ (s'.pend i = none ∨ ∃ p', s'.pend i = some p' ∧ p'.call = p.call ∧ (p'.rest = p.rest ∨ p.rest = .unlock p'.rest)) := by
    intro p t op hp hs
    simp only [goW] at hs
    split at hs
    · simp at hs
    rename_i m' hm
    split at hs
    · injection hs with hs; subst hs
      exact ⟨fun j hj => by simp only [setPend, hj, if_false], hm, .inr ⟨{ p with out := some (wout s.m.data op) }, by simp only [setPend, if_true], rfl, .inl rfl⟩⟩
    · split at hs
      · split at hs
        · injection hs with hs; subst hs
          exact ⟨fun j hj => by simp only [setPend, hj, if_false], hm, .inr ⟨{ p with eff := true }, by simp only [setPend, if_true], rfl, .inl rfl⟩⟩
        · simp at hs
      · injection hs with hs; subst hs
        obtain ⟨e1, e2, e3⟩ := arrive_facts s i p m' hp
        exact ⟨e2, by rw [e1]; exact hm, e3.imp id fun e => ⟨p, e, rfl, .inl rfl⟩⟩
  simp only [step] at hs
  split at hs
  · rename_i p t hp ht
    refine ⟨p, t, hp, ht, ?_⟩
    split at hs
    · obtain ⟨h1, h2⟩ := hW hp hs; exact ⟨h1, .inl h2⟩
    · obtain ⟨h1, h2⟩ := hW hp hs; exact ⟨h1, .inl h2⟩
    · simp only [goR] at hs
      split at hs
      · rename_i hpc
        split at hs
        · rename_i k hk
          simp only [Option.map_eq_some_iff] at hs
          obtain ⟨m', hm, rfl⟩ := hs
          exact ⟨fun j hj => by simp only [setPend, hj, if_false], .inr (.inl ⟨k, { p with rest := k s.m.data }, hpc, hm, hk, by simp only [setPend, if_true], rfl, rfl⟩)⟩
        · rename_i k hk
          simp only [Option.map_eq_some_iff] at hs
          obtain ⟨m', hm, rfl⟩ := hs
          exact ⟨fun j hj => by simp only [setPend, hj, if_false], .inr (.inr ⟨k, { p with rest := k }, hpc, hm, hk, by simp only [setPend, if_true], rfl, rfl⟩)⟩
        · rename_i k hk
          split at hs
          · simp only [Option.map_eq_some_iff] at hs
            obtain ⟨m', hm, rfl⟩ := hs
            exact ⟨fun j hj => by simp only [setPend, hj, if_false], .inl ⟨hm, .inr ⟨{ p with rest := k }, by simp only [setPend, if_true], rfl, .inr hk⟩⟩⟩
          · simp at hs
        · rename_i x hk
          split at hs
          · simp only [Option.map_eq_some_iff] at hs
            obtain ⟨m', hm, rfl⟩ := hs
            exact ⟨fun j hj => by simp only [setPend, hj, if_false], .inl ⟨hm, .inr ⟨{ p with out := some x.1, eff := true }, by simp only [setPend, if_true], rfl, .inl rfl⟩⟩⟩
          · simp at hs
      · simp only [Option.map_eq_some_iff] at hs
        obtain ⟨m', hm, rfl⟩ := hs
        obtain ⟨e1, e2, e3⟩ := arrive_facts s i p m' hp
        exact ⟨e2, .inl ⟨by rw [e1]; exact hm, e3.imp id fun e => ⟨p, e, rfl, .inl rfl⟩⟩⟩
  · simp at hs

/-! ### No endless run -/

/-- Rank of a writer. -/
def wrank (t : Th (SD K V) (WOp V)) : Nat := if t.pc.reading then 0 else t.rank

/-- Accesses left in the call of thread `i`. -/
def left (s : LM K V) (i : Nat) : Nat := ((s.pend i).map fun p => p.rest.cost s.m.data).getD 0

/-- Accesses left in all calls. -/
def lefts (s : LM K V) : Nat := ((List.range s.m.th.length).map s.left).sum

def measure (s : LM K V) : (Nat × Nat) × Nat :=
  ((total wrank s.m.th, total (fun t => t.prog.length) s.m.th), total Th.rank s.m.th + 20 * s.lefts)

theorem sum_change {f g : Nat → Nat} {i : Nat} (h : ∀ j, j ≠ i → f j = g j) (n : Nat) (hi : i < n) :
    ((List.range n).map f).sum + g i = ((List.range n).map g).sum + f i := by
  induction n with
  | zero => omega
  | succ n ih =>
    simp only [List.range_succ, List.map_append, List.sum_append, List.map_cons, List.map_nil, List.sum_cons, List.sum_nil, Nat.add_zero]
    by_cases hn : i = n
    · subst hn
      have : (List.range i).map f = (List.range i).map g := List.map_congr_left fun j hj => h j (by have := List.mem_range.1 hj; omega)
      rw [this]; omega
    · have := ih (by omega)
      have := h n (by omega)
      omega

/-- Steps that keep the data. -/
theorem lefts_change (hlen : s'.m.th.length = s.m.th.length) (hd : s'.m.data = s.m.data) (ho : ∀ j, j ≠ i → s'.pend j = s.pend j) (hi : i < s.m.th.length) :
    s'.lefts + s.left i = s.lefts + s'.left i := by
  simp only [lefts, hlen]
  refine sum_change (fun j hj => ?_) _ hi
  simp only [left, ho j hj, hd]

theorem after_reading (body : WOp V → SD K V → List (SD K V → SD K V)) (d : SD K V) (h : t.pc.reading = true) :
    wrank (t.after body d) = 0 ∧ (t.after body d).prog = t.prog ∧ (t.after body d).rank < t.rank := by
  obtain ⟨pc, outer, op, prog, seen⟩ := t
  by_cases ho : outer = 0
  · subst ho
    cases pc <;> simp [PC.reading] at h <;> simp [Th.after, PC.next, Th.arrive, wrank, PC.reading, Th.rank, PC.rank]
  · cases pc <;> simp [PC.reading] at h <;> simp [Th.after, PC.next, Th.arrive, wrank, PC.reading, Th.rank, PC.rank, ho]
    omega

theorem after_rank (body : WOp V → SD K V → List (SD K V → SD K V)) (d : SD K V) (h : t.pc ≠ .idle) :
    (t.after body d).rank < t.rank := by
  obtain ⟨pc, outer, op, prog, seen⟩ := t
  by_cases ho : outer = 0
  · subst ho
    cases pc <;> simp at h <;> simp [Th.after, PC.next, Th.arrive, Th.rank, PC.rank]
  · cases pc <;> simp at h <;> simp [Th.after, PC.next, Th.arrive, Th.rank, PC.rank, ho] <;> omega

/-- Every statement gets closer to the end of the calls. -/
theorem step_measure (hs : s.step (.go i) = some s') : Prod.Lex (Prod.Lex (· < ·) (· < ·)) (· < ·) s'.measure s.measure := by
  obtain ⟨p, t, hp, ht, ho, hsh⟩ := go_shape hs
  have hlt : i < s.m.th.length := (List.getElem?_eq_some_iff.1 ht).1
  have third : ∀ {t' : Th (SD K V) (WOp V)}, s'.m.th = s.m.th.set i t' → s'.m.data = s.m.data → wrank t' = wrank t → t'.prog = t.prog →
      t'.rank + 20 * s'.left i < t.rank + 20 * s.left i → Prod.Lex (Prod.Lex (· < ·) (· < ·)) (· < ·) s'.measure s.measure := by
    intro t' hth hd h1 h2 h3
    have a1 := total_set wrank ht t'
    have a2 := total_set (fun t : Th (SD K V) (WOp V) => t.prog.length) ht t'
    have a3 := total_set Th.rank ht t'
    have a4 := lefts_change (s := s) (s' := s') (by rw [hth, List.length_set]) hd ho hlt
    simp only [h2] at a2
    have e1 : total wrank s'.m.th = total wrank s.m.th := by rw [hth]; omega
    have e2 : total (fun t : Th (SD K V) (WOp V) => t.prog.length) s'.m.th = total (fun t => t.prog.length) s.m.th := by rw [hth]; omega
    simp only [measure, e1, e2]
    refine Prod.Lex.right _ ?_
    rw [hth]
    omega
  rcases hsh with ⟨hm, hpend⟩ | ⟨k, p', hpc, hm, hk, hp', -, hr⟩ | ⟨k, p', hpc, hm, hk, hp', -, hr⟩
  · rcases step_go hm ht with ⟨f, fs, h1, h2, h3, -⟩ | ⟨h1, h2, h3, h4, -⟩
    · have a1 := total_set wrank ht { t with prog := fs }
      have a2 := total_set (fun t : Th (SD K V) (WOp V) => t.prog.length) ht { t with prog := fs }
      have e : wrank { t with prog := fs } = wrank t := rfl
      simp only [h2, List.length_cons] at a2
      have e1 : total wrank s'.m.th = total wrank s.m.th := by rw [h3]; omega
      simp only [measure, e1]
      refine Prod.Lex.left _ _ (Prod.Lex.right _ ?_)
      rw [h3]
      omega
    · by_cases hrd : t.pc.reading = true
      · obtain ⟨b1, b2, b3⟩ := after_reading bufBody s.m.data hrd
        refine third h3 h4 (by rw [b1]; simp [wrank, hrd]) b2 ?_
        have : s'.left i ≤ s.left i := by
          simp only [left, hp, h4]
          rcases hpend with e | ⟨p', e, -, e2 | e2⟩
          · simp [e]
          · simp [e, e2]
          · simp only [e, e2, Option.map_some, Option.getD_some, Prog.cost]; omega
        omega
      · have hw : wrank t = t.rank := by simp [wrank, hrd]
        have b := after_rank bufBody s.m.data h1
        have b' : wrank (t.after bufBody s.m.data) ≤ (t.after bufBody s.m.data).rank := by unfold wrank; split <;> omega
        have a1 := total_set wrank ht (t.after bufBody s.m.data)
        refine Prod.Lex.left _ _ (Prod.Lex.left _ _ ?_)
        rw [h3]
        omega
  · obtain ⟨-, h1, h2, -⟩ := step_look hm ht
    refine third h1 h2 rfl rfl ?_
    have e : Th.rank { t with seen := t.seen ++ [s.m.data] } = t.rank := rfl
    simp only [left, hp, hp', hk, hr, h2, Option.map_some, Option.getD_some, Prog.cost]
    omega
  · obtain ⟨-, h1, h2, -⟩ := step_nest hm ht
    refine third h1 h2 (by simp [wrank, hpc, PC.reading]) rfl ?_
    simp only [left, hp, hp', hk, hr, h2, Option.map_some, Option.getD_some, Prog.cost, Th.rank, hpc, PC.rank]
    omega

theorem go_wf : WellFounded (fun s' s : LM K V => ∃ i, s.step (.go i) = some s') := by
  refine Subrelation.wf (r := InvImage (Prod.Lex (Prod.Lex (· < ·) (· < ·)) (· < ·)) measure) ?_
    (InvImage.wf _ (Prod.lex (Prod.lex Nat.lt_wfRel Nat.lt_wfRel) Nat.lt_wfRel).wf)
  intro m' m ⟨i, h⟩
  exact step_measure h

/-! ### No deadlock -/

/-- Calls that do not nest are in one section at most, and will stay so. -/
structure LiveInv (s : LM K V) : Prop where
  thread : ∀ i p, s.pend i = some p → ∃ t, s.m.th[i]? = some t
  flat : ∀ i p t, s.pend i = some p → s.m.th[i]? = some t → ¬ nests p.call → p.rest.Flat ∧ t.outer = 0

theorem after_outer (body : WOp V → SD K V → List (SD K V → SD K V)) (d : SD K V) (h : t.outer = 0) : (t.after body d).outer = 0 := by
  obtain ⟨pc, outer, op, prog, seen⟩ := t
  simp only at h; subst h
  cases pc <;> simp [Th.after, PC.next, Th.arrive]

theorem LiveInv.put (h : LiveInv s) {t' : Th (SD K V) (WOp V)} (hi : i < s.m.th.length) (hth : s'.m.th = s.m.th.set i t') (hpend : ∀ j, j ≠ i → s'.pend j = s.pend j)
    (hok : ∀ p, s'.pend i = some p → ¬ nests p.call → p.rest.Flat ∧ t'.outer = 0) : LiveInv s' := by
  constructor
  · intro j p hp
    by_cases hj : j = i
    · subst hj; exact ⟨t', by rw [hth, List.getElem?_set_self hi]⟩
    · rw [hpend j hj] at hp
      obtain ⟨t, ht⟩ := h.thread j p hp
      exact ⟨t, by rw [hth, List.getElem?_set_ne (Ne.symm hj)]; exact ht⟩
  · intro j p t hp ht hn
    rw [hth] at ht
    rcases set_get ht with ⟨rfl, rfl⟩ | ⟨hj, ht⟩
    · exact hok p hp hn
    · rw [hpend j hj] at hp; exact h.flat j p t hp ht hn

theorem live_step (hI : Inv s.m) (h : LiveInv s) {a : LAct K V} (hs : s.step a = some s') : LiveInv s' := by
  cases a with
  | call i c =>
    simp only [step] at hs
    split at hs
    · simp at hs
    have idle : ∀ {t}, s.m.th[i]? = some t → t.pc = .idle → t.outer = 0 := fun ht hp => hI.outer _ (List.mem_of_getElem? ht) (by rw [hp]; rfl)
    cases c with
    | append v | drop n =>
      simp only [Option.map_eq_some_iff] at hs
      obtain ⟨m', hm, rfl⟩ := hs
      obtain ⟨t, ht, hp, h1, h2, h3⟩ := step_beginW hm
      refine h.put (i := i) (List.getElem?_eq_some_iff.1 ht).1 h1 (fun j hj => by simp only [invoke, setPend, hj, if_false]) ?_
      intro p hq _
      simp only [invoke, setPend, if_true, Option.some.injEq] at hq
      subst hq
      have := idle ht hp
      exact ⟨trivial, this⟩
    | rd r op =>
      have body : ∀ {m' : M (SD K V) (WOp V)}, s.m.step bufBody (.beginRead i) = some m' → LiveInv (s.invoke i (.rd r op) ((s.readers r).prog op) m') := by
        intro m' hm
        obtain ⟨t, ht, hp, h1, h2, h3⟩ := step_begin hm
        refine h.put (i := i) (List.getElem?_eq_some_iff.1 ht).1 h1 (fun j hj => by simp only [invoke, setPend, hj, if_false]) ?_
        intro p hq hn
        simp only [invoke, setPend, if_true, Option.some.injEq] at hq
        subst hq
        have := idle ht hp
        exact ⟨flat_prog _ _ _ hn, this⟩
      cases op with
      | setLast v | delLast =>
        simp only [Option.some.injEq] at hs
        subst hs
        exact ⟨h.thread, h.flat⟩
      | read | nextMethod | readForNext | range | tail | head =>
        simp only [Option.map_eq_some_iff] at hs
        obtain ⟨m', hm, rfl⟩ := hs
        exact body hm
  | go i =>
    obtain ⟨p, t, hp, ht, ho, hsh⟩ := go_shape hs
    have hlt : i < s.m.th.length := (List.getElem?_eq_some_iff.1 ht).1
    have hf := h.flat i p t hp ht
    rcases hsh with ⟨hm, hpend⟩ | ⟨k, p', hpc, hm, hk, hp', hc, hr⟩ | ⟨k, p', hpc, hm, hk, hp', hc, hr⟩
    · have pok : ∀ q, s'.pend i = some q → ¬ nests q.call → q.rest.Flat ∧ t.outer = 0 := by
        intro q hq hn
        rcases hpend with e | ⟨p', e, e1, e2 | e2⟩
        · rw [e] at hq; simp at hq
        · rw [e] at hq; injection hq with hq; subst hq
          rw [e2]; exact hf (by rw [← e1]; exact hn)
        · rw [e] at hq; injection hq with hq; subst hq
          have := (hf (by rw [← e1]; exact hn)).1
          rw [e2] at this
          exact this.elim
      rcases step_go hm ht with ⟨f, fs, h1, h2, h3, -⟩ | ⟨h1, h2, h3, h4, -⟩
      · exact h.put hlt h3 ho pok
      · exact h.put hlt h3 ho fun q hq hn => ⟨(pok q hq hn).1, after_outer _ _ (pok q hq hn).2⟩
    · obtain ⟨-, h1, h2, -⟩ := step_look hm ht
      refine h.put hlt h1 ho ?_
      intro q hq hn
      rw [hp'] at hq; injection hq with hq; subst hq
      have := hf (by rw [← hc]; exact hn)
      rw [hk] at this
      exact ⟨by rw [hr]; exact this.1 _, this.2⟩
    · obtain ⟨-, h1, h2, -⟩ := step_nest hm ht
      refine h.put hlt h1 ho ?_
      intro q hq hn
      rw [hp'] at hq; injection hq with hq; subst hq
      have := hf (by rw [← hc]; exact hn)
      rw [hk] at this
      exact this.1.elim

theorem live_exec (as : List (LAct K V)) (hX : ∀ r, Spec.NonOverlapping (onReader r) s'.hist) (hA : AInv d0 r0 s) (hH : HInv s) (hL : LiveInv s) (hs : s.exec as = some s') :
    LiveInv s' := by
  induction as generalizing s with
  | nil => simp only [exec, Option.some.injEq] at hs; subst hs; exact hL
  | cons a as ih =>
    simp only [exec] at hs
    split at hs
    · rename_i s1 h1
      have hX1 : ∀ r, Spec.NonOverlapping (onReader r) s1.hist := by
        obtain ⟨l, e⟩ := exec_hist as hs
        intro r
        have := hX r
        rw [e] at this
        exact nonOverlapping_prefix this
      obtain ⟨h2, h3⟩ := inv_step hX1 hA hH h1
      exact ih h2 h3 (live_step hA.rw hL h1) hs
    · simp at hs

/-- If no call that nests is in progress, some thread with a call in progress can go on. -/
theorem no_deadlock (hA : AInv d0 r0 s) (hB : BalInv s) (hL : LiveInv s) (hn : ∀ i p, s.pend i = some p → ¬ nests p.call)
    (hp : s.pend i = some p) : ∃ j s', s.step (.go j) = some s' := by
  obtain ⟨t, ht⟩ := hL.thread i p hp
  have hbusy : ∃ t ∈ s.m.th, t.pc ≠ .idle := by
    refine ⟨t, List.mem_of_getElem? ht, fun hpc => ?_⟩
    have hok := hA.thr i t ht
    rw [hp] at hok
    obtain ⟨id, c, rest, out, eff⟩ := p
    cases c with
    | rd r op => have := hok.1; rw [hpc] at this; simp [PC.reading] at this
    | append v | drop n =>
      obtain ⟨op, -, -, h1, h2⟩ := hok
      cases eff with
      | true => have := h2 rfl; rw [hpc] at this; simp at this
      | false => have := (h1 rfl).1; rw [hpc] at this; simp at this
  have hout : s.m.outers = 0 := by
    refine total_zero fun u hu => ?_
    obtain ⟨j, hj⟩ := List.getElem?_of_mem hu
    cases hq : s.pend j with
    | none =>
      have := hA.thr j u hj
      rw [hq] at this
      have : u.pc = .idle := this
      exact hA.rw.outer _ hu (by rw [this]; rfl)
    | some q => exact (hL.flat j q u hq hj (hn j q hq)).2
  obtain ⟨j, m', hj⟩ := hA.rw.noDeadlock bufBody hout hbusy
  have hthr : ∃ u, s.m.th[j]? = some u := by
    cases hu : s.m.th[j]? with
    | none => simp [M.step, hu] at hj
    | some u => exact ⟨u, rfl⟩
  obtain ⟨u, hu⟩ := hthr
  cases hq : s.pend j with
  | none =>
    have := hA.thr j u hu
    rw [hq] at this
    have : u.pc = .idle := this
    simp [M.step, hu, M.go, this, Lk.stmt] at hj
  | some q =>
    have := go_iff hA hB hq hu
    rw [hj] at this
    exact ⟨j, Option.isSome_iff_exists.1 this⟩

end LM
end S2P
