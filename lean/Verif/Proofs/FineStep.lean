import Verif.Proofs.Fine
import Verif.Proofs.StreamBuffer
/-
C163, continued: what the steps of Model/StreamBuffer.lean do to the calls the threads are about to make.
-/
namespace S2P
variable {K V I : Type} [LinearOrder K] [BEq V]

namespace Cons

/-- Contents, calls, outcomes. -/
def past (c : Cons K V) : Ch K V × List (ChOp K V) × List (Py (Ret V)) := (c.ch, c.ops, c.outs)

theorem call_past (c : Cons K V) (op : ChOp K V) : (c.call op).1.past = ((c.ch.step op).1, c.ops ++ [op], c.outs ++ [(c.ch.step op).2]) := rfl

theorem goto_past (c : Cons K V) (i : Nat) (p : CPC) : (c.goto i p).past = c.past := rfl
theorem emit_past (c : Cons K V) (i : Nat) (e : CEvt V) : (c.emit i e).past = c.past := rfl

theorem callWith_eq (c : Cons K V) (op : ChOp K V) : c.callWith op (c.ch.step op).2 = (c.call op).1 := rfl

/-- A step of consumer `i`. -/
theorem go_facts {c c' : Cons K V} {i : Nat} (h : c.go i = some c') : (∀ j, j ≠ i → c'.pc j = c.pc j) ∧
    (match c.asks i with | some r => c'.past = (c.call (.rd i r)).1.past | none => c'.past = c.past) := by
  unfold go at h
  unfold asks
  cases hp : c.pc i <;> simp only [hp] at h ⊢
  case idle => simp at h
  case nextRead | iterRead | blkRead =>
    split at h <;> rename_i he <;>
      (injection h with h; subst h; refine ⟨fun j hj => ?_, ?_⟩
       · have : ∀ op, (c.call op).1.pc = c.pc := fun _ => rfl
         simp [goto, emit, hj]
         first | (rw [← Prod.fst_eq_of_eq_mk he] ; rfl) | (have := congrArg Prod.fst he; simp only at this; rw [← this]; rfl)
       · have := congrArg Prod.fst he; simp only at this
         rw [this]; rfl)
  all_goals
    first
    | (split at h <;> (injection h with h; subst h; exact ⟨fun j hj => by simp [goto, emit, hj], rfl⟩))
    | (injection h with h; subst h; exact ⟨fun j hj => by simp [goto, emit, hj], rfl⟩)

theorem go_with {c : Cons K V} {i : Nat} {r : RdOp K V} (h : c.asks i = some r) : c.go i = some (c.goWith i (.rd i r) (c.ch.step (.rd i r)).2) := by
  unfold asks at h
  cases hp : c.pc i <;> simp only [hp] at h <;> try (simp at h; done)
  all_goals
    injection h with h; subst h
    simp only [go, goWith, hp, call]
    generalize (c.ch.step _).2 = o
    rcases o with e | o
    · rfl
    · cases o <;> rfl

end Cons

namespace SB

/-- `w` is about to make call `op` on buffer `b`. -/
def Doing (s : SB K V I) (b : Nat) : Who → ChOp K V → Prop
  | .thr t, op => ∃ v, s.thr t = .storing b v ∧ op = .append v
  | .dropper c, op => ∃ k, s.drops c = some (b, k) ∧ op = .drop k
  | .cons i, op => ∃ x r, s.buf b = some x ∧ x.cons.asks i = some r ∧ op = .rd i r
  | .direct i, op => ∃ r, op = .rd i r

/-- The step in which it makes it. -/
def move (b : Nat) (op : ChOp K V) : Who → SBAct K V I
  | .thr t => .thr t
  | .dropper c => .dropGo c
  | .cons i => .rd b (.go i)
  | .direct _ => .rd b (.call op)

theorem effect_step {cfg : SBCfg K V} {s : SB K V I} {b : Nat} {w : Who} {op : ChOp K V} {x : Sess K V I} {o : Py (Ret V)} (h : s.Doing b w op) (hx : s.buf b = some x)
    (ho : (x.cons.ch.step op).2 = o) : s.step cfg (move b op w) = FSB.effect s b w op o ∧ (FSB.effect s b w op o).isSome = true := by
  subst ho
  cases w with
  | thr t =>
    obtain ⟨v, h, rfl⟩ := h
    simp only [move, step, thrGo, FSB.effect, h, hx, Cons.callWith_eq, Cons.call]
    cases (x.cons.ch.step (.append v)).2 <;> exact ⟨rfl, rfl⟩
  | dropper c =>
    obtain ⟨k, h, rfl⟩ := h
    simp only [move, step, FSB.effect, h, hx, Cons.callWith_eq]
    exact ⟨rfl, rfl⟩
  | cons i =>
    obtain ⟨x', r, hx', h, rfl⟩ := h
    rw [hx] at hx'; injection hx' with hx'; subst hx'
    have h' : ({ x.cons with stopped := s.flag x.evt } : Cons K V).asks i = some r := h
    simp only [move, step, FSB.effect, hx, CAct.isReaders, if_true, Cons.step, Cons.go_with h']
    exact ⟨trivial, rfl⟩
  | direct i =>
    obtain ⟨r, rfl⟩ := h
    simp only [move, step, FSB.effect, hx, CAct.isReaders, if_true, Cons.step]
    exact ⟨rfl, rfl⟩

/-- Steps of `w` itself that use its call up. -/
def own (b : Nat) (w : Who) (a : SBAct K V I) : Prop :=
  match w with
  | .thr t => a = .thr t ∨ ∃ e, a = .keyRaise t e
  | .dropper c => a = .dropGo c
  | .cons i => a = .rd b (.go i)
  | .direct _ => False

theorem cons_asks {cfg : Nat → Cfg} {c c' : Cons K V} {a : CAct K V} {i : Nat} {r : RdOp K V} (hs : c.step cfg a = some c') (ha : a ≠ .go i) (h : c.asks i = some r) :
    c'.asks i = some r := by
  have key : c'.pc i = c.pc i := by
    have hi : c.pc i ≠ .idle := by intro e; simp [Cons.asks, e] at h
    have hl : (c.pc i).canLeave = false := by
      unfold Cons.asks at h
      cases hp : c.pc i <;> simp [hp] at h <;> rfl
    cases a with
    | call op => simp only [Cons.step, Option.some.injEq] at hs; subst hs; rfl
    | setStop => simp only [Cons.step, Option.some.injEq] at hs; subst hs; rfl
    | go j =>
      have hj : i ≠ j := fun e => ha (by rw [e])
      exact (Cons.go_facts hs).1 i hj
    | callNext j | callIter j | callRead j =>
      simp only [Cons.step] at hs
      split at hs
      · rename_i hj
        have : i ≠ j := fun e => hi (by rw [e, hj])
        injection hs with hs; subst hs; simp [Cons.goto, this]
      · simp at hs
    | leave j =>
      simp only [Cons.step] at hs
      split at hs
      · rename_i hj
        have : i ≠ j := fun e => by rw [e, hj] at hl; cases hl
        injection hs with hs; subst hs; simp [Cons.goto, this]
      · simp at hs
  simpa [Cons.asks, key] using h

/-- What `w` is about to do changes by its own steps only. -/
theorem doing_step {cfg : SBCfg K V} {s s' : SB K V I} {a : SBAct K V I} {b : Nat} {w : Who} {op : ChOp K V} (hI : s.Inv) (hs : s.step cfg a = some s') (h : s.Doing b w op)
    (hw : ¬ own b w a) : s'.Doing b w op := by
  obtain ⟨h1, h2, h3, h4, h5, h6, h7, h9, h10, h11, h8⟩ := hI
  have hst := step_to hs
  clear hs
  cases w with
  | thr t =>
    obtain ⟨v, h, rfl⟩ := h
    refine ⟨v, ?_, rfl⟩
    by_cases hk : ∃ t' e, a = .keyRaise t' e
    · obtain ⟨t', e, rfl⟩ := hk
      have ht : t ≠ t' := fun ht => hw (.inr ⟨e, by rw [ht]⟩)
      cases hst
      simp only [say, setThr, if_neg ht]; exact h
    cases hst
    all_goals try simp only [say, setThr, setBuf, setEvent, setNext, setDrop, setInfo, newSess, running, own] at *
    all_goals first | assumption | exact absurd ⟨_, _, rfl⟩ hk | grind [PhaseOk]
  | dropper c =>
    obtain ⟨k, h, rfl⟩ := h
    refine ⟨k, ?_, rfl⟩
    cases hst
    all_goals try simp only [say, setThr, setBuf, setEvent, setNext, setDrop, setInfo, newSess, running, own] at *
    all_goals first | assumption | grind
  | cons i =>
    obtain ⟨x, r, hx, h, rfl⟩ := h
    suffices hh : ∃ x', s'.buf b = some x' ∧ x'.cons.asks i = some r by
      obtain ⟨x', h1, h2⟩ := hh; exact ⟨x', r, h1, h2, rfl⟩
    cases hst with
    | rd b' a y c ha hy hs =>
      by_cases hb : b = b'
      · subst hb
        rw [hx] at hy; injection hy with hy; subst hy
        refine ⟨{ x with cons := c }, by simp [setBuf], ?_⟩
        exact cons_asks hs (fun e => hw (by rw [e]; rfl)) h
      · exact ⟨x, by simp only [setBuf, if_neg hb]; exact hx, h⟩
    | bufOk info e hst he =>
      have : b ≠ s.n - 1 := by
        rintro rfl
        grind [PhaseOk]
      exact ⟨x, by simp only [setBuf, say, if_neg this]; exact hx, h⟩
    | stored t b' v y q hh hy hr | refused t b' v y q hh hy hr =>
      by_cases hb : b = b'
      · subst hb
        rw [hx] at hy; injection hy with hy; subst hy
        exact ⟨_, if_pos rfl, h⟩
      · exact ⟨x, by simp only [setBuf, setThr, say, if_neg hb]; exact hx, h⟩
    | drop c k b' y hc hy =>
      by_cases hb : b = b'
      · subst hb
        rw [hx] at hy; injection hy with hy; subst hy
        exact ⟨_, if_pos rfl, h⟩
      · exact ⟨x, by simp only [setBuf, setDrop, say, if_neg hb]; exact hx, h⟩
    | attach b1 i1 j b' x1 y hh hb' hx1 hy op hop =>
      by_cases hb : b = b'
      · subst hb
        rw [hx] at hy; injection hy with hy; subst hy
        exact ⟨_, if_pos rfl, h⟩
      · exact ⟨x, by simp only [setBuf, say, if_neg hb]; exact hx, h⟩
    | _ => exact ⟨x, hx, h⟩
  | direct i => exact h

/-- The call on a buffer that step `a` makes. -/
def callOf (s : SB K V I) : SBAct K V I → Option (Nat × ChOp K V)
  | .thr t => match s.thr t with | .storing b v => some (b, .append v) | _ => none
  | .dropGo c => match s.drops c with | some (b, k) => some (b, .drop k) | none => none
  | .rd b (.call op) => some (b, op)
  | .rd b (.go i) => match s.buf b with
    | some x => match x.cons.asks i with | some r => some (b, .rd i r) | none => none
    | none => none
  | .attach b i j => match s.sourceBuffer, s.buf b with
    | some b', some x => some (b', .rd j (match (x.cons.ch.readers i).lastItem with | some v => .setLast v | none => .delLast))
    | _, _ => none
  | _ => none

/-- Contents and calls of the sessions change by those calls only. -/
theorem past_step {cfg : SBCfg K V} {s s' : SB K V I} {a : SBAct K V I} (hI : s.Inv) (hs : s.step cfg a = some s') (b : Nat) :
    (s.buf b = none ∧ s'.buf b = none) ∨
    (s.buf b = none ∧ ∃ x', s'.buf b = some x' ∧ x'.cons.past = (Cons.init cfg.key cfg.keyNone cfg.maxlen cfg.rdCfg).past) ∨
    ∃ x x', s.buf b = some x ∧ s'.buf b = some x' ∧ ((∃ op, s.callOf a = some (b, op) ∧ x'.cons.past = (x.cons.call op).1.past) ∨
      ((∀ op, s.callOf a ≠ some (b, op)) ∧ x'.cons.past = x.cons.past)) := by
  obtain ⟨h1, h2, h3, h4, h5, h6, h7, h9, h10, h11, h8⟩ := hI
  have hst := step_to hs
  clear hs
  have same : s'.buf b = s.buf b → (∀ op, s.callOf a ≠ some (b, op)) → (s.buf b = none ∧ s'.buf b = none) ∨
    (s.buf b = none ∧ ∃ x', s'.buf b = some x' ∧ x'.cons.past = (Cons.init cfg.key cfg.keyNone cfg.maxlen cfg.rdCfg).past) ∨
    ∃ x x', s.buf b = some x ∧ s'.buf b = some x' ∧ ((∃ op, s.callOf a = some (b, op) ∧ x'.cons.past = (x.cons.call op).1.past) ∨
      ((∀ op, s.callOf a ≠ some (b, op)) ∧ x'.cons.past = x.cons.past)) := by
    intro e hc
    cases hb : s.buf b with
    | none => exact .inl ⟨rfl, by rw [e, hb]⟩
    | some x => exact .inr (.inr ⟨x, x, rfl, by rw [e, hb], .inr ⟨hc, rfl⟩⟩)
  cases hst with
  | rd b' a y c ha hy hs =>
    by_cases hb : b = b'
    · subst hb
      refine .inr (.inr ⟨y, { y with cons := c }, hy, by simp [setBuf], ?_⟩)
      cases a with
      | call op =>
        simp only [Cons.step, Option.some.injEq] at hs; subst hs
        exact .inl ⟨op, rfl, rfl⟩
      | setStop => simp [CAct.isReaders] at ha
      | go i =>
        have hg := (Cons.go_facts hs).2
        simp only [callOf, hy]
        have e : ({ y.cons with stopped := s.flag y.evt } : Cons K V).asks i = y.cons.asks i := rfl
        rw [e] at hg
        cases hr : y.cons.asks i with
        | some r => rw [hr] at hg; exact .inl ⟨.rd i r, rfl, hg⟩
        | none => rw [hr] at hg; exact .inr ⟨by simp, hg⟩
      | callNext j | callIter j | callRead j =>
        simp only [Cons.step] at hs
        split at hs
        · injection hs with hs; subst hs; exact .inr ⟨by simp [callOf], rfl⟩
        · simp at hs
      | leave j =>
        simp only [Cons.step] at hs
        split at hs
        · injection hs with hs; subst hs; exact .inr ⟨by simp [callOf], rfl⟩
        · simp at hs
    · refine same (by simp only [setBuf, if_neg hb]) fun op => ?_
      cases a <;> simp [callOf]
      · intro e; exact absurd e.symm hb
      · split
        · split
          · simp; intro e; exact absurd e.symm hb
          · simp
        · simp
  | bufOk info e hst he =>
    by_cases hb : b = s.n - 1
    · subst hb
      refine .inr (.inl ⟨by grind [PhaseOk], newSess cfg e info, by simp [setBuf, say], rfl⟩)
    · exact same (by simp only [setBuf, say, if_neg hb]) (by simp [callOf])
  | stored t b' v y q h hy hr | refused t b' v y q h hy hr =>
    by_cases hb : b = b'
    · subst hb
      exact .inr (.inr ⟨y, _, hy, if_pos rfl, .inl ⟨.append v, by simp [callOf, h], rfl⟩⟩)
    · exact same (by simp only [setBuf, setThr, say, if_neg hb]) (by simp [callOf, h]; intro e; exact absurd e.symm hb)
  | drop c k b' y hc hy =>
    by_cases hb : b = b'
    · subst hb
      exact .inr (.inr ⟨y, _, hy, if_pos rfl, .inl ⟨.drop k, by simp [callOf, hc], rfl⟩⟩)
    · exact same (by simp only [setBuf, setDrop, say, if_neg hb]) (by simp [callOf, hc]; intro e; exact absurd e.symm hb)
  | attach b1 i1 j b' x1 y h hb' hx1 hy op hop =>
    by_cases hb : b = b'
    · subst hb
      exact .inr (.inr ⟨y, _, hy, if_pos rfl, .inl ⟨.rd j op, by simp only [callOf, hb', hx1, hop]; cases (x1.cons.ch.readers i1).lastItem <;> rfl, rfl⟩⟩)
    · exact same (by simp only [setBuf, say, if_neg hb]) (by simp [callOf, hb', hx1]; intro e; exact absurd e.symm hb)
  | _ => exact same rfl (by simp [callOf, *])

end SB
end S2P
