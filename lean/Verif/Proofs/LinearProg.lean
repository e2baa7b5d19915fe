import Verif.Model.Linear
import Verif.Proofs.Py
/- Executed on data that do not change, the bodies of Model/Linear.lean compute what Model/BufferReader.lean says. -/
namespace S2P
variable {K V α β : Type}

/-- A computation whose accesses all see `d`. -/
def Prog.run {D α : Type} (d : D) : Prog D α → α
  | .ret a => a
  | .look k => (k d).run d
  | .lock k => k.run d
  | .unlock k => k.run d

theorem Prog.run_bind {D : Type} (d : D) (p : Prog D α) (f : α → Prog D β) : (p.bind f).run d = (f (p.run d)).run d := by
  induction p with
  | ret a => rfl
  | look k ih => exact ih d
  | lock k ih => exact ih
  | unlock k ih => exact ih

namespace PM

def val (d : SD K V) (p : PM K V α) : Py α := Prog.run d (ExceptT.run p)

theorem val_pure (d : SD K V) (a : α) : val d (pure a : PM K V α) = .ok a := rfl

theorem val_throw (d : SD K V) (e : PyErr) : val d (throw e : PM K V α) = .error e := rfl

theorem val_ask (d : SD K V) (f : SD K V → Py α) : val d (ask f) = f d := rfl

theorem val_ofPy (d : SD K V) (x : Py α) : val d (ofPy x : PM K V α) = x := rfl

theorem val_bind (d : SD K V) (p : PM K V α) (f : α → PM K V β) : val d (p >>= f) = match val d p with
    | .ok a => val d (f a)
    | .error e => .error e := by
  show Prog.run d (Prog.bind (ExceptT.run p) _) = _
  rw [Prog.run_bind]
  show _ = match Prog.run d (ExceptT.run p) with
    | .ok a => val d (f a)
    | .error e => .error e
  cases Prog.run d (ExceptT.run p) <;> rfl

theorem val_locked (d : SD K V) (p : PM K V α) : val d (locked p) = val d p := by
  show Prog.run d (Prog.bind (ExceptT.run p) _) = _
  rw [Prog.run_bind]; rfl

theorem val_except (d : SD K V) (p : PM K V α) (h : PyErr → PM K V α) : val d (except p h) = match val d p with
    | .ok a => .ok a
    | .error e => val d (h e) := by
  show Prog.run d (Prog.bind (ExceptT.run p) _) = _
  rw [Prog.run_bind]
  show _ = match Prog.run d (ExceptT.run p) with
    | .ok a => (.ok a : Py α)
    | .error e => val d (h e)
  cases Prog.run d (ExceptT.run p) <;> rfl

theorem val_ite (d : SD K V) (c : Prop) [Decidable c] (p q : PM K V α) : val d (if c then p else q) = if c then val d p else val d q := by
  split <;> rfl

variable [LT K] [DecidableLT K]

theorem val_bisectLoop (d : SD K V) (g : K → Py Bool) (fuel lo hi : Nat) : val d (bisectLoop g fuel lo hi) = S2P.bisectLoop g d.keys fuel lo hi := by
  induction fuel generalizing lo hi with
  | zero => rfl
  | succ fuel ih =>
    simp only [bisectLoop, S2P.bisectLoop, val_ite, val_bind, val_ask, val_ofPy, val_pure, ih, dqGet]
    split
    · cases d.keys[(lo + hi) / 2]? with
      | none => rfl
      | some m => simp only; cases g m with
        | error e => rfl
        | ok b => cases b <;> rfl
    · rfl

theorem val_bisectLeft (d : SD K V) (k : Option K) : val d (bisectLeft k) = S2P.bisectLeft d.keys k := by
  simp only [bisectLeft, val_bind, val_ask, val_bisectLoop]; rfl

theorem val_bisectRight (d : SD K V) (k : Option K) : val d (bisectRight k) = S2P.bisectRight d.keys k := by
  simp only [bisectRight, val_bind, val_ask, val_bisectLoop]; rfl

omit [LT K] [DecidableLT K] in
theorem val_len (d : SD K V) : val d len = .ok d.len := rfl

omit [LT K] [DecidableLT K] in
theorem val_keyOf (d : SD K V) (v : V) : val d (keyOf v) = .ok (d.key v) := rfl

omit [LT K] [DecidableLT K] in
theorem val_getItem (d : SD K V) (i : Int) : val d (getItem i) = d.getItem i := rfl

omit [LT K] [DecidableLT K] in
theorem val_rangeByIndex (d : SD K V) (i j : Nat) (st : Option Int) : val d (rangeByIndex i j st) = d.rangeByIndex i j st := rfl

theorem val_findGt (d : SD K V) (k : Option K) : val d (findGt k) = d.findGt k := by
  simp only [findGt, val_bind, val_bisectRight, val_len, val_ite, val_ask, val_throw, SD.findGt]
  cases S2P.bisectRight d.keys k <;> rfl

theorem val_findGe (d : SD K V) (k : Option K) : val d (findGe k) = d.findGe k := by
  simp only [findGe, val_bind, val_bisectLeft, val_len, val_ite, val_ask, val_throw, SD.findGe]
  cases S2P.bisectLeft d.keys k <;> rfl

theorem val_findLe (d : SD K V) (k : Option K) : val d (findLe k) = d.findLe k := by
  simp only [findLe, val_bind, val_bisectRight, val_ite, val_ask, val_throw, SD.findLe]
  cases S2P.bisectRight d.keys k <;> rfl

theorem val_range (d : SD K V) (a b : Option K) (st : Option Int) : val d (range a b st) = d.range a b st := by
  simp only [range, val_bind, val_bisectLeft, val_bisectRight, val_rangeByIndex, SD.range]
  cases S2P.bisectLeft d.keys a with
  | error e => rfl
  | ok i => cases S2P.bisectRight d.keys b <;> rfl

theorem val_index [BEq V] (d : SD K V) (v : V) : val d (index v) = d.index v := by
  simp only [index, val_bind, val_keyOf, val_bisectLeft, val_bisectRight, val_ask, SD.index]
  cases S2P.bisectLeft d.keys (some (d.key v)) with
  | error e => rfl
  | ok i => cases S2P.bisectRight d.keys (some (d.key v)) <;> rfl

theorem dqLast_err {l : List α} {e : PyErr} (h : dqLast l = .error e) : e = .indexError ∧ l = [] := by
  rw [dqLast_eq] at h
  cases hl : l.getLast? with
  | some x => rw [hl] at h; simp at h
  | none => rw [hl] at h; injection h with h; exact ⟨h.symm, List.getLast?_eq_none_iff.1 hl⟩

theorem val_findLastGt (d : SD K V) (k : Option K) : val d (findLastGt k) = d.findLastGt k := by
  simp only [findLastGt, val_bind, val_except, val_ask, val_ofPy, val_ite, val_pure, SD.findLastGt]
  cases hl : dqLast d.keys with
  | error e =>
    obtain ⟨rfl, h2⟩ := dqLast_err hl
    simp [h2, val_bind, val_ask, val_ite, val_pure, val_throw]
  | ok l =>
    simp only
    cases hk : ltPy k (some l) with
    | error e =>
      have : e = .typeError := by cases k <;> simp_all [ltPy]
      subst this
      rfl
    | ok b =>
      cases b with
      | false => rfl
      | true =>
        simp only [if_true]
        cases hi : dqLast d.items with
        | ok v => rfl
        | error e =>
          obtain ⟨rfl, -⟩ := dqLast_err hi
          have hne : d.keys.length ≠ 0 := by
            intro h0
            have : d.keys = [] := List.length_eq_zero_iff.1 h0
            rw [this] at hl; simp [dqLast, dqGetInt] at hl
          simp [val_bind, val_ask, val_ite, val_throw, hne]

end PM

namespace Reader
open PM
variable [LT K] [DecidableLT K]

omit [LT K] [DecidableLT K] in
theorem val_setLastP (d : SD K V) (r : Reader K V) (v : V) : val d (r.setLastP v) = .ok (r.setLast d v) := by
  simp only [setLastP, val_bind, val_keyOf, val_pure]; rfl

/-- The outcome of a call: exceptions leave the reader as it was. -/
def outcome (r : Reader K V) (x : Py (Ret V × Reader K V)) : Py (Ret V) × Reader K V :=
  match x with
  | .ok (a, r') => (.ok a, r')
  | .error e => (.error e, r)

omit [LT K] [DecidableLT K] in
theorem run_finish (d : SD K V) (r : Reader K V) (p : PM K V (Ret V × Reader K V)) : (r.finish p).run d = r.outcome (val d p) := by
  simp only [finish, Prog.run_bind]
  rfl

theorem val_nextP (d : SD K V) (r : Reader K V) (ignore : Bool) : val d (r.nextP ignore) = r.nextItem d ignore := by
  simp only [nextP]
  simp only [val_except, val_bind, val_findGt, val_pure, nextItem]
  cases d.findGt r.lastKey with
  | ok v => rfl
  | error e =>
    cases e
    all_goals simp only [val_ite, val_bind, val_getItem, val_pure, val_throw]
    cases r.lastItem with
    | none => simp only [Option.isNone_none, if_true]; cases d.getItem 0 <;> rfl
    | some x => rfl

theorem val_readP [BEq V] (d : SD K V) (r : Reader K V) (n : Option Int) (peek ignore strict : Option Bool) :
    r.outcome (val d (r.readP (n.getD r.cfg.n) (peek.getD false) (ignore.getD r.cfg.ignore) (strict.getD r.cfg.strict))) = r.read d n peek ignore strict := by
  simp only [readP, read]
  rw [val_bind, val_nextP]
  generalize n.getD r.cfg.n = n
  generalize ignore.getD r.cfg.ignore = ignore
  generalize strict.getD r.cfg.strict = strict
  generalize peek.getD false = peek
  cases r.nextItem d ignore with
  | error e => rfl
  | ok x =>
    cases x with
    | none => rfl
    | some v =>
      simp only
      by_cases hn : n > 1
      · simp only [hn, if_true, val_bind, val_index]
        cases d.index v with
        | error e => rfl
        | ok i =>
          simp only [val_ite, val_bind, val_len, val_pure, val_throw, val_rangeByIndex, val_ofPy, val_setLastP]
          by_cases hs : (strict && decide ((i : Int) + n ≥ d.len)) = true
          · obtain ⟨h1, h2⟩ := Bool.and_eq_true_iff.1 hs
            simp only [hs, if_true]
            simp only [h1, if_true, of_decide_eq_true h2]
            rfl
          · simp only [hs, Bool.false_eq_true, if_false]
            have : ∀ x : Py (Ret V × Reader K V), (if strict = true then if (i : Int) + n ≥ d.len then .error PyErr.valueError else x else x) = x := by
              intro x
              cases strict with
              | false => rfl
              | true => simp only [Bool.true_and, decide_eq_true_eq] at hs; simp [hs]
            rw [this]
            cases d.rangeByIndex i (i + n).toNat none with
            | error e => rfl
            | ok l =>
              cases peek with
              | true => rfl
              | false => simp only [Bool.not_false, if_true]; cases dqLast l <;> rfl
      · simp only [hn, if_false, val_ite, val_bind, val_setLastP, val_pure]
        cases peek <;> rfl

theorem val_headP (d : SD K V) (r : Reader K V) (peek : Bool) : r.outcome (val d (r.headP peek)) = r.head d peek := by
  simp only [headP, head, val_bind, val_getItem]
  cases d.getItem 0 with
  | error e => rfl
  | ok v => simp only [val_ite, val_bind, val_setLastP, val_pure]; cases peek <;> rfl

/-- The item of `tail` (buffer_reader.py 311-329). -/
def tailItem (d : SD K V) (r : Reader K V) (ignore onlyNew : Bool) : Py (Option V) :=
    if onlyNew then
      match d.findLastGt r.lastKey with
      | .ok v => .ok (some v)
      | .error .valueError => if ignore then .ok .none else .error .valueError
      | .error .typeError =>
        match r.lastItem with
        | .none => (d.getItem (-1)).map some
        | some _ => .error .typeError
      | .error e => .error e
    else
      match d.getItem (-1) with
      | .ok v => .ok (some v)
      | .error e => if ignore then .ok .none else .error e

theorem val_tailItemP (d : SD K V) (r : Reader K V) (ignore onlyNew : Bool) : val d (r.tailItemP ignore onlyNew) = tailItem d r ignore onlyNew := by
  simp only [tailItemP, tailItem, val_bind, val_ite, val_except, val_findLastGt, val_getItem, val_pure]
  cases onlyNew with
  | false =>
    simp only [Bool.false_eq_true, if_false]
    cases d.getItem (-1) with
    | ok v => rfl
    | error e => cases ignore <;> rfl
  | true =>
    simp only [if_true]
    cases d.findLastGt r.lastKey with
    | ok v => rfl
    | error e =>
      cases e
      all_goals simp only [val_ite, val_bind, val_getItem, val_pure, val_throw]
      cases r.lastItem with
        | none => simp only [Option.isNone_none, if_true]; cases d.getItem (-1) <;> rfl
        | some x => rfl

theorem val_tailP (d : SD K V) (r : Reader K V) (peek ignore onlyNew : Bool) : r.outcome (val d (r.tailP peek ignore onlyNew)) = r.tail d peek ignore onlyNew := by
  have : r.tail d peek ignore onlyNew = match tailItem d r ignore onlyNew with
      | .error e => (.error e, r)
      | .ok .none => (.ok .none, r)
      | .ok (some v) => if !peek then (.ok (.one v), r.setLast d v) else (.ok (.one v), r) := rfl
  rw [this, tailP, val_bind, val_tailItemP]
  cases tailItem d r ignore onlyNew with
  | error e => rfl
  | ok x => cases x with
    | none => rfl
    | some v => simp only [val_ite, val_bind, val_setLastP, val_pure]; cases peek <;> rfl

theorem val_roundStartP (d : SD K V) (a : K) (le : Bool) : val d (roundStartP a le) = roundStart d a le := by
  simp only [roundStartP, roundStart, val_ite, val_except, val_bind, val_findLe, val_keyOf, val_pure]
  cases le with
  | false => rfl
  | true =>
    simp only [if_true]
    cases d.findLe (some a) with
    | ok v => rfl
    | error e => cases e <;> rfl

theorem val_roundStopP (d : SD K V) (b : K) (ignore ge : Bool) : val d (roundStopP b ignore ge) = roundStop d b ignore ge := by
  simp only [roundStopP, roundStop, val_ite, val_except, val_bind, val_findGe, val_keyOf, val_pure]
  cases ge with
  | false => rfl
  | true =>
    simp only [if_true]
    cases d.findGe (some b) with
    | ok v => rfl
    | error e => cases e <;> cases ignore <;> rfl

theorem val_rangeStartP [BEq V] (d : SD K V) (r : Reader K V) (a : K) (ignore onlyNew : Bool) :
    val d (r.rangeStartP a ignore onlyNew) = r.rangeStart d a ignore onlyNew := by
  simp only [rangeStartP, rangeStart, val_ite, val_bind, val_locked, val_pure]
  cases hc : (onlyNew && r.lastKey.isSome) with
  | false => rfl
  | true =>
    simp only [if_true]
    have hr := val_readP d r (some 1) (some true) (some ignore) none
    simp only [Option.getD_some, Option.getD_none] at hr
    rw [← hr]
    cases hv : val d (r.readP 1 true ignore r.cfg.strict) with
    | error e => rfl
    | ok x =>
      obtain ⟨x, r'⟩ := x
      simp only [outcome, nextKeyP, val_except, val_bind, val_ask, val_pure]
      cases x with
      | none =>
        simp only
        cases d.keyNone with
        | error e => cases e <;> cases ignore <;> rfl
        | ok k =>
          simp only [val_bind, val_ofPy, val_pure]
          cases ltPy k (some a) with
          | error e => rfl
          | ok b => cases b <;> rfl
      | one v =>
        simp only [val_bind, val_ofPy, val_pure]
        cases ltPy (some (d.key v)) (some a) with
        | error e => rfl
        | ok b => cases b <;> rfl
      | many l => cases ignore <;> rfl

theorem val_rangeEndP (d : SD K V) (r : Reader K V) (peek ignore : Bool) (items : List V) :
    r.outcome (val d (r.rangeEndP peek ignore items)) = if !peek then
            match dqLast items with
            | .ok v => (.ok (.many items), r.setLast d v)
            | .error e => if ignore then (.ok .none, r) else (.error e, r)
          else (.ok (.many items), r) := by
  simp only [rangeEndP]
  cases peek with
  | true => rfl
  | false =>
    cases dqLast items with
    | ok v => rfl
    | error e => cases ignore <;> rfl

theorem val_rangeP [BEq V] (d : SD K V) (r : Reader K V) (a b : K) (st : Option Int) (peek : Bool) (ignore : Option Bool) (onlyNew le ge : Bool) :
    r.outcome (val d (r.rangeP a b st peek (ignore.getD r.cfg.ignore) onlyNew le ge)) = r.range d a b st peek ignore onlyNew le ge := by
  rw [rangeP, range, val_bind, val_rangeStartP]
  cases r.rangeStart d a (ignore.getD r.cfg.ignore) onlyNew with
  | error e => rfl
  | ok x => cases x with
    | none => rfl
    | some a =>
      simp only [val_bind, val_roundStartP, val_roundStopP]
      cases roundStart d a le with
      | error e => rfl
      | ok a =>
        simp only
        cases roundStop d b (ignore.getD r.cfg.ignore) ge with
        | error e => rfl
        | ok x => cases x with
          | none => rfl
          | some b =>
            simp only [val_bind, val_range]
            cases d.range (some a) (some b) st with
            | error e => rfl
            | ok items => exact val_rangeEndP d r peek _ items

/-- Every reader call: on data that do not change, the body executed access by access is the atomic step. -/
theorem run_prog [BEq V] (d : SD K V) (r : Reader K V) (op : RdOp K V) : (r.prog op).run d = Ch.rdStep d r op := by
  cases op with
  | read n p i st => simp only [prog, run_finish, Ch.rdStep]; exact val_readP d r n p i st
  | nextMethod n p i st => simp only [prog, run_finish, Ch.rdStep, nextMethod]; exact val_readP d r (some n) (some p) (some i) (some st)
  | readForNext => simp only [prog, run_finish, Ch.rdStep, readForNext]; exact val_readP d r (some r.cfg.n) (some r.cfg.peek) (some true) (some r.cfg.strict)
  | range a b st p i o le ge => simp only [prog, run_finish, Ch.rdStep]; exact val_rangeP d r a b st p i o le ge
  | tail p i o => simp only [prog, run_finish, Ch.rdStep]; exact val_tailP d r p i o
  | head p => simp only [prog, run_finish, Ch.rdStep]; exact val_headP d r p
  | setLast v => simp only [prog, run_finish, Ch.rdStep, val_bind, val_setLastP, val_pure]; rfl
  | delLast => rfl

end Reader
end S2P
