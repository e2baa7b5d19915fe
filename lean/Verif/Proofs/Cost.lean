import Verif.Model.Cost
import Verif.Proofs.RaisingLink
import Verif.Props.Raising
/-
Model/Cost.lean without its calls is Model/Raising.lean (and, for `range`, `in` and `count`, Model/SortedDeque.lean).
-/
namespace S2P
variable {K V : Type}

namespace Tr
variable {α β : Type}

theorem bind_eq (x : Tr K V α) (f : α → Tr K V β) : (x >>= f) = x.bind f := rfl

@[simp] theorem bind_fst (x : Tr K V α) (f : α → Tr K V β) : (x.bind f).1 = x.1.bind fun a => (f a).1 := by
  unfold bind; cases x.1 <;> rfl

@[simp] theorem pure_fst (a : α) : (Tr.pure a : Tr K V α).1 = .ok a := rfl
@[simp] theorem raise_fst (e : PyErr) : (Tr.raise e : Tr K V α).1 = .error e := rfl
@[simp] theorem call_fst (c : UCall K V) (r : Py α) : (Tr.call c r).1 = r := rfl
@[simp] theorem lift_fst (r : Py α) : (Tr.lift r : Tr K V α).1 = r := rfl
@[simp] theorem pure_snd (a : α) : (Tr.pure a : Tr K V α).2 = [] := rfl
@[simp] theorem raise_snd (e : PyErr) : (Tr.raise e : Tr K V α).2 = [] := rfl
@[simp] theorem call_snd (c : UCall K V) (r : Py α) : (Tr.call c r).2 = [c] := rfl
@[simp] theorem lift_snd (r : Py α) : (Tr.lift r : Tr K V α).2 = [] := rfl

theorem bind_snd_ok {x : Tr K V α} {a : α} (h : x.1 = .ok a) (f : α → Tr K V β) : (x.bind f).2 = x.2 ++ (f a).2 := by simp [bind, h]
theorem bind_snd_error {x : Tr K V α} {e : PyErr} (h : x.1 = .error e) (f : α → Tr K V β) : (x.bind f).2 = x.2 := by simp [bind, h]

/-- What happens in one statement after another happens in one of the two. -/
theorem bind_mem {x : Tr K V α} {f : α → Tr K V β} {c : UCall K V} (h : c ∈ (x.bind f).2) : c ∈ x.2 ∨ ∃ a, x.1 = .ok a ∧ c ∈ (f a).2 := by
  cases hx : x.1 with
  | error e => rw [bind_snd_error hx] at h; exact .inl h
  | ok a => rw [bind_snd_ok hx] at h; rcases List.mem_append.1 h with h | h
            · exact .inl h
            · exact .inr ⟨a, rfl, h⟩

theorem ite_fst {p : Prop} [Decidable p] (x y : Tr K V α) : (if p then x else y).1 = if p then x.1 else y.1 := by split <;> rfl
theorem ite_snd {p : Prop} [Decidable p] (x y : Tr K V α) : (if p then x else y).2 = if p then x.2 else y.2 := by split <;> rfl

end Tr

open Tr

theorem bisectT_fst (g : K → Tr K V Bool) (a : List K) : ∀ fuel lo hi, (bisectT g a fuel lo hi).1 = bisectLoop (fun x => (g x).1) a fuel lo hi
  | 0, lo, hi => rfl
  | fuel + 1, lo, hi => by
    unfold bisectT bisectLoop
    split
    · cases a[(lo + hi) / 2]? with
      | none => rfl
      | some m =>
        simp only [bind_fst, ite_fst, bisectT_fst g a fuel]
        cases (g m).1 with
        | error e => rfl
        | ok b => cases b <;> simp [Except.bind]
    · rfl

namespace XD
variable (e : PyEnv K V) (s : XD K V)

theorem bisectLT_fst (k : K) : (s.bisectLT e k).1 = s.bisectL e k := by simp [bisectLT, bisectL, bisectT_fst]
theorem bisectRT_fst (k : K) : (s.bisectRT e k).1 = s.bisectR e k := by simp [bisectRT, bisectR, bisectT_fst]

theorem findT_fst (k : K) : (s.findT e k).1 = s.find e k := by
  simp only [findT, find, Tr.bind_eq, bind_fst, bisectLT_fst, ite_fst, lift_fst, call_fst, raise_fst]; rfl
theorem findLeT_fst (k : K) : (s.findLeT e k).1 = s.findLe e k := by
  simp only [findLeT, findLe, Tr.bind_eq, bind_fst, bisectRT_fst, ite_fst, lift_fst, raise_fst]; rfl
theorem findLtT_fst (k : K) : (s.findLtT e k).1 = s.findLt e k := by
  simp only [findLtT, findLt, Tr.bind_eq, bind_fst, bisectLT_fst, ite_fst, lift_fst, raise_fst]; rfl
theorem findGeT_fst (k : K) : (s.findGeT e k).1 = s.findGe e k := by
  simp only [findGeT, findGe, Tr.bind_eq, bind_fst, bisectLT_fst, ite_fst, lift_fst, raise_fst]; rfl
theorem findGtT_fst (k : K) : (s.findGtT e k).1 = s.findGt e k := by
  simp only [findGtT, findGt, Tr.bind_eq, bind_fst, bisectRT_fst, ite_fst, lift_fst, raise_fst]; rfl
theorem findLastGtT_fst (k : K) : (s.findLastGtT e k).1 = s.findLastGt e k := by
  unfold findLastGtT findLastGt
  cases s.keys.getLast? with
  | none => rfl
  | some l => simp only [Tr.bind_eq, bind_fst, ite_fst, lift_fst, raise_fst, call_fst]; rfl

theorem searchT_fst (v : V) : ∀ (i : Nat) (l : List V), (searchT e v i l).1 = search e v i l
  | _, [] => rfl
  | i, w :: ws => by
    simp only [searchT, search, bind_fst, ite_fst, call_fst, pure_fst, searchT_fst v (i + 1) ws]; rfl

theorem indexT_fst (v : V) : (s.indexT e v).1 = s.index e v := by
  simp only [indexT, index, keyT, Tr.bind_eq, bind_fst, bisectLT_fst, bisectRT_fst, searchT_fst, call_fst]; rfl

theorem appendT_fst (v : V) : (s.appendT e v).1 = s.append e v := by
  unfold appendT append change
  simp only [keyT, Tr.bind_eq, bind_fst, call_fst]
  cases s.key v with
  | error x => rfl
  | ok k =>
    simp only [Except.bind]
    cases s.keys.getLast? with
    | none => rfl
    | some l =>
      simp only [bind_fst, call_fst, ite_fst, pure_fst, raise_fst]
      cases e.ltK l k with
      | error x => rfl
      | ok b => cases b <;> rfl

theorem insertT_fst (v : V) : (s.insertT e v).1 = s.insert e v := by
  unfold insertT insert change
  simp only [keyT, Tr.bind_eq, bind_fst, call_fst, bisectLT_fst, pure_fst]
  cases s.key v with
  | error x => rfl
  | ok k =>
    simp only [Except.bind]
    cases s.bisectL e k <;> rfl

theorem insertRightT_fst (v : V) : (s.insertRightT e v).1 = s.insertRight e v := by
  unfold insertRightT insertRight change
  simp only [keyT, Tr.bind_eq, bind_fst, call_fst, bisectRT_fst, pure_fst]
  cases s.key v with
  | error x => rfl
  | ok k =>
    simp only [Except.bind]
    cases s.bisectR e k <;> rfl

theorem removeT_fst (v : V) : (s.removeT e v).1 = s.remove e v := by
  unfold removeT remove change
  rw [indexT_fst]
  cases s.index e v with
  | error x => rfl
  | ok i => rfl

/-- Leaving the calls of user code out gives the calls of Model/Raising.lean. -/
theorem applyT_fst (op : Op K V) : (s.applyT e op).1 = s.apply e op := by
  cases op with
  | append v => exact appendT_fst e s v
  | insert v => exact insertT_fst e s v
  | insertRight v => exact insertRightT_fst e s v
  | remove v => exact removeT_fst e s v
  | delMaxlen => simp only [applyT, apply]; split <;> rfl
  | _ => rfl

/-- and the same for several of them. -/
theorem runT_reach {e : PyEnv K V} : ∀ (ops : List (Op K V)) {s : XD K V}, Reachable e s → Reachable e (runT e s ops).1
  | [], _, h => h
  | op :: ops, s, h => by
    simp only [runT]
    exact runT_reach ops (by rw [applyT_fst]; exact .step op h)

section calm
variable [DecidableEq K] [LT K] [DecidableLT K] [BEq V] [LT V] [DecidableLT V] {x : XD K V} {d : SD K V}

theorem anyT_fst (ident : V → K) (v : V) : ∀ l : List V, (anyT (calmEnv ident) v l).1 = .ok (l.any (· == v))
  | [] => rfl
  | w :: ws => by
    simp only [anyT, bind_fst, call_fst, ite_fst, pure_fst, anyT_fst ident v ws]
    show (Except.ok (w == v) : Py Bool).bind _ = _
    cases h : w == v <;> simp [h, Except.bind]

theorem countAllT_fst (ident : V → K) (v : V) : ∀ l : List V, (countAllT (calmEnv ident) v l).1 = .ok (l.countP (· == v))
  | [] => rfl
  | w :: ws => by
    simp only [countAllT, bind_fst, call_fst, pure_fst, countAllT_fst ident v ws]
    show (Except.ok (w == v) : Py Bool).bind _ = _
    cases h : w == v <;> simp [h, Except.bind]

/-- `in`, `count` and `range`, on the deques of Model/SortedDeque.lean. -/
theorem asks_fst (ident : V → K) (h : Agrees d x) (v : V) (start stop : K) (step : Option Int) :
    (x.containsT (calmEnv ident) v).1 = d.contains v ∧ (x.countT (calmEnv ident) v).1 = d.count v ∧
    (x.rangeT (calmEnv ident) start stop step).1 = d.range (some start) (some stop) step := by
  have hk : x.key v = .ok (d.key v) := by rw [h.2.2.2.2]
  have okb : ∀ {α β : Type} (a : α) (f : α → Py β), (Except.ok a : Py α).bind f = f a := fun _ _ => rfl
  refine ⟨?_, ?_, ?_⟩
  · simp only [containsT, SD.contains, keyT, Tr.bind_eq, bind_fst, call_fst, bisectLT_fst, bisectRT_fst, agrees_bisectL ident h, agrees_bisectR ident h, anyT_fst, hk, h.2.1, okb]
    cases bisectLeft d.keys (some (d.key v)) with
    | error e => rfl
    | ok i => cases bisectRight d.keys (some (d.key v)) <;> rfl
  · simp only [countT, SD.count, keyT, Tr.bind_eq, bind_fst, call_fst, bisectLT_fst, bisectRT_fst, agrees_bisectL ident h, agrees_bisectR ident h, countAllT_fst, hk, h.2.1, okb]
    cases bisectLeft d.keys (some (d.key v)) with
    | error e => rfl
    | ok i => cases bisectRight d.keys (some (d.key v)) <;> rfl
  · simp only [rangeT, SD.range, Tr.bind_eq, bind_fst, lift_fst, bisectLT_fst, bisectRT_fst, agrees_bisectL ident h, agrees_bisectR ident h, h.2.1]; rfl

end calm
end XD
end S2P
