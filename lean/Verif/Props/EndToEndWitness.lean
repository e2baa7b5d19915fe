import Verif.Props.EndToEnd
import Verif.Props.SBWitness
/- Concrete executions that meet the hypotheses of C63. -/
namespace S2P
open Spec
namespace SB

/-- Check of `OneUser` for all actions. -/
def oneUserOk (b i : Nat) : A → Bool
  | .rd b' (.call (.rd j _)) => !(b' = b) || !(j = i)
  | .rd b' (.callRead j _ p _) => !(b' = b) || !(j = i) || !p.getD false
  | .attach _ _ j => !(j = i)
  | _ => true

theorem oneUser_of_check {b i : Nat} {as : List A} (h : as.all (oneUserOk b i) = true) : ∀ a ∈ as, OneUser b i a := by
  intro a ha
  have := List.all_eq_true.1 h a ha
  cases a with
  | rd b' x =>
    intro hb
    cases x with
    | call op => cases op with
      | rd j o => simpa [oneUserOk, hb, S2P.OneUser] using this
      | _ => trivial
    | callRead j n p st => intro hj; simpa [oneUserOk, hb, hj] using this
    | _ => trivial
  | attach b' i' j => simpa [oneUserOk, OneUser] using this
  | _ => trivial

/-- `next(reader 0)` of session `b`. -/
def wNext (b : Nat) : List A := [.rd b (.callNext 0), .rd b (.go 0)]

/-- Unbounded buffer: items 1, 2, 3 are stored, the consumer gets 1 and 2 in between, 4 is on its way. -/
def wFlow : List A := wStart 7 ++ wItem 0 1 ++ wNext 0 ++ wNone 0 ++ wItem 0 2 ++ wItem 0 3 ++ wNext 0 ++
  [.thr 0, .thr 0, .readOk 0 (some 4)]

theorem C63_meets : ∃ (s : S) (c : Cons Nat Nat), SB.init.exec (mkCfg none true) wFlow = some s ∧
    (SB.init : S).Settled (mkCfg none true) wFlow ∧ (∀ a ∈ wFlow, OneUser 0 0 a) ∧ s.view 0 = some c ∧
    received c 0 = [1, 2] ∧ unreadOf c.ch 0 = [3] ∧ (s.thr 0).inHand = [4] ∧ dataRead 0 s.log = [1, 2, 3, 4] :=
  ⟨_, _, rfl, settled_of_check rfl, oneUser_of_check rfl, rfl, rfl, rfl, rfl, rfl⟩

/-- With `maxlen=2` the same consumer, started late, misses 1: only part of what was stored. -/
def wLate : List A := wStart 7 ++ wItem 0 1 ++ wItem 0 2 ++ wItem 0 3 ++ wNext 0

theorem C63_bounded_misses : ∃ (s : S) (c : Cons Nat Nat), SB.init.exec (mkCfg (some 2) true) wLate = some s ∧
    (∀ a ∈ wLate, OneUser 0 0 a) ∧ s.view 0 = some c ∧ received c 0 = [2] ∧ unreadOf c.ch 0 = [3] ∧ storedIn 0 s.log = [1, 2, 3] :=
  ⟨_, _, rfl, oneUser_of_check rfl, rfl, rfl, rfl, rfl⟩

/-- `hkeep` of `C63_nothing_missing` along a concrete execution. -/
def keepOk (cfg : SBCfg Nat Nat) (b i : Nat) (s : S) : List A → Bool
  | [] => match s.view b with
    | some c => decide ((storedIn b s.log).length ≤ (s.items b).length + (received c i).length)
    | none => true
  | a :: as => (match s.view b with
      | some c => decide ((storedIn b s.log).length ≤ (s.items b).length + (received c i).length)
      | none => true) &&
    match s.step cfg a with
    | some s' => keepOk cfg b i s' as
    | none => true

theorem keep_of_check {cfg : SBCfg Nat Nat} {b i : Nat} (as : List A) : ∀ s : S, keepOk cfg b i s as = true →
    ∀ as1 as2 s1 c1, as = as1 ++ as2 → s.exec cfg as1 = some s1 → s1.view b = some c1 →
      (storedIn b s1.log).length ≤ (s1.items b).length + (received c1 i).length := by
  induction as with
  | nil =>
    intro s h as1 as2 s1 c1 e he hv
    have : as1 = [] := by simp at e; exact e.1
    subst this
    simp only [SB.exec, Option.some.injEq] at he; subst he
    simp only [keepOk, hv, decide_eq_true_eq] at h
    exact h
  | cons a as ih =>
    intro s h as1 as2 s1 c1 e he hv
    simp only [keepOk, Bool.and_eq_true] at h
    cases as1 with
    | nil =>
      simp only [SB.exec, Option.some.injEq] at he; subst he
      have := h.1
      simp only [hv, decide_eq_true_eq] at this
      exact this
    | cons a' as1 =>
      simp only [List.cons_append, List.cons.injEq] at e
      obtain ⟨rfl, e⟩ := e
      simp only [SB.exec] at he
      split at he
      · rename_i s2 hs
        have h2 := h.2
        rw [hs] at h2
        exact ih s2 h2 as1 as2 s1 c1 e he hv
      · simp at he

/-- With `maxlen=1` a consumer that keeps up misses nothing. -/
def wKeep : List A := wStart 7 ++ wItem 0 1 ++ wNext 0 ++ wItem 0 2 ++ wNext 0 ++ wItem 0 3

theorem C63_meets_bounded : ∃ (s : S) (c : Cons Nat Nat), SB.init.exec (mkCfg (some 1) true) wKeep = some s ∧
    (∀ a ∈ wKeep, OneUser 0 0 a) ∧ s.view 0 = some c ∧ received c 0 = [1, 2] ∧ unreadOf c.ch 0 = [3] ∧ storedIn 0 s.log = [1, 2, 3] ∧
    (storedIn 0 s.log).Pairwise (fun v w => v < w) ∧ s.items 0 = [3] ∧
    (∀ as1 as2 s1 c1, wKeep = as1 ++ as2 → SB.init.exec (mkCfg (some 1) true) as1 = some s1 → s1.view 0 = some c1 →
      (storedIn 0 s1.log).length ≤ (s1.items 0).length + (received c1 0).length) :=
  ⟨_, _, rfl, oneUser_of_check rfl, rfl, rfl, rfl, rfl, by decide, rfl, keep_of_check _ _ rfl⟩

end SB
end S2P
