import Verif.Props.Careful
import Verif.Props.CounterWitness
/- A concrete execution for C87 and C88. -/
namespace S2P
open Spec
namespace Counter

/-- Check of `Calm`. -/
def calmOk (o : SrcObj St Int (List Char) Info) (cfg : SBCfg Int (List Char)) : S → List A → Bool
  | _, [] => true
  | s, x :: xs =>
    (match x with
      | .other .start => (List.range s.sb.n).all (fun t => (s.sb.thr t).idle)
      | _ => true) &&
    (match s.step o cfg x with | some s' => calmOk o cfg s' xs | none => true)

theorem calm_of_check {o : SrcObj St Int (List Char) Info} {cfg : SBCfg Int (List Char)} (xs : List A) :
    ∀ s : S, s.sb.Inv → calmOk o cfg s xs = true → s.Calm o cfg xs := by
  induction xs with
  | nil => intro s _ _; trivial
  | cons x xs ih =>
    intro s hi h
    simp only [calmOk, Bool.and_eq_true] at h
    refine ⟨?_, fun s' hs' => ?_⟩
    · intro hx t
      subst hx
      have h1 := h.1
      simp only [List.all_eq_true, List.mem_range] at h1
      by_cases ht : t < s.sb.n
      · exact h1 t ht
      · rw [hi.noThr t (by omega)]; rfl
    · have h2 := h.2
      rw [hs'] at h2
      obtain ⟨a, ha, -⟩ := (ObjSB.below hs').sb
      exact ih s' (hi.step ha) h2

/-- `SimpleCounterString(-1, 1)`: a session cut short, then one in which the thread does 22 steps; the consumer takes one string in between. -/
def cLong : List A := cStart ++ cItem 0 ++ [.other .stop, .other .stopEnd] ++ cEnd 0 ++ cStart ++ cItem 1 ++
  [.other (.rd 1 (.callNext 0)), .other (.rd 1 (.go 0))] ++ cItem 1 ++ cNone 1 ++ cNone 1 ++ cNone 1

theorem cLongOne : ∀ a, .other a ∈ cLong → SB.OneUser 1 0 a := by
  intro a ha
  simp only [cLong, cStart, cItem, cNone, cEnd, go, List.cons_append, List.nil_append, List.mem_cons, List.not_mem_nil, ObjAct.other.injEq, reduceCtorEq,
    or_false, false_or] at ha
  repeat' first | (rcases ha with h | ha; rw [h]; first | trivial | (intro _; trivial)) | (rw [ha]; first | trivial | (intro _; trivial))

theorem C88_meets : ∃ (s : S) (c : Cons Int (List Char)), (ObjSB.init new).exec (counter (-1) 1) (cCfg none (-1) 1) cLong = some s ∧
    (ObjSB.init new : S).Calm (counter (-1) 1) (cCfg none (-1) 1) cLong ∧ (∀ a, .other a ∈ cLong → SB.OneUser 1 0 a) ∧ s.sb.view 1 = some c ∧
    6 * ((1 : Int) - -1).toNat + 10 ≤ cLong.countP (·.ofThread 1) ∧
    received c 0 = [['s', '-', '1']] ∧ unreadOf c.ch 0 = [['s', '0']] ∧ dataRead 0 s.sb.log = [['s', '-', '1']] ∧
    Ev.bufferMade 1 { start := -1, stop := 1, openCount := 2 } ∈ s.sb.log :=
  ⟨_, _, rfl, calm_of_check _ _ SB.Inv.init rfl, cLongOne, rfl, by decide, rfl, rfl, rfl, by decide⟩

end Counter
end S2P
