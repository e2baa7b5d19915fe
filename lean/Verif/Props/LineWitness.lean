import Verif.Props.LineGrowth
/- Concrete executions for C112. Lines are numbers, 0 is the empty line. -/
namespace S2P
open Spec
namespace LineSrc

abbrev A := ObjAct Nat (Nat × Nat) Unit
abbrev S := ObjSB (St Nat) Nat (Nat × Nat) Unit

/-- The first time the file has three lines of which the last cannot be decoded; then it has two. -/
def disk : Disk Nat := fun k => if k = 0 then .ok [.ok 7, .ok 8, .error .valueError] else .ok [.ok 5, .ok 6]

def lItem (t : Nat) : List A := [.other (.thr t), .other (.thr t), .read t, .other (.thr t), .store t]

/-- A session that ends at the bad line, and one that is read beyond the end of the file; its consumer has got the first line. -/
def lFlow : List A := gStart ++ lItem 0 ++ lItem 0 ++ [.other (.thr 0), .other (.thr 0), .read 0, .other (.thr 0), .other (.thr 0), .close 0] ++ gStart ++ lItem 1 ++
  [.other (.rd 1 (.callNext 0)), .other (.rd 1 (.go 0))] ++ lItem 1 ++ lItem 1 ++ [.other (.thr 1), .other (.thr 1), .read 1]

/-- Check of `Calm`. -/
def calmOk : S → List A → Bool
  | _, [] => true
  | s, x :: xs =>
    (match x with
      | .other .start => (List.range s.sb.n).all (fun t => (s.sb.thr t).idle)
      | _ => true) &&
    (match s.step (lines disk 0) docCfg x with | some s' => calmOk s' xs | none => true)

theorem calm_of_check (xs : List A) : ∀ s : S, s.sb.Inv → calmOk s xs = true → s.Calm (lines disk 0) docCfg xs := by
  induction xs with
  | nil => intro s _ _; trivial
  | cons x xs ih =>
    intro s hi h
    simp only [calmOk, Bool.and_eq_true] at h
    refine ⟨?_, fun s' hs' => ?_⟩
    · intro hx t
      subst hx
      have h1 := h.1
      simp only [List.all_eq_true, List.mem_range] at h1
      by_cases ht : t < s.sb.n
      · exact h1 t ht
      · rw [hi.noThr t (by omega)]; rfl
    · have h2 := h.2
      rw [hs'] at h2
      obtain ⟨a, ha, -⟩ := (ObjSB.below hs').sb
      exact ih s' (hi.step ha) h2

theorem lOne : ∀ a, .other a ∈ lFlow → SB.OneUser 1 0 a := by
  intro a ha
  simp only [lFlow, gStart, lItem, List.cons_append, List.nil_append, List.mem_cons, List.not_mem_nil, ObjAct.other.injEq, reduceCtorEq,
    or_false, false_or] at ha
  repeat' first | (rcases ha with h | ha; rw [h]; first | trivial | (intro _; trivial)) | (rw [ha]; first | trivial | (intro _; trivial))

theorem C112_meets : ∃ (s : S) (c : Cons Nat (Nat × Nat)), (ObjSB.init new).exec (lines disk 0) docCfg lFlow = some s ∧
    (ObjSB.init new : S).Calm (lines disk 0) docCfg lFlow ∧ (∀ a, .other a ∈ lFlow → SB.OneUser 1 0 a) ∧
    Ev.launched 1 ∈ s.sb.log ∧ s.sb.view 1 = some c ∧ received c 0 = [(0, 5)] ∧ unreadOf c.ch 0 = [(1, 6), (2, 0)] ∧
    (s.sb.thr 1).inHand = [(3, 0)] ∧ Ev.launched 0 ∈ s.sb.log ∧ storedIn 0 s.sb.log = [(0, 7), (1, 8)] ∧
    answered 0 s.sb.log = [.ok (some (0, 7)), .ok (some (1, 8)), .error .valueError] ∧
    ((c.ch.readers 0).range c.ch.buf 1 2 none false none false false false).1 = .ok (.many [(1, 6), (2, 0)]) ∧
    ObjSB.Fits (lines disk 0) docCfg := by
  refine ⟨_, _, rfl, calm_of_check _ _ SB.Inv.init rfl, lOne, List.mem_of_getElem? (i := 12) rfl, rfl, rfl, rfl, rfl,
    List.mem_of_getElem? (i := 2) rfl, rfl, rfl, rfl, ?_⟩
  intro v k h; simp only [lines, Except.ok.injEq] at h; exact h

end LineSrc
end S2P
