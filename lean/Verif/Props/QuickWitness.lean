import Verif.Props.Quick
import Verif.Props.SBWitness
/- Concrete executions for C155. -/
namespace S2P
open Spec
namespace Quick

section
variable {τ : Type}
abbrev QA := ObjAct Int Int Info

def qCfg : SBCfg Int Int :=
  { maxlen := none, autoDrop := true, key := fun v => v, keyNone := .error .typeError,
    rdCfg := fun _ => { n := 1, peek := false, ignore := true, strict := false } }

def qgo : QA := .other .startGo
def qStart : List QA := [.other .start, qgo, qgo, qgo, qgo, qgo, .open', .buf, qgo]
def qItem (t : Nat) : List QA := [.other (.thr t), .other (.thr t), .read t, .other (.thr t), .store t]
def qNone (t : Nat) : List QA := [.other (.thr t), .other (.thr t), .read t, .other (.thr t)]
def qEnd (t : Nat) : List QA := [.other (.thr t), .other (.thr t), .close t]
def qStop : List QA := [.other .stop, .other .stopEnd]

/-- Check of `Settled`. -/
def qSettledOk (o : SrcObj (St τ) Int Int Info) (cfg : SBCfg Int Int) : ObjSB (St τ) Int Int Info → List QA → Bool
  | _, [] => true
  | s, x :: xs =>
    (match x, s.sb.start with
      | .other .startGo, some .wipe => (List.range s.sb.n).all (fun t => (s.sb.thr t).idle)
      | _, _ => true) &&
    (match s.step o cfg x with | some s' => qSettledOk o cfg s' xs | none => true)

theorem qSettled_of_check {o : SrcObj (St τ) Int Int Info} {cfg : SBCfg Int Int} (xs : List QA) :
    ∀ s : ObjSB (St τ) Int Int Info, s.sb.Inv → qSettledOk o cfg s xs = true → s.Settled o cfg xs := by
  induction xs with
  | nil => intro s _ _; trivial
  | cons x xs ih =>
    intro s hi h
    simp only [qSettledOk, Bool.and_eq_true] at h
    refine ⟨?_, fun s' hs' => ?_⟩
    · intro a hx ha hs t
      subst hx; subst ha
      rw [hs] at h
      have h1 := h.1
      simp only [List.all_eq_true, List.mem_range] at h1
      by_cases ht : t < s.sb.n
      · have := h1 t ht
        cases hp : s.sb.thr t <;> rw [hp] at this <;> simp [TPC.idle] at this ⊢
      · exact .inl (hi.noThr t (by omega))
    · have h2 := h.2
      rw [hs'] at h2
      obtain ⟨a, ha, -⟩ := (ObjSB.below hs').sb
      exact ih s' (hi.step ha) h2
end

def qclock (k : Nat) : Int := 1000 + k

/-- The list `[1, None, 3, 4]`: two items' worth in the first session, the rest in the second, nothing in the third. -/
def qFlow : List QA := qStart ++ qItem 0 ++ qNone 0 ++ qStop ++ qEnd 0 ++ qStart ++ qItem 1 ++ qItem 1 ++ qStop ++ qEnd 1 ++ qStart ++ qNone 2

/-- C155 for the list reader: the hypotheses of `C155_list`, `C155_list_exhausted` (with `t = 2`), `C155_list_stored` and `C155_info` are met. -/
theorem C155_meets : ([some 1, none, some 3, some 4].filterMap id : List Int).Pairwise (· < ·) ∧ (∀ v, qCfg.key v = v) ∧
    ∃ s : ObjSB (St Nat) Int Int Info, (ObjSB.init (new 0)).exec (quick qclock (listRead [some 1, none, some 3, some 4])) qCfg qFlow = some s ∧
    (ObjSB.init (new 0) : ObjSB (St Nat) Int Int Info).Settled (quick qclock (listRead [some 1, none, some 3, some 4])) qCfg qFlow ∧
    s.sb.n = 3 ∧ dataRead 0 s.sb.log = [1] ∧ dataRead 1 s.sb.log = [3, 4] ∧ dataRead 2 s.sb.log = [] ∧ (allAnswers s.sb.log).length = 5 ∧
    (List.range 2).flatMap (fun u => dataRead u s.sb.log) = [some 1, none, some 3, some 4].filterMap id ∧
    (List.range s.sb.n).map (fun t => storedIn t s.sb.log) = [[1], [3, 4], []] ∧
    Ev.bufferMade 1 { openTime := some 1001, openInstance := true } ∈ s.sb.log :=
  ⟨by decide, fun _ => rfl, _, rfl, qSettled_of_check _ _ SB.Inv.init rfl, rfl, rfl, rfl, rfl, rfl, rfl, rfl, by decide⟩

/-- The list `[1, 3, 2, 4]`: the first session dies with the 2, which is lost; the second goes on with the 4. -/
def qBad : List QA := qStart ++ qItem 0 ++ qItem 0 ++ qItem 0 ++ [.other (.thr 0), .other (.thr 0), .close 0] ++ [.other .start, qgo, qgo, qgo, qgo, qgo, .open', .buf, qgo] ++ qItem 1

theorem C155_lost_item : ∃ s : ObjSB (St Nat) Int Int Info,
    (ObjSB.init (new 0)).exec (quick qclock (listRead [some 1, some 3, some 2, some 4])) qCfg qBad = some s ∧
    (ObjSB.init (new 0) : ObjSB (St Nat) Int Int Info).Settled (quick qclock (listRead [some 1, some 3, some 2, some 4])) qCfg qBad ∧
    storedIn 0 s.sb.log = [1, 3] ∧ refusedBy 0 s.sb.log = [2] ∧ storedIn 1 s.sb.log = [4] :=
  ⟨_, rfl, qSettled_of_check _ _ SB.Inv.init rfl, rfl, rfl, rfl⟩

/-- The same two sessions with a `read` that goes by `read_idx`: the second starts over. -/
theorem C155_idx_meets : ∃ s : ObjSB (St Unit) Int Int Info,
    (ObjSB.init (new ())).exec (quick qclock (idxRead [some 1, some 3])) qCfg
      (qStart ++ qItem 0 ++ qItem 0 ++ qNone 0 ++ qStop ++ qEnd 0 ++ qStart ++ qItem 1) = some s ∧
    (ObjSB.init (new ()) : ObjSB (St Unit) Int Int Info).Settled (quick qclock (idxRead [some 1, some 3])) qCfg
      (qStart ++ qItem 0 ++ qItem 0 ++ qNone 0 ++ qStop ++ qEnd 0 ++ qStart ++ qItem 1) ∧
    dataRead 0 s.sb.log = [1, 3] ∧ dataRead 1 s.sb.log = [1] ∧ (answered 1 s.sb.log).length = 1 :=
  ⟨_, rfl, qSettled_of_check _ _ SB.Inv.init rfl, rfl, rfl, rfl⟩

end Quick
end S2P
