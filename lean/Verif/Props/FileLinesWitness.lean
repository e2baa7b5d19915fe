import Verif.Props.FileLines
import Verif.Props.SBWitness
/- Concrete executions for C102 and C103: a file of three lines. -/
namespace S2P
open Spec
namespace SimplySrc

abbrev A := ObjAct Nat (SItem Nat) (Option Nat)
abbrev S := ObjSB (St Files Nat) Nat (SItem Nat) (Option Nat)

def fCfg : SBCfg Nat (SItem Nat) :=
  { maxlen := none, autoDrop := true, key := fun | .pair i _ => i | .raw _ => 0, keyNone := .error .typeError, rdCfg := fun _ => Cfg.default }

/-- The file. -/
def fFile : Fns Files Nat Nat Nat (Option Nat) := lines [70, 80, 90]

def go : A := .other .startGo
/-- A `start()` on a stream that is not running. -/
def fStart : List A := [.other .start, go, go, go, go, go, .open', .buf, go]
/-- Thread `t` reads and stores. -/
def fItem (t : Nat) : List A := [.other (.thr t), .other (.thr t), .read t, .other (.thr t), .store t]
/-- Thread `t` notices the stop event and ends. -/
def fEnd (t : Nat) : List A := [.other (.thr t), .other (.thr t), .close t]

/-- Check of `Calm`. -/
def calmOk (o : SrcObj (St Files Nat) Nat (SItem Nat) (Option Nat)) (cfg : SBCfg Nat (SItem Nat)) : S → List A → Bool
  | _, [] => true
  | s, x :: xs =>
    (match x with
      | .other .start => (List.range s.sb.n).all (fun t => (s.sb.thr t).idle)
      | _ => true) &&
    (match s.step o cfg x with | some s' => calmOk o cfg s' xs | none => true)

theorem calm_of_check {o : SrcObj (St Files Nat) Nat (SItem Nat) (Option Nat)} {cfg : SBCfg Nat (SItem Nat)} (xs : List A) :
    ∀ s : S, s.sb.Inv → calmOk o cfg s xs = true → s.Calm o cfg xs := by
  induction xs with
  | nil => intro s _ _; trivial
  | cons x xs ih =>
    intro s hi h
    simp only [calmOk, Bool.and_eq_true] at h
    refine ⟨?_, fun s' hs' => ?_⟩
    · intro hx t
      subst hx
      have h1 := h.1
      simp only [List.all_eq_true, List.mem_range] at h1
      by_cases ht : t < s.sb.n
      · exact h1 t ht
      · rw [hi.noThr t (by omega)]; rfl
    · have h2 := h.2
      rw [hs'] at h2
      obtain ⟨a, ha, -⟩ := (ObjSB.below hs').sb
      exact ih s' (hi.step ha) h2

/-- Two sessions: one line is read in the first, four times `read()` in the second. -/
def fFlow : List A := fStart ++ fItem 0 ++ [.other .stop, .other .stopEnd] ++ fEnd 0 ++ fStart ++ fItem 1 ++ fItem 1 ++ fItem 1 ++ fItem 1 ++ fItem 1 ++ fItem 1

def noInfoRaised (l : List (Ev (SItem Nat) (Option Nat))) : Bool := l.all fun | .infoRaised _ => false | _ => true

theorem noInfoRaised_spec {l : List (Ev (SItem Nat) (Option Nat))} (h : noInfoRaised l = true) (k : Nat) : Ev.infoRaised k ∉ l := by
  intro hk
  have := List.all_eq_true.1 h _ hk
  simp at this

theorem C102_meets : ∃ s : S, (ObjSB.init (new .none)).exec (simply fFile) fCfg fFlow = some s ∧
    (ObjSB.init (new .none) : S).Calm (simply fFile) fCfg fFlow ∧ (∀ k, Ev.infoRaised k ∉ s.sb.log) ∧
    s.st.uses = [.opened (some 0), .read (some 0), .closed (some 0), .opened (some 1), .read (some 1), .read (some 1), .read (some 1), .read (some 1),
      .read (some 1), .read (some 1)] :=
  ⟨_, rfl, calm_of_check _ _ SB.Inv.init rfl, noInfoRaised_spec rfl, rfl⟩

theorem C103_meets : ∃ (s : S) (c : Cons Nat (SItem Nat)), (ObjSB.init (new .none)).exec (simply fFile) fCfg fFlow = some s ∧
    (ObjSB.init (new .none) : S).Calm (simply fFile) fCfg fFlow ∧ (∀ i (d : Option Nat), fCfg.key (.pair i d) = i) ∧ s.sb.view 1 = some c ∧
    6 * (1 + 1) + 15 ≤ fFlow.countP (·.ofThread 1) ∧ c.ch.buf.items = numbered [70, 80, 90] 6 ∧
    (c.ch.step (.rd 0 (.range 1 2 none false none false false false))).2 = .ok (.many [.pair 1 (some 80), .pair 2 (some 90)]) :=
  ⟨_, _, rfl, calm_of_check _ _ SB.Inv.init rfl, fun _ _ => rfl, rfl, by decide, rfl, rfl⟩

/-- **C102** a restart while the old thread is about to close: it closes the new file under the new thread, whose `read_stream` raises; the old file is never
closed. -/
theorem C102_calm_needed : ∃ s : S, (ObjSB.init (new .none)).exec (simply fFile) fCfg
      (fStart ++ fItem 0 ++ [.other .stop, .other .stopEnd, .other (.thr 0), .other (.thr 0)] ++ fStart ++ [.other (.thr 1), .other (.thr 1)] ++
        [.close 0, .read 1, .other (.thr 1), .other (.thr 1), .close 1]) = some s ∧
    s.st.uses = [.opened (some 0), .read (some 0), .opened (some 1), .closed (some 1), .read (some 1), .closed (some 1)] ∧
    ¬ OneAtATime none s.st.uses ∧ answered 1 s.sb.log = [.error .valueError] ∧ (∀ t, (s.sb.thr t).idle = true) ∧ some 0 ∉ closedOf s.st.uses := by
  refine ⟨_, rfl, rfl, ?_, rfl, ?_, by decide⟩
  · intro h
    exact absurd h.2.2.1 (by decide)
  · intro t
    rcases t with _ | _ | t <;> rfl

/-- A file with an `info` that raises. -/
def fBad : Fns Files Nat Nat Nat (Option Nat) := { fFile with info := some fun _ _ => .error .valueError }

/-- **C102** if `info` raises, the file is left open. -/
theorem C102_info_needed : ∃ s : S, (ObjSB.init (new .none)).exec (simply fBad) fCfg [.other .start, go, go, go, go, go, .open', .buf] = some s ∧
    (ObjSB.init (new .none) : S).Calm (simply fBad) fCfg [.other .start, go, go, go, go, go, .open', .buf] ∧ s.sb.start = none ∧
    (∀ t, (s.sb.thr t).idle = true) ∧ s.st.uses = [.opened (some 0)] := by
  refine ⟨_, rfl, calm_of_check _ _ SB.Inv.init rfl, rfl, ?_, rfl⟩
  intro t
  rcases t with _ | t <;> rfl

end SimplySrc
end S2P
