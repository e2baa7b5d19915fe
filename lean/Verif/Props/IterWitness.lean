import Verif.Props.IterBuffer
import Verif.Props.LoopWitness
/- Cases for Props/IterBuffer.lean. -/
namespace S2P
open Spec
namespace GSB

abbrev GS := GSB Nat Nat Nat
abbrev GA := GAct Nat Nat Nat

/-- Check of `Settled` on the threads that exist. -/
def settledOk {K V I : Type} [LT K] [DecidableLT K] [BEq V] (cfg : SBCfg K V) : GSB K V I → List (GAct K V I) → Bool
  | _, [] => true
  | s, a :: as =>
    (match a, s.sb.start with
      | .sb .startGo, some .wipe => (List.range s.sb.n).all (fun t => (s.sb.thr t).idle)
      | _, _ => true) &&
    (match s.step cfg a with | some s' => s'.settledOk cfg as | none => true)

theorem settled_of_check {cfg : SBCfg Nat Nat} {as : List GA} : ∀ {s : GS}, s.sb.Inv → s.settledOk cfg as = true → s.Settled cfg as := by
  induction as with
  | nil => intro s _ _; trivial
  | cons a as ih =>
    intro s hi h
    simp only [settledOk, Bool.and_eq_true] at h
    refine ⟨?_, fun s' hs' => ?_⟩
    · rintro x rfl hx hs t
      subst hx
      rw [hs] at h
      have h1 := h.1
      simp only [List.all_eq_true, List.mem_range] at h1
      by_cases ht : t < s.sb.n
      · exact h1 t ht
      · rw [hi.noThr t (by omega)]; rfl
    · have h2 := h.2
      rw [hs'] at h2
      refine ih ?_ h2
      rcases step_act 0 hs' with ⟨e, -⟩ | ⟨x, hx, -⟩
      · rw [e]; exact hi
      · exact hi.step hx

theorem noClose_of_check {g : Nat} {as : List GA} (h : as.all (fun a => !a.isClose g) = true) : ∀ a ∈ as, a.isClose g = false := fun a ha => by
  simpa using List.all_eq_true.1 h a ha

/-- Steps not about iterators. -/
def rest (l : List SB.A) : List GA := l.map .sb
/-- The first `next` of iterator `g` with an item there, / a later one. -/
def first (g : Nat) : List GA := [.next g, .go g, .go g, .go g]
def later (g : Nat) : List GA := [.next g, .go g]

/-- An iterator is made in session 0, the stream restarted, and only then the iterator used: it reads session 1. After the loop was left, another loop
begins at the beginning of session 1 again. `next` of an iterator that was left raises `StopIteration`. -/
theorem C152_meets : ∃ s : GS, GSB.init.exec (SB.mkCfg none true)
      (rest (SB.wStart 7 ++ SB.wItem 0 5) ++ [.iter 0] ++ rest (SB.wStop 0 ++ SB.wStart 8 ++ SB.wItem 1 1 ++ SB.wItem 1 2) ++ first 0 ++ [.close 0, .iter 1] ++
        first 1 ++ later 1 ++ [.next 0]) = some s ∧
    outsOf 0 s.res = [.item (.one 1), .stop] ∧ outsOf 1 s.res = [.item (.one 1), .item (.one 2)] ∧ (s.gens 0).session = some 1 ∧
    (s.gens 1).session = some 1 ∧ storedIn 0 s.sb.log = [5] ∧ storedIn 1 s.sb.log = [1, 2] :=
  ⟨_, rfl, rfl, rfl, rfl, rfl, rfl, rfl⟩

/-- Without `start()`: `StreamNotStartedError` at the first `next`, then `StopIteration`, also when the stream was started meanwhile. -/
theorem C152_meets_not_started : ∃ s s1 : GS, GSB.init.exec (SB.mkCfg none true) [.iter 0, .next 0] = some s ∧ s.gens 0 = .called ∧ s.sb.sourceBuffer = none ∧
    s.exec (SB.mkCfg none true) (.go 0 :: rest (SB.wStart 7 ++ SB.wItem 0 5) ++ [.next 0]) = some s1 ∧
    outsOf 0 s1.res = [.raised .streamNotStarted, .stop] :=
  ⟨_, _, rfl, rfl, rfl, rfl, rfl⟩

/-- Two items are stored and the iterator, after a `next` that came while it was running, is at the first; 3 is stored. -/
def wIn : List GA := rest (SB.wStart 7) ++ [.iter 0, .next 0, .go 0, .go 0, .next 0] ++ rest (SB.wItem 0 1 ++ SB.wItem 0 2) ++ [.go 0] ++ rest (SB.wItem 0 3)
/-- It is asked for two more, and for another one which is not there. -/
def wOn : List GA := later 0 ++ later 0 ++ .next 0 :: List.replicate 6 (.go 0)

/-- Meets C152 (gets all). -/
theorem C152_meets_all : ∃ (s s' : GS) (c : Cons Nat Nat), GSB.init.exec (SB.mkCfg none true) wIn = some s ∧ s.gens 0 = .at 0 ∧
    s.exec (SB.mkCfg none true) wOn = some s' ∧ (∀ a ∈ wOn, a.isClose 0 = false) ∧ s.sb.view 0 = some c ∧
    (∀ c', s'.sb.view 0 = some c' → c'.stopped = false) ∧ 2 * (unreadOf c.ch (genRd 0)).length + 2 ≤ wOn.countP (GAct.isGo 0) ∧
    handed 0 s'.res = [1, 2, 3] ∧ (SB.mkCfg none true).rdCfg (genRd 0) = Cfg.default :=
  ⟨_, _, _, rfl, rfl, rfl, noClose_of_check rfl, rfl, fun c' h => by injection h with h; subst h; rfl, by decide +kernel, rfl, rfl⟩

/-- Stop, the source is closed. -/
def wHalt : List GA := wIn ++ rest (SB.wStop 0)
/-- What is left, and the end. -/
def wEnd : List GA := later 0 ++ later 0 ++ .next 0 :: (List.replicate 2 (.go 0))

/-- C152 (ends): the loop is handed what was left and ends. -/
theorem C152_meets_end : ∃ (s s' : GS), GSB.init.exec (SB.mkCfg none true) wHalt = some s ∧ s.gens 0 = .at 0 ∧
    s.exec (SB.mkCfg none true) wEnd = some s' ∧ (∀ a ∈ wEnd, a.isClose 0 = false) ∧ .closed 0 true ∈ s.sb.log ∧
    GSB.init.Settled (SB.mkCfg none true) (wHalt ++ wEnd) ∧
    outsOf 0 s'.res = [.item (.one 1), .item (.one 2), .item (.one 3), .stop] ∧ s'.gens 0 = .over (some 0) := by
  have h : ∃ (s s' : GS), GSB.init.exec (SB.mkCfg none true) wHalt = some s ∧ s.gens 0 = .at 0 ∧
    s.exec (SB.mkCfg none true) wEnd = some s' ∧ s.sb.log.getLast? = some (.closed 0 true) ∧
    outsOf 0 s'.res = [.item (.one 1), .item (.one 2), .item (.one 3), .stop] ∧ s'.gens 0 = .over (some 0) := ⟨_, _, rfl, rfl, rfl, rfl, rfl, rfl⟩
  obtain ⟨s, s', h1, h2, h3, h4, h5, h6⟩ := h
  exact ⟨s, s', h1, h2, h3, noClose_of_check rfl, List.mem_of_getLast? h4, settled_of_check SB.Inv.init rfl, h5, h6⟩

end GSB
end S2P
