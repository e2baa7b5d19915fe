import Verif.Props.JoinLive
import Verif.Props.EndToEndWitness
/- Concrete executions for C65 and C66. -/
namespace S2P
open Spec
namespace JSB

abbrev J := JSB Nat Nat Nat

/-- Check of `Careful` on the sessions launched so far. -/
def carefulOk (cfg : SBCfg Nat Nat) : J → List (JAct Nat Nat Nat) → Bool
  | _, [] => true
  | s, x :: xs =>
    (match x with
      | .sb .start => s.sb.log.all (fun e => match e with | .launched t => decide (JEv.joined t ∈ s.joins) | _ => true)
      | _ => true) &&
    (match s.step cfg x with | some s' => s'.carefulOk cfg xs | none => true)

theorem careful_of_check {cfg : SBCfg Nat Nat} (xs : List (JAct Nat Nat Nat)) : ∀ s : J, s.carefulOk cfg xs = true → s.Careful cfg xs := by
  induction xs with
  | nil => intro s _; trivial
  | cons x xs ih =>
    intro s h
    simp only [carefulOk, Bool.and_eq_true] at h
    refine ⟨?_, fun s' hs' => ?_⟩
    · rintro rfl t ht
      have h1 := List.all_eq_true.1 h.1 _ ht
      simpa using h1
    · have h2 := h.2
      rw [hs'] at h2
      exact ih s' h2

/-- Actions of the stream buffer, no `join()`. -/
def lift (as : List SB.A) : List (JAct Nat Nat Nat) := as.map .sb

/-- Start, two items, `stop()`; caller 0 looks at `join` while the thread is inside `read()`, which returns one more item; the thread ends; `join()`
returns; start again, one item. -/
def wCareful : List (JAct Nat Nat Nat) :=
  lift (SB.wStart 7 ++ SB.wItem 0 1 ++ SB.wItem 0 2 ++ [.thr 0, .thr 0, .stop, .stopEnd]) ++ [.look 0] ++
  lift [.readOk 0 (some 3), .thr 0, .thr 0, .thr 0, .thr 0, .close 0 true] ++ [.wait 0] ++ lift (SB.wStart 8 ++ SB.wItem 1 5 ++ SB.wNext 1)

/-- Meets C65 and C66: two sessions, the first joined, everything it read stored, a consumer of the second one got the item. -/
theorem C66_meets : ∃ (s : J) (c : Cons Nat Nat), JSB.init.exec (SB.mkCfg none true) wCareful = some s ∧
    (JSB.init : J).Careful (SB.mkCfg none true) wCareful ∧ s.joins = [.joined 0] ∧ s.sb.items 0 = [1, 2, 3] ∧ dataRead 0 s.sb.log = [1, 2, 3] ∧
    (∀ k, Ev.infoRaised k ∉ s.sb.log) ∧ s.sb.view 1 = some c ∧ received c 0 = [5] ∧ 0 + 1 < s.sb.n ∧
    (∀ a, .sb a ∈ wCareful → SB.OneUser 1 0 a) :=
  ⟨_, _, rfl, careful_of_check _ _ rfl, rfl, rfl, rfl, SB.no_info rfl, rfl, rfl, by decide, fun a ha => by
    refine SB.oneUser_of_check (as := sbActs wCareful) rfl a ?_
    have key : ∀ xs : List (JAct Nat Nat Nat), .sb a ∈ xs → a ∈ sbActs xs := by
      intro xs
      induction xs with
      | nil => simp
      | cons x xs ih => cases x <;> simp [sbActs] <;> grind
    exact key _ ha⟩

/-- Meets C89: `stop()` while the thread is inside `read()`, a caller waits in `join()`; 6 steps of the thread later it can go on. -/
theorem C89_meets : ∃ s s' : J, JSB.init.exec (SB.mkCfg none true) (lift (SB.wStart 7 ++ [.thr 0, .thr 0, .stop, .stopEnd]) ++ [.look 0]) = some s ∧
    s.exec (SB.mkCfg none true) (lift [.readOk 0 (some 3), .thr 0, .thr 0, .thr 0, .thr 0, .close 0 true]) = some s' ∧
    (JSB.init : J).Careful (SB.mkCfg none true) (lift (SB.wStart 7 ++ [.thr 0, .thr 0, .stop, .stopEnd]) ++ [.look 0] ++
      lift [.readOk 0 (some 3), .thr 0, .thr 0, .thr 0, .thr 0, .close 0 true]) ∧
    Ev.eventSet 0 ∈ s.sb.log ∧ s'.waits 0 = some 0 ∧ s.step (SB.mkCfg none true) (.wait 0) = none ∧
    (s'.step (SB.mkCfg none true) (.wait 0)).map (·.joins) = some [.joined 0] :=
  ⟨_, _, rfl, rfl, careful_of_check _ _ rfl, by decide +kernel, rfl, rfl, rfl⟩

/-- While the thread is inside `read()`, `join()` blocks. -/
example : ∃ s : J, JSB.init.exec (SB.mkCfg none true) (lift (SB.wStart 7 ++ [.thr 0, .thr 0, .stop, .stopEnd]) ++ [.look 0]) = some s ∧
    s.waits 0 = some 0 ∧ s.step (SB.mkCfg none true) (.wait 0) = none := ⟨_, rfl, rfl, rfl⟩

/-- `join()` before the first `start()` raises `AttributeError`, as there is no thread. -/
theorem C65_join_before_start : ∃ s : J, JSB.init.exec (SB.mkCfg none true) [.look 0] = some s ∧ s.joins = [.raised .attributeError] := ⟨_, rfl, rfl⟩

/-- `join()` after a `start()` that failed raises `RuntimeError`: the thread was made but never started, and this also hides the thread of the session
before. -/
theorem C65_join_after_failed_start : ∃ s : J, JSB.init.exec (SB.mkCfg none true)
      (lift (SB.wStart 7 ++ SB.wItem 0 1 ++ SB.wStop 0 ++ SB.wStartFails) ++ [.look 0, .wait 0]) = some s ∧
    s.joins = [.raised .runtimeError] := ⟨_, rfl, rfl⟩

/-- `start(); stop(); start()` is not careful, and goes wrong: `join()` then waits for the second thread only. -/
theorem C65_join_waits_for_last : ∃ s : J, JSB.init.exec (SB.mkCfg none true)
      (lift (SB.wStart 7 ++ [.thr 0, .thr 0] ++ SB.wRestart 8 ++ SB.wStop 1) ++ [.look 0, .wait 0]) = some s ∧
    s.joins = [.joined 1] ∧ s.sb.thr 0 = .reading := ⟨_, rfl, rfl, rfl⟩

/-- Meets `C66_one_start_settled`. -/
example : ∃ s : SB.S, SB.init.exec (SB.mkCfg none true) SB.wFlow = some s ∧ startsIn SB.wFlow ≤ 1 ∧ dataRead 0 s.log = [1, 2, 3, 4] :=
  ⟨_, rfl, by decide, rfl⟩

end JSB
end S2P
