import Verif.Props.HttpSource
import Verif.Props.SBWitness
import Mathlib.Data.List.Lex
/- Concrete executions for C71. Bytes, characters and times are numbers. -/
namespace S2P
open Spec
namespace HttpSrc

abbrev A := ObjAct (Nat ×ₗ List Nat) (Nat × List Nat) Nat
abbrev S := ObjSB (St Nat) (Nat ×ₗ List Nat) (Nat × List Nat) Nat

def hCfg (m : Option Nat) : SBCfg (Nat ×ₗ List Nat) (Nat × List Nat) :=
  { maxlen := m, autoDrop := true, key := toLex, keyNone := .error .typeError,
    rdCfg := fun _ => { n := 1, peek := false, ignore := true, strict := false } }

/-- A web with these pieces for the first two responses (and empty ones then), and this clock. -/
def web (p0 p1 : List (List Nat)) (clock : Nat → Nat) : Web Nat Nat :=
  { responses := fun k => .ok ((if k = 0 then p0 else if k = 1 then p1 else []).map .ok), clock := clock }

theorem web_smooth (p0 p1 : List (List Nat)) (clock : Nat → Nat) : Smooth (web p0 p1 clock) := by
  intro k l h
  simp only [web, Except.ok.injEq] at h
  exact ⟨_, h.symm⟩

def bytes (b : List Nat) : Py (List Nat) := .ok b

theorem hFits (w : Web Nat Nat) (m : Option Nat) (d : List Nat → Py (List Nat)) : ObjSB.Fits (http w d) (hCfg m) := by
  intro v k h; simp only [http, Except.ok.injEq] at h; exact h

def go : A := .other .startGo
/-- A `start()` on a stream that is not running. -/
def hStart : List A := [.other .start, go, go, go, go, go, .open', .buf, go]
/-- Thread `t` reads and stores. -/
def hItem (t : Nat) : List A := [.other (.thr t), .other (.thr t), .read t, .other (.thr t), .store t]
/-- Thread `t` notices the stop event and ends. -/
def hEnd (t : Nat) : List A := [.other (.thr t), .other (.thr t), .close t]

/-- Check of `Calm`. -/
def calmOk (o : SrcObj (St Nat) (Nat ×ₗ List Nat) (Nat × List Nat) Nat) (cfg : SBCfg (Nat ×ₗ List Nat) (Nat × List Nat)) : S → List A → Bool
  | _, [] => true
  | s, x :: xs =>
    (match x with
      | .other .start => (List.range s.sb.n).all (fun t => (s.sb.thr t).idle)
      | _ => true) &&
    (match s.step o cfg x with | some s' => calmOk o cfg s' xs | none => true)

theorem calm_of_check {o : SrcObj (St Nat) (Nat ×ₗ List Nat) (Nat × List Nat) Nat} {cfg : SBCfg (Nat ×ₗ List Nat) (Nat × List Nat)} (xs : List A) :
    ∀ s : S, s.sb.Inv → calmOk o cfg s xs = true → s.Calm o cfg xs := by
  induction xs with
  | nil => intro s _ _; trivial
  | cons x xs ih =>
    intro s hi h
    simp only [calmOk, Bool.and_eq_true] at h
    refine ⟨?_, fun s' hs' => ?_⟩
    · intro hx t
      subst hx
      have h1 := h.1
      simp only [List.all_eq_true, List.mem_range] at h1
      by_cases ht : t < s.sb.n
      · exact h1 t ht
      · rw [hi.noThr t (by omega)]; rfl
    · have h2 := h.2
      rw [hs'] at h2
      obtain ⟨a, ha, -⟩ := (ObjSB.below hs').sb
      exact ih s' (hi.step ha) h2

/-- Two sessions: of the first response one piece is read; the second one is read beyond its end, the consumer having got its first piece. -/
def hFlow : List A := hStart ++ hItem 0 ++ [.other .stop, .other .stopEnd] ++ hEnd 0 ++ hStart ++ hItem 1 ++
  [.other (.rd 1 (.callNext 0)), .other (.rd 1 (.go 0))] ++ hItem 1 ++ hItem 1

theorem hOne : ∀ a, .other a ∈ hFlow → SB.OneUser 1 0 a := by
  intro a ha
  simp only [hFlow, hStart, hItem, hEnd, go, List.cons_append, List.nil_append, List.mem_cons, List.not_mem_nil, ObjAct.other.injEq, reduceCtorEq,
    or_false, false_or] at ha
  repeat' first | (rcases ha with h | ha; rw [h]; first | trivial | (intro _; trivial)) | (rw [ha]; first | trivial | (intro _; trivial))

theorem C71_meets : ∃ (s : S) (c : Cons (Nat ×ₗ List Nat) (Nat × List Nat)),
    (ObjSB.init new).exec (http (web [[1, 2], [3]] [[4], [5, 6]] fun n => n) bytes) (hCfg none) hFlow = some s ∧
    (ObjSB.init new : S).Calm (http (web [[1, 2], [3]] [[4], [5, 6]] fun n => n) bytes) (hCfg none) hFlow ∧ Smooth (web [[1, 2], [3]] [[4], [5, 6]] fun n => n) ∧
    Ticks (web [[1, 2], [3]] [[4], [5, 6]] fun n => n) ∧ (∀ a, .other a ∈ hFlow → SB.OneUser 1 0 a) ∧ s.sb.view 1 = some c ∧
    received c 0 = [(1, [4])] ∧ unreadOf c.ch 0 = [(2, [5, 6]), (3, [])] :=
  ⟨_, _, rfl, calm_of_check _ _ SB.Inv.init rfl, web_smooth _ _ _, fun n => Nat.lt_succ_self n, hOne, rfl, rfl, rfl⟩

/-- **C71** is false if the clock does not move on: two reads at the end of the response at the same time give the same key; the second one is refused and the
thread ends, although nobody stopped the stream. -/
theorem C71_clock_needed : ∃ s : S, (ObjSB.init new).exec (http (web [[7]] [] fun n => if n = 0 then 1 else 2) bytes) (hCfg none)
      (hStart ++ hItem 0 ++ hItem 0 ++ hItem 0) = some s ∧
    Ev.refused 0 0 (2, []) .valueError ∈ s.sb.log ∧ dataRead 0 s.sb.log = [(1, [7]), (2, []), (2, [])] ∧ s.sb.log.all (fun e => match e with | .stopCalled _ => false | _ => true) = true :=
  ⟨_, rfl, by decide, rfl, rfl⟩

/-- `bytes.decode('utf-8')` for sequences of one and two bytes. Simplified: longer ones are an error. `UnicodeDecodeError` is a `ValueError`. -/
def utf8 : List Nat → Py (List Nat)
  | [] => .ok []
  | b :: l =>
    if b < 128 then (utf8 l).map (b :: ·)
    else if 194 ≤ b ∧ b < 224 then
      match l with
      | c :: l' => if 128 ≤ c ∧ c < 192 then (utf8 l').map (((b - 192) * 64 + (c - 128)) :: ·) else .error .valueError
      | [] => .error .valueError
    else .error .valueError

/-- **C71** is false for encodings with characters of several bytes: a character at the border of two pieces (`response_read_args`) makes `read()` raise and
ends the thread, although the body is well encoded. -/
theorem C71_encoding_needed : utf8 [97, 195, 169] = .ok [97, 233] ∧
    ∃ s : S, (ObjSB.init new).exec (http (web [[97, 195], [169]] [] fun n => n) utf8) (hCfg none)
      (hStart ++ [.other (.thr 0), .other (.thr 0), .read 0]) = some s ∧ Ev.readRaised 0 .valueError ∈ s.sb.log :=
  ⟨rfl, _, rfl, by decide⟩

end HttpSrc
end S2P
