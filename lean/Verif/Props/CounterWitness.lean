import Verif.Props.Counter
import Verif.Props.SBWitness
/- Concrete executions for C64. -/
namespace S2P
open Spec
namespace Counter

abbrev A := ObjAct Int (List Char) Info
abbrev S := ObjSB St Int (List Char) Info

/-- A stream buffer for the counter. -/
def cCfg (m : Option Nat) (start stop : Int) : SBCfg Int (List Char) :=
  { maxlen := m, autoDrop := true, key := (counter start stop).keyOr 0, keyNone := .error .typeError,
    rdCfg := fun _ => { n := 1, peek := false, ignore := true, strict := false } }

theorem cFits (m : Option Nat) (start stop : Int) : ObjSB.Fits (counter start stop) (cCfg m start stop) := by
  intro v k h; simp [cCfg, SrcObj.keyOr, h]

def go : A := .other .startGo
/-- The first `start()`. -/
def cStart : List A := [.other .start, go, go, go, go, go, .open', .buf, go]
/-- A `start()` on a running stream. -/
def cRestart : List A := [.other .start, go, go, go, go, go, go, go, .open', .buf, go]
/-- Thread `t` reads and stores. -/
def cItem (t : Nat) : List A := [.other (.thr t), .other (.thr t), .read t, .other (.thr t), .store t]
/-- Thread `t` reads `None`. -/
def cNone (t : Nat) : List A := [.other (.thr t), .other (.thr t), .read t, .other (.thr t)]
/-- Thread `t` notices the stop event and ends. -/
def cEnd (t : Nat) : List A := [.other (.thr t), .other (.thr t), .close t]

/-- Check of `Settled`. -/
def settledOk (o : SrcObj St Int (List Char) Info) (cfg : SBCfg Int (List Char)) : S → List A → Bool
  | _, [] => true
  | s, x :: xs =>
    (match x, s.sb.start with
      | .other .startGo, some .wipe => (List.range s.sb.n).all (fun t => (s.sb.thr t).idle)
      | _, _ => true) &&
    (match s.step o cfg x with | some s' => settledOk o cfg s' xs | none => true)

theorem settled_of_check {o : SrcObj St Int (List Char) Info} {cfg : SBCfg Int (List Char)} (xs : List A) :
    ∀ s : S, s.sb.Inv → settledOk o cfg s xs = true → s.Settled o cfg xs := by
  induction xs with
  | nil => intro s _ _; trivial
  | cons x xs ih =>
    intro s hi h
    simp only [settledOk, Bool.and_eq_true] at h
    refine ⟨?_, fun s' hs' => ?_⟩
    · intro a hx ha hs t
      subst hx; subst ha
      rw [hs] at h
      have h1 := h.1
      simp only [List.all_eq_true, List.mem_range] at h1
      by_cases ht : t < s.sb.n
      · have := h1 t ht
        cases hp : s.sb.thr t <;> rw [hp] at this <;> simp [TPC.idle] at this ⊢
      · exact .inl (hi.noThr t (by omega))
    · have h2 := h.2
      rw [hs'] at h2
      obtain ⟨a, ha, -⟩ := (ObjSB.below hs').sb
      exact ih s' (hi.step ha) h2

/-- `SimpleCounterString(-1, 1)`: a whole session, stop, a second session. -/
def cFlow : List A := cStart ++ cItem 0 ++ cItem 0 ++ cNone 0 ++ [.other .stop, .other .stopEnd] ++ cEnd 0 ++ 
  [.other .start, go, go, go, go, go, .open', .buf, go] ++ cItem 1 ++
  [.other (.rd 1 (.callNext 0)), .other (.rd 1 (.go 0))] ++ cItem 1 ++ cNone 1

theorem cOne : ∀ a, .other a ∈ cFlow → SB.OneUser 1 0 a := by
  intro a ha
  simp only [cFlow, cStart, cItem, cNone, cEnd, go, List.cons_append, List.nil_append, List.mem_cons, List.not_mem_nil, ObjAct.other.injEq, reduceCtorEq,
    or_false, false_or] at ha
  rcases ha with h | h | h | h | h | h | h | h | h | h | h | h | h | h | h | h | h | h | h | h | h | h | h | h | h | h | h | h | h | h | h | h | h |
    h | h | h | h | h | h | h | h | h | h | h | h | h | h | h | h | h | h | h | h | h
  all_goals first | (rw [h]; trivial) | (rw [h]; intro _; trivial) | trivial

theorem C64_meets : ∃ (s : S) (c : Cons Int (List Char)), (ObjSB.init new).exec (counter (-1) 1) (cCfg none (-1) 1) cFlow = some s ∧
    (ObjSB.init new : S).Settled (counter (-1) 1) (cCfg none (-1) 1) cFlow ∧ (∀ a, .other a ∈ cFlow → SB.OneUser 1 0 a) ∧ s.sb.view 1 = some c ∧
    dataRead 0 s.sb.log = [['s', '-', '1'], ['s', '0']] ∧ received c 0 = [['s', '-', '1']] ∧ unreadOf c.ch 0 = [['s', '0']] ∧
    Ev.read 1 none ∈ s.sb.log ∧ Ev.bufferMade 1 { start := -1, stop := 1, openCount := 2 } ∈ s.sb.log :=
  ⟨_, _, rfl, settled_of_check _ _ SB.Inv.init rfl, cOne, rfl, rfl, rfl, rfl, by decide, by decide⟩

/-- `restart` while the old thread is between its last look at the event and `close()`: the old thread closes the source under the new one, whose
`read()` raises, and the stream is dead. -/
def cBad : List A := cStart ++ cItem 0 ++ [.other .stop, .other .stopEnd, .other (.thr 0), .other (.thr 0)] ++
  [.other .start, go, go, go, go, go, .open', .buf, go] ++ [.other (.thr 1), .other (.thr 1)] ++ [.close 0] ++ [.read 1]

/-- **C64** fails without settledness: the second session gets a `TypeError` from its first `read()`. -/
theorem C64_refuted : ∃ s : S, (ObjSB.init new).exec (counter 0 5) (cCfg none 0 5) cBad = some s ∧ Ev.readRaised 1 .typeError ∈ s.sb.log ∧
    answered 1 s.sb.log = [.error .typeError] ∧ ¬ (∀ e ∈ s.sb.log, isDeath e = false) :=
  ⟨_, rfl, by decide, rfl, fun h => by have := h (.readRaised 1 .typeError) (by decide); simp [isDeath] at this⟩

end Counter
end S2P
