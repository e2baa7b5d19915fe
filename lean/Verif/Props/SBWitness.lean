import Verif.Props.Lifecycle
/-
Concrete executions of the StreamBuffer machine: cases that meet the hypotheses of the theorems of Props/StreamBuffer.lean and
Props/Lifecycle.lean, and counterexamples to the properties that fail as stated. Keys are the items themselves, `info` is a number.
-/
namespace S2P
open Spec
namespace SB

/-- Check of `Settled` on the threads that exist. -/
def settledOk {K V I : Type} [LT K] [DecidableLT K] [BEq V] (cfg : SBCfg K V) : SB K V I → List (SBAct K V I) → Bool
  | _, [] => true
  | s, a :: as =>
    (match a, s.start with
      | .startGo, some .wipe => (List.range s.n).all (fun t => (s.thr t).idle)
      | _, _ => true) &&
    (match s.step cfg a with | some s' => s'.settledOk cfg as | none => true)

theorem Settled.of_check {K V I : Type} [LT K] [DecidableLT K] [BEq V] {cfg : SBCfg K V} (as : List (SBAct K V I)) :
    ∀ s : SB K V I, s.Inv → s.settledOk cfg as = true → s.Settled cfg as := by
  induction as with
  | nil => intro s _ _; trivial
  | cons a as ih =>
    intro s hi h
    simp only [settledOk, Bool.and_eq_true] at h
    refine ⟨?_, fun s' hs' => ?_⟩
    · intro ha hs t
      subst ha
      rw [hs] at h
      have h1 := h.1
      simp only [List.all_eq_true, List.mem_range] at h1
      by_cases ht : t < s.n
      · exact h1 t ht
      · rw [hi.noThr t (by omega)]; rfl
    · have h2 := h.2
      rw [hs'] at h2
      exact ih s' (hi.step hs') h2

theorem settled_of_check {K V I : Type} [LT K] [DecidableLT K] [BEq V] {cfg : SBCfg K V} {as : List (SBAct K V I)}
    (h : (SB.init : SB K V I).settledOk cfg as = true) : (SB.init : SB K V I).Settled cfg as := Settled.of_check as _ Inv.init h

deriving instance DecidableEq for Ev

instance decProtocol {V I : Type} : (o : Bool) → (l : List (Ev V I)) → Decidable (protocolOk o l)
  | _, [] => .isTrue trivial
  | o, e :: l => by
    have h0 := decProtocol o l
    have h1 := decProtocol true l
    have h2 := decProtocol false l
    cases e <;> simp only [protocolOk] <;> infer_instance

theorem no_info {l : List (Ev Nat Nat)} (h : l.all (fun | .infoRaised _ => false | _ => true) = true) (k : Nat) : Ev.infoRaised k ∉ l := by
  intro hm; have := List.all_eq_true.1 h _ hm; simp at this

theorem no_openRaised {l : List (Ev Nat Nat)} (h : l.all (fun | .openRaised _ => false | _ => true) = true) (k : Nat) : Ev.openRaised k ∉ l := by
  intro hk; have := List.all_eq_true.1 h _ hk; simp at this

theorem no_open {l : List (Ev Nat Nat)} (h : l.all (fun | .opened _ => false | _ => true) = true) (k : Nat) : Ev.opened k ∉ l := by
  intro hm; have := List.all_eq_true.1 h _ hm; simp at this

/-- Check of `Tidy` when only caller 0 uses `next`. -/
def tidyOk {K V I : Type} [LT K] [DecidableLT K] [BEq V] (cfg : SBCfg K V) : SB K V I → List (SBAct K V I) → Bool
  | _, [] => true
  | s, a :: as =>
    (match a, s.start with
      | .startGo, some .wipe => s.nextReader = none ∧ (s.nexts 0 = .idle ∨ s.nexts 0 = .make)
      | .next c, _ | .nextGo c, _ => c = 0
      | _, _ => true) &&
    (match s.step cfg a with | some s' => s'.tidyOk cfg as | none => true)

theorem tidy_of_check {K V I : Type} [LinearOrder K] [BEq V] {cfg : SBCfg K V} (as : List (SBAct K V I)) :
    ∀ s : SB K V I, (∀ c, c ≠ 0 → s.nexts c = .idle) → s.tidyOk cfg as = true → s.Tidy cfg as := by
  induction as with
  | nil => intro s _ _; trivial
  | cons a as ih =>
    intro s hi h
    simp only [tidyOk, Bool.and_eq_true] at h
    refine ⟨?_, fun s' hs' => ?_⟩
    · intro ha hs
      subst ha
      rw [hs] at h
      have h1 := h.1
      simp only [decide_eq_true_eq] at h1
      refine ⟨h1.1, fun c => ?_⟩
      by_cases hc : c = 0
      · rw [hc]; exact h1.2
      · exact .inl (hi c hc)
    · have h2 := h.2
      rw [hs'] at h2
      refine ih s' ?_ h2
      have h1 := h.1
      have hst := step_to hs'
      intro c hc
      cases hst
      all_goals
        try simp only [say, setThr, setBuf, setEvent, setNext, setDrop, setInfo, newSess, running] at *
      all_goals first
        | exact hi c hc
        | grind

/-- Check of `NextCare` when only caller 0 uses `next`. -/
def careOk {K V I : Type} [LT K] [DecidableLT K] [BEq V] (cfg : SBCfg K V) : Bool → SB K V I → List (SBAct K V I) → Bool
  | _, _, [] => true
  | clean, s, a :: as =>
    (match a with
      | .start => clean && decide (s.nexts 0 = .idle)
      | .next c | .nextGo c => c = 0
      | _ => true) &&
    (match s.step cfg a with
      | some s' => s'.careOk cfg (match a with | .stopEnd => true | .next _ => false | .nextGo _ => false | _ => clean) as
      | none => true)

theorem care_of_check {K V I : Type} [LinearOrder K] [BEq V] {cfg : SBCfg K V} (as : List (SBAct K V I)) :
    ∀ (clean : Bool) (p : Prop) (s : SB K V I), (clean = true → p) → (∀ c, c ≠ 0 → s.nexts c = .idle) → s.careOk cfg clean as = true → s.NextCare cfg p as := by
  induction as with
  | nil => intros; trivial
  | cons a as ih =>
    intro clean p s hp hi h
    simp only [careOk, Bool.and_eq_true] at h
    refine ⟨?_, fun s' hs' => ?_⟩
    · intro ha
      subst ha
      have h1 := h.1
      simp only [Bool.and_eq_true, decide_eq_true_eq] at h1
      refine ⟨hp h1.1, fun c => ?_⟩
      by_cases hc : c = 0
      · rw [hc]; exact h1.2
      · exact hi c hc
    · have h2 := h.2
      rw [hs'] at h2
      refine ih _ _ s' ?_ ?_ h2
      · cases a <;> simp <;> exact hp
      · have h1 := h.1
        have hst := step_to hs'
        intro c hc
        cases hst
        all_goals
          try simp only [say, setThr, setBuf, setEvent, setNext, setDrop, setInfo, newSess, running] at *
        all_goals first
          | exact hi c hc
          | grind

abbrev A := SBAct Nat Nat Nat
abbrev S := SB Nat Nat Nat

def mkCfg (maxlen : Option Nat) (autoDrop : Bool) : SBCfg Nat Nat :=
  { maxlen := maxlen, autoDrop := autoDrop, key := id, keyNone := .error .typeError, rdCfg := fun _ => Cfg.default }

/-- `start()` when nothing is running, the source reporting `info`. -/
def wStart (info : Nat) : List A := [.start, .startGo, .startGo, .startGo, .startGo, .startGo, .openOk, .bufOk info, .startGo]
/-- `start()` while a session is running: it stops it first. -/
def wRestart (info : Nat) : List A := [.start, .startGo, .startGo, .startGo, .startGo, .startGo, .startGo, .startGo, .openOk, .bufOk info, .startGo]
/-- `start()` when nothing is running and `open()` raises. -/
def wStartFails : List A := [.start, .startGo, .startGo, .startGo, .startGo, .startGo, .openRaise]
/-- Thread `t` reads `v` and stores (or fails to store) it. -/
def wItem (t v : Nat) : List A := [.thr t, .thr t, .readOk t (some v), .thr t, .thr t]
/-- The same with `auto_drop=False`: it looks at the length of the buffer first. -/
def wItemM (t v : Nat) : List A := [.thr t, .thr t, .thr t, .readOk t (some v), .thr t, .thr t]
/-- Thread `t` reads `None`. -/
def wNone (t : Nat) : List A := [.thr t, .thr t, .readOk t none, .thr t]
/-- `stop()`, after which thread `t`, about to look at the event, ends. -/
def wStop (t : Nat) : List A := [.stop, .thr t, .thr t, .close t true, .stopEnd]

/-- Two sessions with `maxlen=2`, `auto_drop=True`; the second one ends because key 4 comes after key 5. -/
def wTwo : List A := wStart 7 ++ wItem 0 1 ++ wNone 0 ++ wItem 0 2 ++ wItem 0 3 ++ wStop 0 ++ wStart 8 ++ wItem 1 5 ++ wItem 1 4 ++
  [.thr 1, .thr 1, .close 1 false]

/-- Meets C34 (eviction), C35, C36, C39, C40, C41, C42, C44: a settled execution with two sessions. -/
theorem wTwo_ok : ∃ s : S, SB.init.exec (mkCfg (some 2) true) wTwo = some s ∧ (SB.init : S).Settled (mkCfg (some 2) true) wTwo ∧
    s.start = none ∧ storedIn 0 s.log = [1, 2, 3] ∧ s.items 0 = [2, 3] ∧ storedIn 1 s.log = [5] ∧ refusedBy 1 s.log = [4] ∧
    dataRead 1 s.log = [5, 4] ∧ current s.log = some 1 ∧ Ev.closed 1 false ∈ s.log ∧ (∀ k, Ev.infoRaised k ∉ s.log) ∧
    (s.thr 1).inHand = [] ∧ 0 + 1 < s.n :=
  ⟨_, rfl, settled_of_check rfl, rfl, rfl, rfl, rfl, rfl, rfl, rfl, by decide +kernel, no_info rfl, rfl, by decide⟩

/-- `auto_drop=False`, `maxlen=2`: full after two items, so the third round sleeps; after `drop(1)` the next item fits. -/
def wManual : List A := wStart 7 ++ wItemM 0 1 ++ wItemM 0 2 ++ [.thr 0, .thr 0, .thr 0, .thr 0, .drop 4 1, .dropGo 4] ++ wItemM 0 3 ++
  [.drop 4 1, .dropGo 4, .thr 0, .thr 0, .thr 0]

/-- Meets C33: something was dropped, something is retained, the thread is reading. -/
theorem wManual_ok : ∃ s : S, SB.init.exec (mkCfg (some 2) false) wManual = some s ∧ (SB.init : S).Settled (mkCfg (some 2) false) wManual ∧
    storedIn 0 s.log = [1, 2, 3] ∧ droppedFrom 0 s.log = [1, 2] ∧ s.items 0 = [3] ∧ s.thr 0 = .reading :=
  ⟨_, rfl, settled_of_check rfl, rfl, rfl, rfl, rfl⟩

/-- A thread inside `read()` outlives the `stop()` of the next `start()`: its item ends up in the new session. `maxlen=1`, `auto_drop=False`. -/
def wOverlap : List A := wStart 7 ++ [.thr 0, .thr 0, .thr 0] ++ wRestart 8 ++ wItemM 1 5 ++ [.readOk 0 (some 6), .thr 0, .thr 0]

/-- **C33** fails without `Settled`: item 5 is lost although `auto_drop=False` and nothing was dropped. -/
theorem C33_refuted : ∃ s : S, SB.init.exec (mkCfg (some 1) false) wOverlap = some s ∧
    storedIn 1 s.log = [5, 6] ∧ droppedFrom 1 s.log = [] ∧ s.items 1 = [6] :=
  ⟨_, rfl, rfl, rfl, rfl⟩

/-- **C76** fails without `Settled`: thread 0 stored 6 in the buffer of session 1. -/
theorem C76_refuted : ∃ s : S, SB.init.exec (mkCfg (some 1) false) wOverlap = some s ∧ Ev.stored 0 1 6 ∈ s.log :=
  ⟨_, rfl, by decide +kernel⟩

/-- **C37** fails without `Settled`: two threads are inside `source.read()`. (With `auto_drop=True`.) -/
theorem C37_refuted : ∃ s : S, SB.init.exec (mkCfg (some 1) true) (wStart 7 ++ [.thr 0, .thr 0] ++ wRestart 8 ++ [.thr 1, .thr 1]) = some s ∧
    s.thr 0 = .reading ∧ s.thr 1 = .reading := ⟨_, rfl, rfl, rfl⟩

/-- **C77** fails without `Settled`: the event of session 0 is set, and its thread goes on reading and storing, as it now looks at the event of
session 1. -/
theorem C77_refuted : ∃ (s s' : S), SB.init.exec (mkCfg (some 9) true) (wStart 7 ++ [.thr 0, .thr 0] ++ wRestart 8) = some s ∧
    Ev.eventSet 0 ∈ s.log ∧ s.exec (mkCfg (some 9) true) ([.readOk 0 (some 1), .thr 0, .thr 0] ++ wItem 0 2 ++ wItem 0 3) = some s' ∧
    storedIn 1 s'.log = [1, 2, 3] := ⟨_, _, rfl, by decide +kernel, rfl, rfl⟩

/-- **C78** fails without `Settled`: the source is opened again while it is open and being read. -/
theorem C78_refuted : ∃ s : S, SB.init.exec (mkCfg (some 1) true) (wStart 7 ++ [.thr 0, .thr 0] ++ wRestart 8) = some s ∧
    ¬ protocolOk false s.log := ⟨_, rfl, by decide +kernel⟩

/-- **C78** fails if `source.info` raises: nothing closes the source, and the next `start()` opens it again. A settled execution. -/
theorem C78_refuted_info : ∃ s : S, SB.init.exec (mkCfg (some 1) true)
      ([.start, .startGo, .startGo, .startGo, .startGo, .startGo, .openOk, .bufRaise] ++ wRestart 8) = some s ∧
    (SB.init : S).Settled (mkCfg (some 1) true) ([.start, .startGo, .startGo, .startGo, .startGo, .startGo, .openOk, .bufRaise] ++ wRestart 8) ∧
    ¬ protocolOk false s.log := ⟨_, rfl, settled_of_check rfl, by decide +kernel⟩

/-- **C75** a failed restart takes the session away: `mk_reader` raises although an earlier `start()` succeeded and its readers still work. -/
theorem C75_refuted : ∃ s : S, SB.init.exec (mkCfg (some 2) true) (wStart 7 ++ wItem 0 1 ++ wStop 0 ++ wStartFails) = some s ∧
    s.start = none ∧ Ev.opened 0 ∈ s.log ∧ s.step (mkCfg (some 2) true) .mkReader = some (s.say (.madeReader (.error .streamNotStarted))) :=
  ⟨_, rfl, rfl, by decide +kernel, rfl⟩

/-- Meets C35 `current = none` after a failed start and `some` after success. -/
example : ∃ s : S, SB.init.exec (mkCfg (some 2) true) wStartFails = some s ∧ s.start = none ∧ current s.log = none ∧ (∀ k, Ev.opened k ∉ s.log) :=
  ⟨_, rfl, rfl, rfl, no_open rfl⟩

/-- **C79** fails for a `start()` that raised: `is_running` is true afterwards although nothing runs. -/
theorem C79_refuted : ∃ s : S, SB.init.exec (mkCfg (some 2) true) wStartFails = some s ∧ s.start = none ∧ (∀ t, (s.thr t).idle = true) ∧
    s.step (mkCfg (some 2) true) .isRunning = some (s.say (.isRunning true)) :=
  ⟨_, rfl, rfl, fun t => by cases t <;> rfl, rfl⟩

/-- Meets C38: thread 0 is inside `read()` when the event is set; it then reads and stores once more and ends. -/
theorem C38_meets : ∃ (s s' : S), SB.init.exec (mkCfg (some 9) true) (wStart 7 ++ [.thr 0, .thr 0, .stop]) = some s ∧
    (SB.init : S).Settled (mkCfg (some 9) true) (wStart 7 ++ [.thr 0, .thr 0, .stop]) ∧
    Ev.eventSet 0 ∈ s.log ∧ s.stopEvent = some 0 ∧ (s.thr 0).idle = false ∧
    s.exec (mkCfg (some 9) true) [.readOk 0 (some 1), .thr 0, .thr 0, .thr 0, .thr 0, .close 0 true] = some s' ∧
    s'.stopEvent = some 0 ∧ storedIn 0 s'.log = [1] ∧ s'.thr 0 = .done :=
  ⟨_, _, rfl, settled_of_check rfl, by decide +kernel, rfl, rfl, rfl, rfl, rfl, rfl⟩

/-- Meets C42: running, then not running after the thread died of an exception in `read()`. -/
example : ∃ s : S, SB.init.exec (mkCfg (some 2) true) (wStart 7 ++ wItem 0 1 ++ [.thr 0, .thr 0, .readRaise 0 .runtimeError, .thr 0, .thr 0]) = some s ∧
    s.start = none ∧ current s.log = some 0 ∧ Ev.eventSet 0 ∈ s.log ∧
    s.step (mkCfg (some 2) true) .isRunning = some (s.say (.isRunning false)) := ⟨_, rfl, rfl, rfl, by decide +kernel, rfl⟩

/-- `next(stream_buffer)` by caller 0 when there is no reader behind it yet / when there is. -/
def wNext1 : List A := [.next 0, .nextGo 0, .nextGo 0, .nextGo 0]
def wNext2 : List A := [.next 0, .nextGo 0]

/-- **C43** fails when the stream died and is started again without `stop()`: `next` still reads from the old session. A settled execution. -/
theorem C43_refuted_death : ∃ s : S, SB.init.exec (mkCfg (some 2) true) (wStart 7 ++ wNext1 ++
      [.thr 0, .thr 0, .readRaise 0 .runtimeError, .thr 0, .thr 0, .close 0 true] ++ wStart 8 ++ wNext2) = some s ∧
    current s.log = some 1 ∧ s.log.getLast? = some (.nextOn (.ok 0)) := ⟨_, rfl, rfl, rfl⟩

/-- **C43** fails when `next` is called between `stop()` and `start()`. A settled execution. -/
theorem C43_refuted_stop : ∃ s : S, SB.init.exec (mkCfg (some 2) true) (wStart 7 ++ wItem 0 1 ++ wStop 0 ++ wNext1 ++ wStart 8 ++ wNext2) = some s ∧
    current s.log = some 1 ∧ s.log.getLast? = some (.nextOn (.ok 0)) := ⟨_, rfl, rfl, rfl⟩

/-- Meets C43: a tidy restart; `next` reads from session 1. -/
theorem C43_meets : ∃ s s' : S, SB.init.exec (mkCfg (some 2) true) (wStart 7 ++ wNext1 ++ wItem 0 1 ++ wStop 0 ++ wStart 8 ++ [.next 0, .nextGo 0, .nextGo 0])
      = some s ∧ (SB.init : S).Tidy (mkCfg (some 2) true) (wStart 7 ++ wNext1 ++ wItem 0 1 ++ wStop 0 ++ wStart 8 ++ [.next 0, .nextGo 0, .nextGo 0]) ∧
    s.start = none ∧ s.step (mkCfg (some 2) true) (.nextGo 0) = some s' ∧ s'.log = s.log ++ [.nextOn (.ok 1)] := by
  exact ⟨_, _, rfl, tidy_of_check _ _ (fun _ _ => rfl) rfl, rfl, rfl, rfl⟩

/-- Meets C43: the same execution is careful. -/
theorem C43_careful_meets : ∃ s s' : S, SB.init.exec (mkCfg (some 2) true) (wStart 7 ++ wNext1 ++ wItem 0 1 ++ wStop 0 ++ wStart 8 ++ [.next 0, .nextGo 0, .nextGo 0])
      = some s ∧ (SB.init : S).NextCare (mkCfg (some 2) true) True (wStart 7 ++ wNext1 ++ wItem 0 1 ++ wStop 0 ++ wStart 8 ++ [.next 0, .nextGo 0, .nextGo 0]) ∧
    s.start = none ∧ s.step (mkCfg (some 2) true) (.nextGo 0) = some s' ∧ s'.log = s.log ++ [.nextOn (.ok 1)] := by
  exact ⟨_, _, rfl, care_of_check _ true _ _ (fun _ => trivial) (fun _ _ => rfl) rfl, rfl, rfl, rfl⟩

/-- Meets C44: an unbounded buffer with `auto_drop=True`; and the crash with `auto_drop=False`. -/
example : (∃ s : S, SB.init.exec (mkCfg none true) (wStart 7 ++ wItem 0 1 ++ wItem 0 2) = some s ∧ s.items 0 = [1, 2]) ∧
    ∃ s : S, SB.init.exec (mkCfg none false) (wStart 7 ++ [.thr 0]) = some s ∧ s.thr 0 = .cap := ⟨⟨_, rfl, rfl⟩, _, rfl, rfl⟩

/-- **C58** fails while the buffer is empty: the source was opened and reported 7, `source_reader_info` is `None`. -/
theorem C58_refuted : ∃ s s' : S, SB.init.exec (mkCfg (some 2) true) (wStart 7) = some s ∧ Ev.bufferMade 0 7 ∈ s.log ∧ s.start = none ∧
    s.exec (mkCfg (some 2) true) [.info 0, .infoGo 0] = some s' ∧ s'.log = s.log ++ [.info (.ok none)] := ⟨_, _, rfl, by decide +kernel, rfl, rfl, rfl⟩

/-- **C58** fails while another thread restarts the stream: `self.source_buffer` is looked up twice and may be `None` the second time. -/
theorem C58_refuted_race : ∃ s : S, SB.init.exec (mkCfg (some 2) true) (wStart 7 ++ wItem 0 1 ++ wStop 0 ++ [.info 0, .infoGo 0] ++ wStart 8) = some s ∧
    (∀ k, Ev.openRaised k ∉ s.log) ∧ current s.log = some 1 ∧ ∃ s' : S, SB.init.exec (mkCfg (some 2) true)
      (wStart 7 ++ wItem 0 1 ++ wStop 0 ++ [.info 0, .infoGo 0] ++ [.start, .startGo, .startGo, .startGo, .infoGo 0]) = some s' ∧
      s'.log.getLast? = some (.info (.error .attributeError)) :=
  ⟨_, rfl, no_openRaised rfl, rfl, _, rfl, rfl⟩

/-- **C76** a `drop()` that looked up the buffer before the restart takes an item out of the old session's buffer after it. A settled execution. -/
theorem C76_late_drop : ∃ s s' : S, SB.init.exec (mkCfg (some 2) false) (wStart 7 ++ wItemM 0 1 ++ [.drop 4 1] ++ wStop 0 ++ wStart 8) = some s ∧
    (SB.init : S).Settled (mkCfg (some 2) false) (wStart 7 ++ wItemM 0 1 ++ [.drop 4 1] ++ wStop 0 ++ wStart 8 ++ [.dropGo 4]) ∧ current s.log = some 1 ∧
    s.items 0 = [1] ∧ s.exec (mkCfg (some 2) false) [.dropGo 4] = some s' ∧ s'.items 0 = [] :=
  ⟨_, _, rfl, settled_of_check rfl, rfl, rfl, rfl, rfl⟩

/-- Meets C58. -/
example : ∃ s s' : S, SB.init.exec (mkCfg (some 2) true) (wStart 7 ++ wItem 0 1) = some s ∧ s.start = none ∧ s.items 0 ≠ [] ∧
    s.exec (mkCfg (some 2) true) [.info 0, .infoGo 0, .infoGo 0] = some s' ∧ s'.log = s.log ++ [.info (.ok (some 7))] := ⟨_, _, rfl, rfl, by decide, rfl, rfl⟩

/-- Meets C59: reader 0 has seen item 2 of session 0; attached to session 1, which holds 1, 2, 3, it has only 3 to read. -/
theorem C59_meets : ∃ (s s' : S) (c c' : Cons Nat Nat), SB.init.exec (mkCfg (some 9) true) (wStart 7 ++ wItem 0 1 ++ wItem 0 2 ++
      [.rd 0 (.call (.rd 0 (.read (some 2) none none none)))] ++ wStop 0 ++ wStart 8 ++ wItem 1 1 ++ wItem 1 2 ++ wItem 1 3) = some s ∧
    s.start = none ∧ current s.log = some 1 ∧ s.view 0 = some c ∧ (c.ch.readers 0).lastItem = some 2 ∧
    s.step (mkCfg (some 9) true) (.attach 0 0 5) = some s' ∧ s'.view 1 = some c' ∧ unreadOf c'.ch 5 = [3] :=
  ⟨_, _, _, _, rfl, rfl, rfl, rfl, rfl, rfl, rfl, rfl⟩

end SB
end S2P
