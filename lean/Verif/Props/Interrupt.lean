import Verif.Proofs.Interrupt
/-
C165: a `start()` interrupted at any statement (Model/Interrupt.lean). `s.cuts` lists the interrupted sessions with the statement not reached any more.
`Ev.aside`, `SBAct.startStop`, `plain`, `StartPC.keeps`, `StartPC.late`, `StartPC.opened`: see Proofs/Interrupt.lean and Proofs/StreamBuffer.lean.
-/
namespace S2P
open Spec
variable {K V I : Type}

/-- Statements that come after the earlier session, if one was running, has been told to stop, and before the new stop event is assigned. -/
def StartPC.stopped : StartPC → Bool
  | .clr1 | .chk2 | .set2 | .clr2 | .wipe | .mkThr | .mkEvt => true
  | _ => false

/-- Statements that come after the new stop event is assigned. -/
def StartPC.armed : StartPC → Bool
  | .opening | .mkBuf | .launch => true
  | _ => false

namespace ISB
variable [LinearOrder K] [BEq V] {cfg : SBCfg K V} {s s0 s' : ISB K V I} {x : IAct K V I} {xs ys : List (IAct K V I)}

/-- **C165** interrupted `start()`s do nothing that consumers, readers or the source could not see without interruptions: for every execution with them there is one of
Model/StreamBuffer.lean (so that what is proved about all of those applies) with the same buffers and readers, the same answers of `is_running`, `mk_reader`, `next`,
the same running threads, the same events but for those of `start()` and `stop()`, and the same statements outside of them. -/
theorem C165_as_if (he : (ISB.init : ISB K V I).exec cfg xs = some s) :
    ∃ (as : List (SBAct K V I)) (y : SB K V I), SB.init.exec cfg as = some y ∧ as.filter (fun a => !a.startStop) = (plain xs).filter (fun a => !a.startStop) ∧
      (∀ b, y.view b = s.sb.view b) ∧ y.running = s.sb.running ∧ y.sourceBuffer = s.sb.sourceBuffer ∧ y.nextReader = s.sb.nextReader ∧
      (∀ t, (s.sb.thr t).idle = false → y.thr t = s.sb.thr t) ∧ y.log.filter Ev.aside = s.sb.log.filter Ev.aside := by
  obtain ⟨as, c, h, hk⟩ := sim he
  have hg := SB.good h.reach
  refine ⟨as, _, h.reach, hk, ?_, running_ov h.ok.ev, rfl, rfl, ?_, h.log.symm⟩
  · intro b
    unfold SB.view
    show (s.sb.buf b).map _ = _
    cases hb : s.sb.buf b with
    | none => rfl
    | some z =>
      have hz : z.evt = b := hg.inv.evt b z hb
      have hP : b ∉ c.P := fun hP => by rw [h.ok.cut.nobuf b hP] at hb; cases hb
      have hf : (ov s.sb c).flag z.evt = s.sb.flag z.evt := if_neg (by rw [hz]; exact hP)
      simp only [Option.map_some, hf]
  · intro t ht
    have hno : t ∉ c.P ∧ t ∉ c.F := by
      constructor <;> intro hm
      · rcases h.ok.cut.idle t (.inl hm) with e | e <;> rw [e] at ht <;> cases ht
      · rcases h.ok.cut.idle t (.inr hm) with e | e <;> rw [e] at ht <;> cases ht
    simp [ov, hno]

/-- **C165** so consumers of every session see what C11–C27 say, and with `auto_drop=True` the buffer of a session holds the newest `maxlen` of the items stored in it.
Every execution with interrupted `start()`s. -/
theorem C165_consumer [ReflBEq V] (he : (ISB.init : ISB K V I).exec cfg xs = some s) (b : Nat) :
    (∀ c, s.sb.view b = some c → c.Reach cfg.key cfg.keyNone cfg.maxlen cfg.rdCfg) ∧ s.sb.items b <:+ storedIn b s.sb.log ∧
    (cfg.autoDrop = true → s.sb.items b = newest cfg.maxlen (storedIn b s.sb.log)) := by
  obtain ⟨as, y, h1, h2, h3, h4, h5, h6, h7, h8⟩ := C165_as_if he
  have hst : ∀ l : List (Ev V I), storedIn b (l.filter Ev.aside) = storedIn b l := by
    intro l
    induction l with
    | nil => rfl
    | cons e l ih => cases e <;> simp [storedIn, List.filter_cons, Ev.aside, List.filterMap_cons] at ih ⊢ <;> rw [ih]
  have hl : storedIn b s.sb.log = storedIn b y.log := by rw [← hst, ← h8, hst]
  have hi : s.sb.items b = y.items b := by
    have hv := h3 b
    unfold SB.view at hv
    unfold SB.items
    cases ha : y.buf b <;> cases hb : s.sb.buf b <;> rw [ha, hb] at hv <;> simp at hv ⊢
    rw [hv.1]
  refine ⟨fun c hc => SB.view_reach h1 b c (by rw [h3]; exact hc), ?_, fun hd => ?_⟩
  · rw [hi, hl]; exact SB.retained_suffix h1 b
  · rw [hi, hl]; exact (SB.C34_only_eviction hd h1 b).1

/-- **C165** the session of a `start()` interrupted after it let go of the buffer before: the source was opened for it exactly if the interruption came after `open()` had
returned, and nothing ever reads from it, stores an item or closes the source for it. Every execution. -/
theorem C165_left_open (he : (ISB.init : ISB K V I).exec cfg xs = some s) (k : Nat) (p : StartPC) (hk : (k, p) ∈ s.cuts) (hp : p.late = true) :
    (Ev.opened k ∈ s.sb.log ↔ p = .mkBuf ∨ p = .launch) ∧ ∀ e ∈ s.sb.log, byThread k e = false := by
  obtain ⟨as, c, h, -⟩ := sim he
  have hc := h.cuts k p hk hp
  refine ⟨hc.opened.trans ?_, h.quiet k hc.thr⟩
  cases p <;> simp [StartPC.opened] at hp ⊢

/-! ### The state afterwards -/

theorem exec_ind {P : ISB K V I → Prop} (hstep : ∀ s x s', P s → s.step cfg x = some s' → P s') (h : P s) (he : s.exec cfg xs = some s') : P s' := by
  induction xs generalizing s with
  | nil => simp only [exec, Option.some.injEq] at he; subst he; exact h
  | cons x xs ih =>
    simp only [exec] at he
    split at he
    · exact ih (hstep _ _ _ h ‹_›) he
    · simp at he

set_option maxHeartbeats 4000000 in
theorem off_step {u u' : SB K V I} {a : SBAct K V I} (h : ∀ p, u.start = some p → p.stopped = true → u.running = false) (hs : u.step cfg a = some u') :
    ∀ p, u'.start = some p → p.stopped = true → u'.running = false := by
  have hst := SB.step_to hs
  clear hs
  cases hst
  all_goals try simp only [SB.say, SB.setThr, SB.setBuf, SB.setEvent, SB.setNext, SB.setDrop, SB.setInfo, SB.newSess, SB.running] at *
  all_goals first
    | assumption
    | grind [StartPC.stopped]

set_option maxHeartbeats 4000000 in
theorem flag_step {u u' : SB K V I} {a : SBAct K V I} (h : ∀ e, u.flag e = true ↔ Ev.eventSet e ∈ u.log) (hs : u.step cfg a = some u') :
    ∀ e, u'.flag e = true ↔ Ev.eventSet e ∈ u'.log := by
  have hst := SB.step_to hs
  clear hs
  cases hst
  all_goals try simp only [SB.say, SB.setThr, SB.setBuf, SB.setEvent, SB.setNext, SB.setDrop, SB.setInfo, SB.newSess, SB.running] at *
  all_goals first
    | assumption
    | grind

theorem off_flag (he : (ISB.init : ISB K V I).exec cfg xs = some s) :
    (∀ p, s.sb.start = some p → p.stopped = true → s.sb.running = false) ∧ ∀ e, s.sb.flag e = true ↔ Ev.eventSet e ∈ s.sb.log := by
  refine exec_ind (P := fun s : ISB K V I => (∀ p, s.sb.start = some p → p.stopped = true → s.sb.running = false) ∧ ∀ e, s.sb.flag e = true ↔ Ev.eventSet e ∈ s.sb.log) ?_ ?_ he
  · rintro s x s' ⟨h1, h2⟩ hs
    rcases step_cases hs with ⟨a, rfl, ha, hcut⟩ | ⟨p, rfl, hp, rfl⟩
    · exact ⟨off_step h1 ha, flag_step h2 ha⟩
    · exact ⟨by simp, h2⟩
  · simp [ISB.init, SB.init]

/-- **C165** what a `start()` interrupted at statement `p` leaves: the lock is free again; once the earlier session has been told to stop `is_running` is `False` until
the new stop event exists, and `True` from then on unless that event was set in between; from the letting go of the earlier buffer (278) to the making of the new one
`mk_reader()` raises `StreamNotStarted`, and after that it returns a reader of the new, empty buffer. Every execution. -/
theorem C165_after (he : (ISB.init : ISB K V I).exec cfg xs = some s) (hs : s.step cfg .interrupt = some s') :
    ∃ k p, s.sb.start = some p ∧ s'.cuts = s.cuts ++ [(k, p)] ∧ s'.sb.start = none ∧ s'.sb.log = s.sb.log ∧
      (p.stopped = true → s'.sb.step cfg .isRunning = some (s'.sb.say (.isRunning false))) ∧
      (p.armed = true → ∃ r, s'.sb.step cfg .isRunning = some (s'.sb.say (.isRunning r)) ∧ (r = true ↔ Ev.eventSet k ∉ s.sb.log)) ∧
      (p.late = true → p ≠ .launch → s'.sb.step cfg .mkReader = some (s'.sb.say (.madeReader (.error .streamNotStarted)))) ∧
      (p = .launch → s'.sb.step cfg .mkReader = some (s'.sb.say (.madeReader (.ok k))) ∧ ∃ c, s'.sb.view k = some c) := by
  obtain ⟨h1, h2⟩ := off_flag he
  obtain ⟨as, c, h, -⟩ := sim he
  have hg := SB.good h.reach
  have hph := hg.inv.ph
  have hstl : ∀ p, s.sb.start = some p → p.late = true → (ov s.sb c).start = some p := by
    intro p hp hl
    show c.st = some p
    rw [h.ok.st, hp]
    cases p <;> first | rfl | cases hl
  rcases step_cases hs with ⟨a, ha, -, -⟩ | ⟨p, -, hp, rfl⟩
  · cases ha
  refine ⟨_, p, hp, rfl, rfl, rfl, fun hq => ?_, fun hq => ?_, fun hq hl => ?_, fun hq => ?_⟩
  · have : ({ s.sb with start := none, n := if p = .mkThr then s.sb.n + 1 else s.sb.n } : SB K V I).running = false := h1 p hp hq
    simp only [SB.step, if_true, this]
  · refine ⟨s.sb.running, by simp only [SB.step, if_true]; rfl, ?_⟩
    have hl : p.late = true := by cases p <;> first | rfl | cases hq
    rw [hstl p hp hl] at hph
    have hm : ∀ t, t ∈ c.P → t + 1 < s.sb.n := fun t ht => h.ok.cut.old t (.inl ht) _ hp hl (by rintro rfl; cases hq)
    have hpm : p ≠ .mkThr := by rintro rfl; cases hq
    have hev : c.ev = some (s.sb.n - 1) ∧ 0 < s.sb.n := by
      cases p
      all_goals try (cases hq; done)
      all_goals exact ⟨hph.2.2.2.2.2, hph.1⟩
    have hse : s.sb.stopEvent = some (s.sb.n - 1) := by
      rcases h.ok.ev with ⟨e1, -⟩ | ⟨⟨k, e1, e2⟩, -⟩
      · rw [← e1]; exact hev.1
      · have := hm k e2
        rw [hev.1] at e1; injection e1; omega
    rw [if_neg hpm, ← h2]
    unfold SB.running
    simp [hse]
  · rw [hstl p hp hq] at hph
    have hsb : s.sb.sourceBuffer = none := by
      cases p
      all_goals try (cases hq; done)
      · exact hph.1
      · exact hph.2.2.2.2.2.1
      · exact hph.2.2.2.2.1
      · exact hph.2.2.2.2.1
      · exact absurd rfl hl
    simp only [SB.step, if_true, hsb]
  · subst hq
    rw [hstl _ hp rfl] at hph
    have hsb : s.sb.sourceBuffer = some (s.sb.n - 1) := hph.2.2.2.2.1
    simp only [SB.step, if_true, hsb, reduceCtorEq, if_false, true_and]
    obtain ⟨z, hz⟩ := Option.isSome_iff_exists.1 hph.2.2.2.1
    have hz : s.sb.buf (s.sb.n - 1) = some z := hz
    exact ⟨_, by simp only [SB.view, hz]; rfl⟩

set_option maxHeartbeats 4000000 in
theorem keep_step {u u' : SB K V I} {a : SBAct K V I} {B : Option Nat} (ha : a ≠ .start) (h : ∀ p, u.start = some p → p.keeps = true → u.sourceBuffer = B) (hs : u.step cfg a = some u') :
    ∀ p, u'.start = some p → p.keeps = true → u'.sourceBuffer = B := by
  have hst := SB.step_to hs
  clear hs
  cases hst
  all_goals try simp only [SB.say, SB.setThr, SB.setBuf, SB.setEvent, SB.setNext, SB.setDrop, SB.setInfo, SB.newSess, SB.running] at *
  all_goals first
    | assumption
    | exact absurd rfl ha
    | grind [StartPC.keeps]

theorem keep_exec {B : Option Nat} (hys : (.sb .start : IAct K V I) ∉ ys) (h : ∀ p, s.sb.start = some p → p.keeps = true → s.sb.sourceBuffer = B) (he : s.exec cfg ys = some s') :
    ∀ p, s'.sb.start = some p → p.keeps = true → s'.sb.sourceBuffer = B := by
  induction ys generalizing s with
  | nil => simp only [exec, Option.some.injEq] at he; subst he; exact h
  | cons x ys ih =>
    simp only [exec] at he
    split at he
    · rename_i s1 hs1
      refine ih (fun hm => hys (List.mem_cons_of_mem _ hm)) ?_ he
      rcases step_cases hs1 with ⟨a, rfl, ha, hcut⟩ | ⟨p, rfl, hp, rfl⟩
      · exact keep_step (by rintro rfl; exact hys List.mem_cons_self) h ha
      · simp
    · simp at he

/-- **C165** a `start()` interrupted before it let go of the earlier buffer (278), for instance while it slept in `stop()`, leaves `mk_reader()` as it was when it was called:
`ys` is whatever happened between the call and the interruption. -/
theorem C165_early (hn : s0.sb.start = none) (hys : (.sb .start : IAct K V I) ∉ ys) (he : s0.exec cfg (.sb .start :: ys) = some s) (p : StartPC) (hp : s.sb.start = some p)
    (hpe : p.keeps = true) (hs : s.step cfg .interrupt = some s') (r : Py Nat) (hr : s0.sb.step cfg .mkReader = some (s0.sb.say (.madeReader r))) :
    s'.sb.step cfg .mkReader = some (s'.sb.say (.madeReader r)) := by
  simp only [exec, step, SB.step, hn, if_true, Option.map_some] at he
  have hB := keep_exec (s := { s0 with sb := { s0.sb with start := some .chk1 } }) (B := s0.sb.sourceBuffer) hys (fun _ _ _ => rfl) he p hp hpe
  rcases step_cases hs with ⟨a, ha, -, -⟩ | ⟨q, -, -, rfl⟩
  · cases ha
  simp only [SB.step, hn, if_true, SB.say, Option.some.injEq, SB.mk.injEq, List.append_cancel_left_eq, List.cons.injEq, Ev.madeReader.injEq, and_true, true_and] at hr
  subst hr
  simp only [SB.step, if_true, hB]

theorem rest_burst {z : SB K V I} {info : I} (h : z.start = some .mkThr) :
    z.exec cfg [.startGo, .startGo, .openOk, .bufOk info, .startGo] = some { z with thr := fun j => if j = z.n then .check else z.thr j, thread := some z.n, n := z.n + 1, stopEvent := some z.n, start := none, sourceBuffer := some z.n, buf := fun j => if j = z.n then some (SB.newSess cfg z.n info) else z.buf j, log := z.log ++ [.opened z.n, .bufferMade z.n info, .launched z.n] } := by
  simp [SB.exec, SB.step, SB.startGo, h, SB.setThr, SB.setBuf, SB.say]
  funext j
  by_cases hj : j = z.n <;> simp [hj]

theorem stop_burst {z : SB K V I} {e : Nat} (h : z.start = none) (he : z.stopEvent = some e) (hf : z.flag e = false) :
    z.exec cfg [.start, .startGo, .startGo, .startGo, .startGo, .startGo] = some { z with sourceBuffer := none, start := some .mkThr, nextReader := none, flag := fun j => if j = e then true else z.flag j, log := z.log ++ [.eventSet e] } := by
  simp [SB.exec, SB.step, SB.startGo, h, he, hf, SB.running, SB.setEvent, SB.say]

/-- The statements of a `start()` whose source opens and reports `info`: of one that finds a session running, and of one that does not. -/
def wholeStart (running : Bool) (info : I) : List (SBAct K V I) :=
  [.start] ++ (if running then [.startGo, .startGo, .startGo] else [.startGo]) ++ [.startGo, .startGo, .startGo, .startGo, .openOk, .bufOk info, .startGo]

/-- **C165** after any number of interrupted `start()`s the next one, if it is not interrupted and the source opens, goes through all of its statements: it ends with a new
empty buffer, `is_running` true and the new thread launched, having stopped the earlier session if that was still running. `self._next_reader` is reset exactly then. -/
theorem C165_next_start (he : (ISB.init : ISB K V I).exec cfg xs = some s) (hn : s.sb.start = none) (info : I) :
    ∃ u, s.sb.exec cfg (wholeStart s.sb.running info) = some u ∧ u.start = none ∧ u.running = true ∧ u.sourceBuffer = some s.sb.n ∧
      u.items s.sb.n = [] ∧ u.thr s.sb.n = .check ∧ (∀ t, t ≠ s.sb.n → u.thr t = s.sb.thr t) ∧ u.nextReader = (if s.sb.running then none else s.sb.nextReader) ∧
      ∃ l, u.log = s.sb.log ++ l ++ [.opened s.sb.n, .bufferMade s.sb.n info, .launched s.sb.n] ∧ (l = [] ∧ s.sb.running = false ∨ ∃ e, l = [.eventSet e] ∧ s.sb.running = true) := by
  obtain ⟨as, c, h, -⟩ := sim he
  have hnP : s.sb.n ∉ c.P := fun hm => by have := h.ok.cut.lt _ (.inl hm); omega
  have hfl : s.sb.flag s.sb.n = false := by
    have := (SB.good h.reach).inv.noFlag s.sb.n (Nat.le_refl _)
    simpa [ov, hnP] using this
  cases hr : s.sb.running with
  | false =>
    have hw : (wholeStart false info : List (SBAct K V I)) = [.start, .startGo, .startGo, .startGo] ++ [.startGo, .startGo, .openOk, .bufOk info, .startGo] := rfl
    rw [hw, SB.exec_append, wipe_burst hn hr, Option.bind_some, rest_burst rfl]
    refine ⟨_, rfl, rfl, ?_, rfl, ?_, if_pos rfl, fun t ht => if_neg ht, rfl, [], ?_, .inl ⟨rfl, rfl⟩⟩
    · unfold SB.running; simp [hfl]
    · simp [SB.items, SB.newSess, Cons.init]; rfl
    · simp
  | true =>
    have hw : (wholeStart true info : List (SBAct K V I)) = [.start, .startGo, .startGo, .startGo, .startGo, .startGo] ++ [.startGo, .startGo, .openOk, .bufOk info, .startGo] := rfl
    obtain ⟨e, hse, hfe⟩ : ∃ e, s.sb.stopEvent = some e ∧ s.sb.flag e = false := by
      unfold SB.running at hr
      cases hse : s.sb.stopEvent with
      | none => rw [hse] at hr; cases hr
      | some e => rw [hse] at hr; exact ⟨e, rfl, by simpa using hr⟩
    have hne : s.sb.n ≠ e := by
      rintro rfl
      rcases h.ok.ev with ⟨e1, e2⟩ | ⟨-, e3⟩
      · have : (ov s.sb c).stopEvent = some s.sb.n := e1.trans hse
        exact absurd ((SB.good h.reach).inv.ph.lt _ this) (Nat.lt_irrefl _)
      · rw [e3 _ hse] at hfe; cases hfe
    rw [hw, SB.exec_append, stop_burst hn hse hfe, Option.bind_some, rest_burst rfl]
    refine ⟨_, rfl, rfl, ?_, rfl, ?_, if_pos rfl, fun t ht => if_neg ht, rfl, [.eventSet e], rfl, .inr ⟨e, rfl, rfl⟩⟩
    · unfold SB.running; simp [hfl, hne]
    · simp [SB.items, SB.newSess, Cons.init]; rfl

end ISB
end S2P
