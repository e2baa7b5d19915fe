import Verif.Proofs.SourceInv
import Mathlib.Data.Finset.Card
/-
C45-C48: StreamSource.
-/
namespace S2P
open Spec
variable {K V I : Type} [LT K] [DecidableLT K] [BEq V]
namespace Src
section
variable {cfg : SrcCfg K V} {as : List (SrcAct K V I)} {s : Src K V I}

/-! ### Logs and counts -/

theorem mem_openedL {log : List SrcEv} {r : Nat} : r ∈ openedL log ↔ fromSource log r := by
  simp only [openedL, fromSource, List.mem_filterMap]
  constructor
  · rintro ⟨e, he, h⟩
    cases e <;> simp at h
    subst h; exact ⟨_, _, he⟩
  · rintro ⟨b, l, h⟩; exact ⟨_, h, rfl⟩

theorem mem_closedL {log : List SrcEv} {r : Nat} : r ∈ closedL log ↔ ∃ out, SrcEv.closed r out ∈ log := by
  simp only [closedL, List.mem_filterMap]
  constructor
  · rintro ⟨e, he, h⟩
    cases e <;> simp at h
    subst h; exact ⟨_, he⟩
  · rintro ⟨out, h⟩; exact ⟨_, h, rfl⟩

theorem closedL_nodup {log : List SrcEv} (h : closedOnce log) : (closedL log).Nodup := by
  refine List.Pairwise.filterMap _ ?_ h
  intro e e' hee r hr r' hr' heq
  cases e <;> simp at hr
  cases e' <;> simp at hr'
  subst hr hr' heq
  exact hee _ _ _ rfl rfl

/-- Opened minus closed is not positive exactly when no reader is open. -/
theorem count_iff {log : List SrcEv} (h : closedOnce log) (hn : (openedL log).Nodup) :
    ((openedL log).length : Int) - (((closedL log).filter fun r => decide (r ∈ openedL log)).length : Int) ≤ 0 ↔ ∀ r, ¬ isOpenReader log r := by
  have hc := (closedL_nodup h).filter (fun r => decide (r ∈ openedL log))
  have hsub : (((closedL log).filter fun r => decide (r ∈ openedL log))).toFinset ⊆ (openedL log).toFinset := by
    intro r hr
    simp only [List.mem_toFinset, List.mem_filter, decide_eq_true_eq] at hr ⊢
    exact hr.2
  have h1 := List.toFinset_card_of_nodup hc
  have h2 := List.toFinset_card_of_nodup hn
  constructor
  · intro hle r hr
    have heq := Finset.eq_of_subset_of_card_le hsub (by omega)
    have : r ∈ (openedL log).toFinset := List.mem_toFinset.2 (mem_openedL.2 hr.1)
    rw [← heq] at this
    simp only [List.mem_toFinset, List.mem_filter] at this
    obtain ⟨out, ho⟩ := mem_closedL.1 this.1
    exact hr.2 out ho
  · intro hno
    have : (openedL log).toFinset ⊆ (((closedL log).filter fun r => decide (r ∈ openedL log))).toFinset := by
      intro r hr
      have hr' := List.mem_toFinset.1 hr
      simp only [List.mem_toFinset, List.mem_filter, decide_eq_true_eq]
      refine ⟨?_, hr'⟩
      by_contra hc
      refine hno r ⟨mem_openedL.1 hr', fun out ho => hc (mem_closedL.2 ⟨out, ho⟩)⟩
    have := Finset.card_le_card this
    omega

theorem untouched_iff {log : List SrcEv} : untouched log = true ↔ ∀ r f, SrcEv.assigned r f ∉ log := by
  simp only [untouched, List.all_eq_true]
  constructor
  · intro h r f hm; simpa using h _ hm
  · intro h e he
    cases e <;> simp
    exact h _ _ he

theorem closedOnce_prefix {a b : List SrcEv} (h : closedOnce (a ++ b)) : closedOnce a := (List.pairwise_append.1 h).1

/-- The step that appended an event. -/
theorem origin (he : Src.init.exec cfg as = some s) {pre post : List SrcEv} {e : SrcEv} (hl : s.log = pre ++ e :: post) :
    ∃ (s1 : Src K V I) (a : SrcAct K V I) (s2 : Src K V I) (new1 new2 post' : List SrcEv), (∃ as1, Src.init.exec cfg as1 = some s1) ∧
      StepTo cfg s1 a s2 ∧ s2.log = s1.log ++ (new1 ++ e :: new2) ∧ pre = s1.log ++ new1 ∧ post = new2 ++ post' ∧
      ∃ as2, s1.exec cfg as2 = some s := by
  obtain ⟨as1, a, as2, s1, s2, h1, h2, h3, h4, h5⟩ := event_origin he hl
  obtain ⟨new, hn⟩ := log_grows h2
  obtain ⟨post', hp⟩ := log_prefix h3
  rw [hn, hl, List.append_assoc] at hp
  obtain ⟨n1, hn1⟩ : ∃ n1, pre = s1.log ++ n1 := by
    refine ⟨pre.drop s1.log.length, ?_⟩
    have := congrArg (List.take s1.log.length) hp
    rw [List.take_append_of_le_length h4, List.take_left] at this
    exact (List.take_append_drop s1.log.length pre).symm.trans (by rw [this])
  subst hn1
  rw [List.append_assoc, List.append_cancel_left_eq] at hp
  rw [hn, List.length_append, List.length_append] at h5
  obtain ⟨n2, hn2⟩ : ∃ n2, new = n1 ++ e :: n2 := by
    refine ⟨new.drop (n1.length + 1), ?_⟩
    have := congrArg (List.take (n1.length + 1)) hp
    rw [List.take_append_of_le_length (l₁ := new) (by omega)] at this
    refine (List.take_append_drop (n1.length + 1) new).symm.trans ?_
    rw [← this]
    simp [List.take_append]
  subst hn2
  refine ⟨s1, a, s2, n1, n2, post', ⟨as1, h1⟩, step_to h2, hn, rfl, ?_, a :: as2, by simp only [exec, h2]; exact h3⟩
  rw [List.append_assoc, List.append_cancel_left_eq] at hp
  simpa using hp

theorem split_one {α : Type} {a b : List α} {x y : α} (h : [y] = a ++ x :: b) : a = [] ∧ x = y ∧ b = [] := by
  cases a with
  | nil => simp at h; exact ⟨rfl, h.1.symm, h.2⟩
  | cons z a => simp at h

theorem split_two {α : Type} {a b : List α} {x y z : α} (h : [y, z] = a ++ x :: b) : (a = [] ∧ x = y ∧ b = [z]) ∨ (a = [y] ∧ x = z ∧ b = []) := by
  cases a with
  | nil => simp at h; exact .inl ⟨rfl, h.1.symm, h.2.symm⟩
  | cons w a =>
    simp only [List.cons_append, List.cons.injEq] at h
    obtain ⟨rfl, h⟩ := h
    obtain ⟨rfl, rfl, rfl⟩ := split_one h
    exact .inr ⟨rfl, rfl, rfl⟩

theorem fromSource_closed {log : List SrcEv} {r r' : Nat} {out : Py Unit} : fromSource (log ++ [.closed r' out]) r ↔ fromSource log r := by
  simp [fromSource]

/-- What a close appends. -/
theorem close_origin (he : Src.init.exec cfg as = some s) {pre post : List SrcEv} {r : Nat} {out : Py Unit}
    (hl : s.log = pre ++ .closed r out :: post) :
    ∃ (s1 s2 : Src K V I) (new1 new2 post' : List SrcEv), (∃ as1, Src.init.exec cfg as1 = some s1) ∧ s1.pc = .idle ∧ r < s1.made ∧ StepTo cfg s1 (.close r) s2 ∧
      s2.log = s1.log ++ (new1 ++ .closed r out :: new2) ∧ pre = s1.log ++ new1 ∧ post = new2 ++ post' ∧
      ((s1.onclose r = .missing ∧ new1 = [] ∧ new2 = [] ∧ out = .error .attributeError) ∨
       (s1.onclose r = .none ∧ new1 = [] ∧ new2 = [] ∧ out = .ok ()) ∨
       (s1.onclose r = .user ∧ new1 = [.ran r] ∧ new2 = [] ∧ out = .ok ()) ∨
       (s1.onclose r = .handler ∧ new1 = [] ∧ new2 = [] ∧ out = .ok () ∧ ¬ s1.openReaders - 1 ≤ 0) ∨
       (s1.onclose r = .handler ∧ new1 = [] ∧ new2 = [.stopped] ∧ out = .ok () ∧ s1.openReaders - 1 ≤ 0)) := by
  obtain ⟨s1, a, s2, new1, new2, post', ⟨as1, h1⟩, h2, h3, h4, h5, h6e⟩ := origin he hl
  have hg := (good_exec h1).1
  cases h2 with
  | closeErr r c x x' hp hr ho hn hx hs hev => exact absurd (hg.stopEvent hx (by simp [hp])) (by simp [hev])
  | closeMissing r' hp hr ho =>
    have h6 := List.append_cancel_left h3
    obtain ⟨rfl, h7, rfl⟩ := split_one h6
    cases h7
    exact ⟨s1, _, [], [], post', ⟨as1, h1⟩, hp, hr, .closeMissing r hp hr ho, h3, h4, h5, .inl ⟨ho, rfl, rfl, rfl⟩⟩
  | closeNone r' hp hr ho =>
    have h6 := List.append_cancel_left h3
    obtain ⟨rfl, h7, rfl⟩ := split_one h6
    cases h7
    exact ⟨s1, _, [], [], post', ⟨as1, h1⟩, hp, hr, .closeNone r hp hr ho, h3, h4, h5, .inr (.inl ⟨ho, rfl, rfl, rfl⟩)⟩
  | closeUser r' hp hr ho =>
    have h3' := h3
    simp only [say, List.append_assoc, List.singleton_append] at h3'
    rcases split_two (List.append_cancel_left h3') with ⟨rfl, h7, rfl⟩ | ⟨rfl, h7, rfl⟩
    · cases h7
    cases h7
    exact ⟨s1, _, [.ran r], [], post', ⟨as1, h1⟩, hp, hr, .closeUser r hp hr ho, h3, h4, h5, .inr (.inr (.inl ⟨ho, rfl, rfl, rfl⟩))⟩
  | closeMore r' hp hr ho hn =>
    have h6 := List.append_cancel_left h3
    obtain ⟨rfl, h7, rfl⟩ := split_one h6
    cases h7
    exact ⟨s1, _, [], [], post', ⟨as1, h1⟩, hp, hr, .closeMore r hp hr ho hn, h3, h4, h5, .inr (.inr (.inr (.inl ⟨ho, rfl, rfl, rfl, hn⟩)))⟩
  | closeLast r' c x x' e hp hr ho hn hx hs hev =>
    have h3' := h3
    simp only [say, List.append_assoc, List.singleton_append] at h3'
    rcases split_two (List.append_cancel_left h3') with ⟨rfl, h7, rfl⟩ | ⟨rfl, h7, rfl⟩
    · cases h7
      exact ⟨s1, _, [], [.stopped], post', ⟨as1, h1⟩, hp, hr, .closeLast r c x x' e hp hr ho hn hx hs hev, h3, h4, h5,
        .inr (.inr (.inr (.inr ⟨ho, rfl, rfl, rfl, hn⟩)))⟩
    · cases h7
  | openMore | started | closeGo | bg =>
    exfalso
    have h6 := congrArg List.length h3
    simp at h6
  | _ =>
    exfalso
    have h6 := List.append_cancel_left h3
    obtain ⟨_, h7, _⟩ := split_one h6
    cases h7

/-- What a stop follows. -/
theorem stop_origin (he : Src.init.exec cfg as = some s) {pre post : List SrcEv} (hl : s.log = pre ++ .stopped :: post) :
    ∃ (s1 : Src K V I) (r : Nat), (∃ as1, Src.init.exec cfg as1 = some s1) ∧ s1.pc = .idle ∧ r < s1.made ∧ s1.onclose r = .handler ∧ s1.openReaders - 1 ≤ 0 ∧
      pre = s1.log ++ [.closed r (.ok ())] := by
  obtain ⟨s1, a, s2, new1, new2, post', ⟨as1, h1⟩, h2, h3, h4, h5, h6e⟩ := origin he hl
  cases h2 with
  | closeUser r' hp hr ho =>
    simp only [say, List.append_assoc, List.singleton_append] at h3
    rcases split_two (List.append_cancel_left h3) with ⟨rfl, h7, rfl⟩ | ⟨rfl, h7, rfl⟩ <;> cases h7
  | closeLast r' c x x' e hp hr ho hn hx hs hev =>
    simp only [say, List.append_assoc, List.singleton_append] at h3
    rcases split_two (List.append_cancel_left h3) with ⟨rfl, h7, rfl⟩ | ⟨rfl, h7, rfl⟩
    · cases h7
    · exact ⟨s1, r', ⟨as1, h1⟩, hp, hr, ho, hn, h4⟩
  | openMore | started | closeGo | bg =>
    exfalso
    have h6 := congrArg List.length h3
    simp at h6
  | _ =>
    exfalso
    have h6 := List.append_cancel_left h3
    obtain ⟨_, h7, _⟩ := split_one h6
    cases h7

/-! ### C45 -/

/-- After the close of `r` the counter is `≤ 0` exactly if no reader is open. -/
theorem last_iff {s1 : Src K V I} {r : Nat} {out : Py Unit} (h : s1.Cnt) (hu : untouched s1.log = true)
    (hc : closedOnce (s1.log ++ [.closed r out])) (hr : fromSource s1.log r) :
    s1.openReaders - 1 ≤ 0 ↔ ∀ r', ¬ isOpenReader (s1.log ++ [.closed r out]) r' := by
  have := count_iff hc (by rw [openedL_snoc]; simpa using h.openNd)
  rw [← this, openedL_snoc, closedL_snoc, h.count hu]
  simp only [List.append_nil, List.filter_append, List.length_append, List.filter_cons, List.filter_nil]
  rw [if_pos (by simpa using mem_openedL.2 hr)]
  simp only [List.length_singleton, Int.natCast_add, Int.natCast_one]
  constructor <;> intro <;> omega

/-- C45 (partial: no reader is closed twice, nobody replaces `onclose`): closing a reader returned by `open_reader()` succeeds, and the source
stops its stream buffer right then exactly if no reader remains open. -/
theorem C45_stops_with_last_close_partial (he : Src.init.exec cfg as = some s) (hc : closedOnce s.log) (hu : ∀ r f, SrcEv.assigned r f ∉ s.log)
    {pre post : List SrcEv} {r : Nat} {out : Py Unit} (hl : s.log = pre ++ .closed r out :: post) (hr : fromSource pre r) :
    out = .ok () ∧ ((∃ post', post = .stopped :: post') ↔ ∀ r', ¬ isOpenReader (pre ++ [.closed r out]) r') := by
  obtain ⟨s1, s2, new1, new2, post', ⟨as1, h1⟩, hp, hrm, hst, h3, h4, h5, h6⟩ := close_origin he hl
  have hcnt := (good_exec h1).2.2
  have hu1 : untouched s1.log = true := by
    rw [untouched_iff]
    intro r f hm
    exact hu r f (by rw [hl, h4]; simp [hm])
  have hu' : untouched pre = true := by
    rw [untouched_iff]
    intro r f hm
    exact hu r f (by rw [hl]; simp [hm])
  have hcp : closedOnce (pre ++ [.closed r out]) := by
    rw [hl] at hc
    refine closedOnce_prefix (b := post) ?_
    simpa using hc
  rcases h6 with ⟨ho, rfl, rfl, rfl⟩ | ⟨ho, rfl, rfl, rfl⟩ | ⟨ho, rfl, rfl, rfl⟩ | ⟨ho, rfl, rfl, rfl, hn⟩ | ⟨ho, rfl, rfl, rfl, hn⟩
  · simp only [List.append_nil] at h4; subst h4
    have := (hcnt.on hu1 r).2 (mem_openedL.2 hr); simp [ho] at this
  · simp only [List.append_nil] at h4; subst h4
    have := (hcnt.on hu1 r).2 (mem_openedL.2 hr); simp [ho] at this
  · subst h4
    have hr' : fromSource s1.log r := by simpa [fromSource] using hr
    have := (hcnt.on hu1 r).2 (mem_openedL.2 hr'); simp [ho] at this
  · simp only [List.append_nil] at h4; subst h4
    refine ⟨rfl, ?_⟩
    rw [← last_iff hcnt hu1 hcp hr]
    constructor
    · rintro ⟨p', rfl⟩
      have hl' : s.log = (s1.log ++ [.closed r (.ok ())]) ++ .stopped :: p' := by rw [hl]; simp
      obtain ⟨s3, r3, ⟨as3, h31⟩, _, _, ho3, hn3, h34⟩ := stop_origin he hl'
      have hlog := List.append_inj_left h34 (by have := congrArg List.length h34; simpa using this)
      have hu3 : untouched s3.log = true := by rw [← hlog]; exact hu1
      have hcnt3 := (good_exec h31).2.2
      rw [hcnt3.count hu3, ← hlog, ← hcnt.count hu1] at hn3
      exact hn3
    · intro h; exact absurd h hn
  · simp only [List.append_nil] at h4; subst h4
    refine ⟨rfl, ?_⟩
    rw [← last_iff hcnt hu1 hcp hr]
    exact ⟨fun _ => hn, fun _ => ⟨post', h5⟩⟩

/-- C45: the source never stops its stream buffer except on the close of a reader that came from `open_reader()`; if no reader is closed twice
and nobody replaces `onclose`, no reader is open at that point. -/
theorem C45_stops_only_on_last_close_partial (he : Src.init.exec cfg as = some s) (hc : closedOnce s.log) (hu : ∀ r f, SrcEv.assigned r f ∉ s.log)
    {pre post : List SrcEv} (hl : s.log = pre ++ .stopped :: post) :
    (∃ pre' r, pre = pre' ++ [.closed r (.ok ())] ∧ fromSource pre' r) ∧ ∀ r, ¬ isOpenReader pre r := by
  obtain ⟨s1, r, ⟨as1, h1⟩, hp, hrm, ho, hn, h4⟩ := stop_origin he hl
  have hcnt := (good_exec h1).2.2
  have hu1 : untouched s1.log = true := by
    rw [untouched_iff]
    intro r f hm
    exact hu r f (by rw [hl, h4]; simp [hm])
  have hr : fromSource s1.log r := mem_openedL.1 ((hcnt.on hu1 r).1 ho)
  refine ⟨⟨s1.log, r, h4, hr⟩, ?_⟩
  subst h4
  refine (last_iff hcnt hu1 ?_ hr).1 hn
  rw [hl] at hc
  exact closedOnce_prefix hc

/-- Whether a session is live, at the time of the `opened` event. -/
theorem opened_origin (he : Src.init.exec cfg as = some s) {pre post : List SrcEv} {r b : Nat} {lv : Bool}
    (hl : s.log = pre ++ .opened r b lv :: post) :
    ∃ (s1 : Src K V I) (c : Option Nat × Bool) (x : SB K V I) (as2 : List (SrcAct K V I)), (∃ as1, Src.init.exec cfg as1 = some s1) ∧ s1.log = pre ∧ s1.sb = some (c, x) ∧ s1.pc = .making ∧ x.sourceBuffer = some b ∧ lv = live x b ∧
      s1.exec cfg as2 = some s := by
  obtain ⟨s1, a, s2, new1, new2, post', ⟨as1, h1⟩, h2, h3, h4, h5, as2, h6e⟩ := origin he hl
  cases h2 with
  | opened c x b' hp hx hb =>
    obtain ⟨rfl, h7, rfl⟩ := split_one (List.append_cancel_left h3)
    cases h7
    exact ⟨s1, c, x, as2, ⟨as1, h1⟩, by simpa using h4.symm, hx, hp, hb, rfl, h6e⟩
  | closeUser r' hp hr ho =>
    simp only [say, List.append_assoc, List.singleton_append] at h3
    rcases split_two (List.append_cancel_left h3) with ⟨rfl, h7, rfl⟩ | ⟨rfl, h7, rfl⟩ <;> cases h7
  | closeLast r' c x x' e hp hr ho hn hx hs hev =>
    simp only [say, List.append_assoc, List.singleton_append] at h3
    rcases split_two (List.append_cancel_left h3) with ⟨rfl, h7, rfl⟩ | ⟨rfl, h7, rfl⟩ <;> cases h7
  | openMore | started | closeGo | bg =>
    exfalso
    have h6 := congrArg List.length h3
    simp at h6
  | _ =>
    exfalso
    obtain ⟨_, h7, _⟩ := split_one (List.append_cancel_left h3)
    cases h7

theorem sb_zero (he : Src.init.exec cfg as = some s) {c : Option Nat × Bool} {x : SB K V I} (hx : s.sb = some (c, x)) (hp : s.pc ≠ .starting)
    {b : Nat} (hb : x.sourceBuffer = some b) : b = 0 := by
  obtain ⟨hg, -, -⟩ := good_exec he
  have h0 := ((hg.one c x hx).inv.sb b hb).2
  have h1 := (hg.one c x hx).n1 (.inl (hg.idle c x hx hp))
  omega

theorem live_iff (he : Src.init.exec cfg as = some s) {c : Option Nat × Bool} {x : SB K V I} (hx : s.sb = some (c, x))
    {b : Nat} : live x b = true ↔ (x.buf b).isSome ∧ x.flag b = false := by
  obtain ⟨hg, -, -⟩ := good_exec he
  have hev := (hg.one c x hx).inv.evt b
  simp only [live, SB.view]
  cases hb : x.buf b with
  | none => simp
  | some y => simp [hev y hb]

/-- Once the source has stopped its stream buffer, every reader of it is stopped, also those opened later. -/
theorem C45_stopped_for_all (he : Src.init.exec cfg as = some s) (h : SrcEv.stopped ∈ s.log) {c : Option Nat × Bool} {x : SB K V I}
    (hx : s.sb = some (c, x)) (b : Nat) : live x b = false := by
  obtain ⟨hg, hg2, -⟩ := good_exec he
  have hf := (hg2.used c x hx).2.2.2 h
  rw [Bool.eq_false_iff]
  intro hl
  obtain ⟨h1, h2⟩ := (live_iff he hx).1 hl
  have hb0 : b = 0 := by
    by_contra hb
    have h3 : x.n ≤ b := by
      have : x.n ≤ 1 := by
        cases hst : x.start with
        | none => exact (( hg.one c x hx).n1 (.inl hst)).le
        | some p =>
          have ha := (hg.one c x hx).pc p hst
          have hb := (hg.one c x hx).n0
          have hc := (hg.one c x hx).n1
          cases p <;> simp_all
      omega
    rw [(hg.one c x hx).inv.noBuf b h3] at h1; simp at h1
  subst hb0
  rw [hf] at h2; simp at h2

/-- C45 (partial, as above): a reader that was live when `open_reader()` returned it stays live until it is closed, whatever other readers do, as
long as no exception ends the reading thread. -/
theorem C45_open_reader_live_partial (he : Src.init.exec cfg as = some s) (hc : closedOnce s.log) (hu : ∀ r f, SrcEv.assigned r f ∉ s.log)
    {c : Option Nat × Bool} {x : SB K V I} (hx : s.sb = some (c, x)) (hd : x.log.any isDeath = false) {r b : Nat}
    (ho : SrcEv.opened r b true ∈ s.log) (hcl : ∀ out, SrcEv.closed r out ∉ s.log) : live x b = true := by
  obtain ⟨pre, post, hl⟩ := List.append_of_mem ho
  obtain ⟨s1, c1, x1, as2, ⟨as1, h1⟩, h2, h3, h4, h5, h6, h7⟩ := opened_origin he hl
  obtain ⟨hg, hg2, hcnt⟩ := good_exec he
  have hb0 := sb_zero h1 h3 (by simp [h4]) h5
  subst hb0
  have hm : 0 < s.made := lt_of_le_of_lt (Nat.zero_le _) (hcnt.openLt r (mem_openedL.2 ⟨_, _, ho⟩))
  rw [live_iff he hx]
  refine ⟨((hg.one c x hx).inv.sb 0 (hg.src c x hx hm)).1, ?_⟩
  rw [Bool.eq_false_iff]
  intro hf
  rcases (hg.one c x hx).flag 0 hf with hst | hst
  · have hst' := ((hg2.used c x hx).2.2.1).1 hst
    rw [hl] at hst'
    simp only [List.mem_append, List.mem_cons, reduceCtorEq, false_or] at hst'
    rcases hst' with hst' | hst'
    · have := C45_stopped_for_all h1 (by rw [h2]; exact hst') h3 0
      rw [← h6] at this; simp at this
    · obtain ⟨p1, p2, rfl⟩ := List.append_of_mem hst'
      have hl' : s.log = (pre ++ .opened r 0 true :: p1) ++ .stopped :: p2 := by rw [hl]; simp
      have hno := (C45_stops_only_on_last_close_partial he hc hu hl').2 r
      refine hno ⟨⟨0, true, by simp⟩, ?_⟩
      intro out hout
      exact hcl out (by rw [hl']; exact List.mem_append_left _ hout)
  · rw [hd] at hst; simp at hst

/-! ### C46 -/

/-- C46 is false: however often `open_reader()` is called and all readers are closed, `open()` of the source succeeds at most once. -/
theorem C46_refuted_opened_once (he : Src.init.exec cfg as = some s) {c : Option Nat × Bool} {x : SB K V I} (hx : s.sb = some (c, x)) :
    x.log.countP isOpen ≤ 1 := ((good_exec he).1.one c x hx).open1

/-- C46 is false: after the readers were closed, every reader returned by `open_reader()` is a reader of the stopped stream. -/
theorem C46_refuted_reopened_is_stopped (he : Src.init.exec cfg as = some s) {pre post : List SrcEv} {r b : Nat} {lv : Bool}
    (hl : s.log = pre ++ .opened r b lv :: post) (h : SrcEv.stopped ∈ pre) : lv = false := by
  obtain ⟨s1, c1, x1, as2, ⟨as1, h1⟩, h2, h3, h4, h5, h6, h7⟩ := opened_origin he hl
  rw [h6]
  exact C45_stopped_for_all h1 (by rw [h2]; exact h) h3 b

/-- What holds after a failed `open_reader()`. -/
def Failed (s : Src K V I) : Prop :=
  (∃ e, SrcEv.openError e ∈ s.log) → s.pc ≠ .starting ∧ s.sb ≠ none ∧ (∀ c x, s.sb = some (c, x) → x.start = none ∧ x.sourceBuffer = none) ∧
    s.made = 0 ∧ ∀ r b lv, SrcEv.opened r b lv ∉ s.log

theorem Failed.step {s s' : Src K V I} {a : SrcAct K V I} (hg : s.Good cfg) (hcnt : s.Cnt) (h : s.Failed) (hs : s.step cfg a = some s') : s'.Failed := by
  have hst := step_to hs
  clear hs
  have hmade : ∀ r b lv, SrcEv.opened r b lv ∈ s.log → 0 < s.made := fun r b lv h =>
    lt_of_le_of_lt (Nat.zero_le _) (hcnt.openLt r (mem_openedL.2 ⟨_, _, h⟩))
  have hsrc := hg.src
  have hidle := hg.idle
  have h0 := hg.noSb
  unfold Failed at *
  cases hst with
  | bg a c x x' ha hx hs =>
    have := SB.step_idle (by rintro rfl; simp [SBAct.isBg] at ha) hs
    intro he
    obtain ⟨k1, k2, k3, k4⟩ := h he
    obtain ⟨k5, k6⟩ := k3 c x hx
    refine ⟨k1, by simp, ?_, k4⟩
    rintro _ _ ⟨⟩
    obtain ⟨k7, k8, -⟩ := this k5
    exact ⟨k7, by rw [k8, k6]⟩
  | closeGo r c x x' hp hx hs =>
    have := SB.step_idle (by simp) hs
    intro he
    obtain ⟨k1, k2, k3, k4⟩ := h he
    obtain ⟨k5, k6⟩ := k3 c x hx
    refine ⟨by simp, by simp, ?_, k4⟩
    rintro _ _ ⟨⟩
    obtain ⟨k7, k8, -⟩ := this k5
    exact ⟨k7, by rw [k8, k6]⟩
  | closeLast r c x x' e hp hr ho hn hx hs he =>
    intro he
    have := h (by simpa [say] using he)
    omega
  | closeErr r c x x' hp hr ho hn hx hs he =>
    intro he
    have := h (by simpa [say] using he)
    omega
  | openFirst x hp hx hs =>
    intro he
    have := h (by simpa [say] using he)
    exact absurd hx this.2.1
  | startErr c x hp hx hxs hb =>
    intro _
    have hm := hg.start0 hp
    refine ⟨by simp [say], by simp [say, hx], ?_, hm, ?_⟩
    · intro c1 x1 e; simp only [say] at e; rw [hx] at e; cases e; exact ⟨hxs, hb⟩
    · intro r b lv hm'
      have := hmade r b lv (by simpa [say] using hm')
      omega
  | openErr c x hp hx hb =>
    intro _
    have hm : s.made = 0 := by
      by_contra hm
      have := hsrc c x hx (by omega)
      simp [hb] at this
    refine ⟨by simp [say], by simp [say, hx], ?_, hm, ?_⟩
    · intro c1 x1 e; simp only [say] at e; rw [hx] at e; cases e; exact ⟨hidle c x hx (by simp [hp]), hb⟩
    · intro r b lv hm'
      have := hmade r b lv (by simpa [say] using hm')
      omega
  | opened c x b hp hx hb =>
    intro he
    have := (h (by simpa [say, setOnclose] using he)).2.2.1 c x hx
    simp [hb] at this
  | mk c x b hp hx hb =>
    intro he
    have := (h (by simpa [say, setOnclose] using he)).2.2.1 c x hx
    simp [hb] at this
  | openMore y hp hx =>
    intro he
    obtain ⟨k1, k2⟩ := h he
    exact ⟨by simp, k2⟩
  | started c x b hp hx hxs hb =>
    intro he
    have := (h (by simpa [say, setOnclose] using he)).2.2.1 c x hx
    simp [hb] at this
  | _ =>
    intro he
    obtain ⟨k1, k2, k3, k4, k5⟩ := h (by simpa [say, setOnclose] using he)
    exact ⟨k1, k2, k3, k4, by simpa [say, setOnclose] using k5⟩

theorem failed_exec (he : Src.init.exec cfg as = some s) : s.Failed :=
  (exec_ind (P := fun s => (s.Good cfg ∧ s.Cnt) ∧ s.Failed) (fun _ _ _ h hs => ⟨⟨h.1.1.step hs, h.1.2.step hs⟩, h.2.step h.1.1 h.1.2 hs⟩)
    ⟨⟨Good.init cfg, Cnt.init⟩, by simp [Failed, Src.init]⟩ he).2

/-- C46 is false: if an `open_reader()` raises (e.g. because `open()` of the source raised), no `open_reader()` ever succeeds on this source. -/
theorem C46_refuted_failed_open_is_final (he : Src.init.exec cfg as = some s) (e : PyErr) (h : SrcEv.openError e ∈ s.log) :
    ∀ r b lv, SrcEv.opened r b lv ∉ s.log := (failed_exec he ⟨e, h⟩).2.2.2.2

/-- C46 is false: after a failed `open_reader()` each further one raises StreamNotStartedError. -/
theorem C46_refuted_failed_open_then (he : Src.init.exec cfg as = some s) {pre post : List SrcEv} {e e' : PyErr}
    (hl : s.log = pre ++ .openError e' :: post) (h : SrcEv.openError e ∈ pre) : e' = .streamNotStarted := by
  obtain ⟨s1, a, s2, new1, new2, post', ⟨as1, h1⟩, h2, h3, h4, h5, as2, h6e⟩ := origin he hl
  have hf := failed_exec h1
  cases h2 with
  | openErr c x hp hx hb =>
    obtain ⟨rfl, h7, rfl⟩ := split_one (List.append_cancel_left h3)
    cases h7; rfl
  | startErr c x hp hx hxs hb =>
    obtain ⟨rfl, h7, rfl⟩ := split_one (List.append_cancel_left h3)
    simp only [List.append_nil] at h4
    exact absurd hp (hf ⟨e, h4 ▸ h⟩).1
  | closeUser r' hp hr ho =>
    simp only [say, List.append_assoc, List.singleton_append] at h3
    rcases split_two (List.append_cancel_left h3) with ⟨rfl, h7, rfl⟩ | ⟨rfl, h7, rfl⟩ <;> cases h7
  | closeLast r' c x x' e hp hr ho hn hx hs hev =>
    simp only [say, List.append_assoc, List.singleton_append] at h3
    rcases split_two (List.append_cancel_left h3) with ⟨rfl, h7, rfl⟩ | ⟨rfl, h7, rfl⟩ <;> cases h7
  | openMore | started | closeGo | bg =>
    exfalso
    have h6 := congrArg List.length h3
    simp at h6
  | _ =>
    exfalso
    obtain ⟨_, h7, _⟩ := split_one (List.append_cancel_left h3)
    cases h7

theorem sb_death_mono {as2 : List (SrcAct K V I)} {s1 : Src K V I} {c1 : Option Nat × Bool} {x1 : SB K V I} (h1 : s1.sb = some (c1, x1))
    (hd : x1.log.any isDeath = true) (he : s1.exec cfg as2 = some s) : ∃ c x, s.sb = some (c, x) ∧ x.log.any isDeath = true := by
  have hmono : ∀ (cfg : SBCfg K V) (x x' : SB K V I) (a : SBAct K V I), x.step cfg a = some x' → x.log.any isDeath = true → x'.log.any isDeath = true := by
    intro cfg x x' a hs h
    have hst := SB.step_to hs
    clear hs
    cases hst
    all_goals simp only [SB.say, SB.setThr, SB.setBuf, SB.setEvent, SB.setNext, SB.setDrop, SB.setInfo, List.any_append, h, Bool.true_or]
  refine exec_ind (P := fun s : Src K V I => ∃ c x, s.sb = some (c, x) ∧ x.log.any isDeath = true) ?_ ⟨c1, x1, h1, hd⟩ he
  rintro s a s' ⟨c, x, hx, hxd⟩ hs
  have hst := step_to hs
  clear hs
  cases hst with
  | bg a c' x' x'' ha hx' hs => rw [hx] at hx'; cases hx'; exact ⟨_, _, rfl, hmono _ _ _ _ hs hxd⟩
  | closeGo r c' x' x'' hp hx' hs => rw [hx] at hx'; cases hx'; exact ⟨_, _, rfl, hmono _ _ _ _ hs hxd⟩
  | closeLast r c' x' x'' e hp hr ho hn hx' hs hev => rw [hx] at hx'; cases hx'; exact ⟨_, _, rfl, hmono _ _ _ _ hs hxd⟩
  | closeErr r c' x' x'' hp hr ho hn hx' hs hev => rw [hx] at hx'; cases hx'; exact ⟨_, _, rfl, hmono _ _ _ _ hs hxd⟩
  | openFirst x' hp hx' hs => rw [hx] at hx'; cases hx'
  | _ => exact ⟨c, x, hx, hxd⟩

/-- C46 (partial: before the first stop): a reader returned by `open_reader()` is a reader of a running stream, unless an exception ended the
reading thread. -/
theorem C46_first_open_partial (he : Src.init.exec cfg as = some s) {pre post : List SrcEv} {r b : Nat} {lv : Bool}
    (hl : s.log = pre ++ .opened r b lv :: post) (h : SrcEv.stopped ∉ pre) {c : Option Nat × Bool} {x : SB K V I} (hx : s.sb = some (c, x))
    (hd : x.log.any isDeath = false) : lv = true := by
  obtain ⟨s1, c1, x1, as2, ⟨as1, h1⟩, h2, h3, h4, h5, h6, h7⟩ := opened_origin he hl
  rw [h6, live_iff h1 h3]
  obtain ⟨hg, hg2, -⟩ := good_exec h1
  refine ⟨((hg.one _ _ h3).inv.sb b h5).1, ?_⟩
  rw [Bool.eq_false_iff]
  intro hf
  rcases (hg.one _ _ h3).flag b hf with hst | hst
  · rw [((hg2.used _ _ h3).2.2.1), h2] at hst
    exact h hst
  · obtain ⟨c', x', h8, h9⟩ := sb_death_mono h3 hst h7
    rw [hx] at h8; cases h8
    rw [hd] at h9; simp at h9

/-! ### C47 -/

theorem callback_snoc (l : List SrcEv) (e : SrcEv) (r : Nat) : callback (l ++ [e]) r =
    (match e with
     | .opened r' _ _ => if r' = r then .handler else callback l r
     | .assigned r' f => if r' = r then (if f then .user else .none) else callback l r
     | _ => callback l r) := by
  simp only [callback, List.foldl_append, List.foldl_cons, List.foldl_nil]
  cases e <;> rfl

theorem callback_exec (he : Src.init.exec cfg as = some s) : (∀ r, s.onclose r = callback s.log r) ∧ (∀ r, s.made ≤ r → s.onclose r = .missing) := by
  refine exec_ind (P := fun s : Src K V I => (∀ r, s.onclose r = callback s.log r) ∧ (∀ r, s.made ≤ r → s.onclose r = .missing)) ?_ ?_ he
  · rintro s a s' ⟨h, h'⟩ hs
    have hst := step_to hs
    clear hs
    cases hst
    all_goals
      refine ⟨fun r => ?_, fun r hr => ?_⟩ <;> simp only [say, setOnclose, callback_snoc] at *
    all_goals first
      | exact h r
      | exact h' r hr
      | grind
  · exact ⟨fun _ => rfl, fun _ _ => rfl⟩

/-- C47 (partial: the reader has an `onclose`): closing a reader from `open_reader()`, or one to which `onclose` was assigned, never raises; a
function assigned to `onclose` is called, `None` means that nothing happens. -/
theorem C47_close_partial (he : Src.init.exec cfg as = some s) {pre post : List SrcEv} {r : Nat} {out : Py Unit}
    (hl : s.log = pre ++ .closed r out :: post) (h : callback pre r ≠ .missing) :
    out = .ok () ∧ (callback pre r = .user → ∃ pre', pre = pre' ++ [.ran r]) ∧
      (callback pre r = .none → ∃ s1 s2 : Src K V I, (∃ as1, Src.init.exec cfg as1 = some s1) ∧ s1.log = pre ∧ s1.step cfg (.close r) = some s2 ∧
        s2 = { s1 with log := pre ++ [.closed r (.ok ())] }) := by
  obtain ⟨s1, s2, new1, new2, post', ⟨as1, h1⟩, hp, hrm, hst, h3, h4, h5, h6⟩ := close_origin he hl
  have hcb := (callback_exec h1).1 r
  have hcb' : callback pre r = s1.onclose r := by
    rw [hcb, h4]
    rcases h6 with ⟨ho, rfl, rfl, rfl⟩ | ⟨ho, rfl, rfl, rfl⟩ | ⟨ho, rfl, rfl, rfl⟩ | ⟨ho, rfl, rfl, rfl, hn⟩ | ⟨ho, rfl, rfl, rfl, hn⟩ <;>
      simp [callback_snoc]
  rw [hcb'] at h ⊢
  rcases h6 with ⟨ho, rfl, rfl, rfl⟩ | ⟨ho, rfl, rfl, rfl⟩ | ⟨ho, rfl, rfl, rfl⟩ | ⟨ho, rfl, rfl, rfl, hn⟩ | ⟨ho, rfl, rfl, rfl, hn⟩
  · exact absurd ho h
  · refine ⟨rfl, by simp [ho], fun _ => ⟨s1, _, ⟨as1, h1⟩, by simpa using h4.symm, ?_, rfl⟩⟩
    simp only [List.append_nil] at h4
    simp only [step]; rw [if_pos ⟨hp, hrm⟩, ho, h4]; rfl
  · exact ⟨rfl, fun _ => ⟨s1.log, h4⟩, by simp [ho]⟩
  · exact ⟨rfl, by simp [ho], by simp [ho]⟩
  · exact ⟨rfl, by simp [ho], by simp [ho]⟩

/-- C47 is false: closing a reader made by `mk_reader()` raises AttributeError. -/
theorem C47_refuted (he : Src.init.exec cfg as = some s) {pre post : List SrcEv} {r : Nat} {out : Py Unit}
    (hl : s.log = pre ++ .closed r out :: post) (h : ¬ fromSource pre r) (hu : ∀ f, SrcEv.assigned r f ∉ pre) : out = .error .attributeError := by
  obtain ⟨s1, s2, new1, new2, post', ⟨as1, h1⟩, hp, hrm, hst, h3, h4, h5, h6⟩ := close_origin he hl
  have hcb := (callback_exec h1).1 r
  have key : ∀ l : List SrcEv, ¬ fromSource l r → (∀ f, SrcEv.assigned r f ∉ l) → callback l r = .missing := by
    intro l
    induction l using List.reverseRecOn with
    | nil => intros; rfl
    | append_singleton l e ih =>
      intro h1 h2
      rw [callback_snoc]
      have ih' := ih (fun ⟨b, lv, hm⟩ => h1 ⟨b, lv, by simp [hm]⟩) (fun f hm => h2 f (by simp [hm]))
      cases e with
      | opened r' b lv =>
        dsimp only
        rw [if_neg]
        · exact ih'
        · rintro rfl; exact h1 ⟨b, lv, by simp⟩
      | assigned r' f =>
        dsimp only
        rw [if_neg]
        · exact ih'
        · rintro rfl; exact h2 f (by simp)
      | _ => exact ih'
  have hm := key s1.log (fun ⟨b, lv, hm⟩ => h ⟨b, lv, by simp [h4, hm]⟩) (fun f hm => hu f (by simp [h4, hm]))
  rw [hm] at hcb
  rcases h6 with ⟨ho, rfl, rfl, rfl⟩ | ⟨ho, rfl, rfl, rfl⟩ | ⟨ho, rfl, rfl, rfl⟩ | ⟨ho, rfl, rfl, rfl, hn⟩ | ⟨ho, rfl, rfl, rfl, hn⟩
  · rfl
  all_goals simp [ho] at hcb

/-! ### C48 -/

/-- C48: `configure_buffer` raises ValueError if the buffer exists, and succeeds otherwise. -/
theorem C48_configure (he : Src.init.exec cfg as = some s) {pre post : List SrcEv} {c : Option Nat × Bool} {out : Py Unit}
    (hl : s.log = pre ++ .configured c out :: post) :
    ((∃ c', SrcEv.bufferMade c' ∈ pre) ∧ out = .error .valueError) ∨ ((∀ c', SrcEv.bufferMade c' ∉ pre) ∧ out = .ok ()) := by
  obtain ⟨s1, a, s2, new1, new2, post', ⟨as1, h1⟩, h2, h3, h4, h5, as2, h6e⟩ := origin he hl
  obtain ⟨-, hg2, -⟩ := good_exec h1
  cases h2 with
  | confErr c' y hp hx =>
    obtain ⟨rfl, h7, rfl⟩ := split_one (List.append_cancel_left h3)
    cases h7
    simp only [List.append_nil] at h4; subst h4
    exact .inl ⟨⟨_, (hg2.used y.1 y.2 hx).2.1⟩, rfl⟩
  | conf c' hp hx =>
    obtain ⟨rfl, h7, rfl⟩ := split_one (List.append_cancel_left h3)
    cases h7
    simp only [List.append_nil] at h4; subst h4
    exact .inr ⟨(hg2.conf hx).2.1, rfl⟩
  | closeUser r' hp hr ho =>
    simp only [say, List.append_assoc, List.singleton_append] at h3
    rcases split_two (List.append_cancel_left h3) with ⟨rfl, h7, rfl⟩ | ⟨rfl, h7, rfl⟩ <;> cases h7
  | closeLast r' c x x' e hp hr ho hn hx hs hev =>
    simp only [say, List.append_assoc, List.singleton_append] at h3
    rcases split_two (List.append_cancel_left h3) with ⟨rfl, h7, rfl⟩ | ⟨rfl, h7, rfl⟩ <;> cases h7
  | openMore | started | closeGo | bg =>
    exfalso
    have h6 := congrArg List.length h3
    simp at h6
  | _ =>
    exfalso
    obtain ⟨_, h7, _⟩ := split_one (List.append_cancel_left h3)
    cases h7

/-- C48: the buffer is made once, with the last settings given before. -/
theorem C48_settings_used (he : Src.init.exec cfg as = some s) {pre post : List SrcEv} {c : Option Nat × Bool}
    (hl : s.log = pre ++ .bufferMade c :: post) : c = settings pre ∧ ∀ c', SrcEv.bufferMade c' ∉ pre := by
  obtain ⟨s1, a, s2, new1, new2, post', ⟨as1, h1⟩, h2, h3, h4, h5, as2, h6e⟩ := origin he hl
  obtain ⟨-, hg2, -⟩ := good_exec h1
  cases h2 with
  | openFirst x hp hx hs =>
    obtain ⟨rfl, h7, rfl⟩ := split_one (List.append_cancel_left h3)
    cases h7
    simp only [List.append_nil] at h4; subst h4
    exact ⟨(hg2.conf hx).1, (hg2.conf hx).2.1⟩
  | closeUser r' hp hr ho =>
    simp only [say, List.append_assoc, List.singleton_append] at h3
    rcases split_two (List.append_cancel_left h3) with ⟨rfl, h7, rfl⟩ | ⟨rfl, h7, rfl⟩ <;> cases h7
  | closeLast r' c x x' e hp hr ho hn hx hs hev =>
    simp only [say, List.append_assoc, List.singleton_append] at h3
    rcases split_two (List.append_cancel_left h3) with ⟨rfl, h7, rfl⟩ | ⟨rfl, h7, rfl⟩ <;> cases h7
  | openMore | started | closeGo | bg =>
    exfalso
    have h6 := congrArg List.length h3
    simp at h6
  | _ =>
    exfalso
    obtain ⟨_, h7, _⟩ := split_one (List.append_cancel_left h3)
    cases h7

/-- C48: the buffer of every session has the length limit of the settings in force at any later time, i.e. later calls change nothing. -/
theorem C48_buffer_has_settings {K : Type} [LinearOrder K] [ReflBEq V] {cfg : SrcCfg K V} {as : List (SrcAct K V I)} {s : Src K V I}
    (he : Src.init.exec cfg as = some s) {c : Option Nat × Bool} {x : SB K V I}
    (hx : s.sb = some (c, x)) : c = settings s.log ∧ ∀ b y, x.buf b = some y → y.cons.ch.buf.maxlen = (settings s.log).1 := by
  obtain ⟨hg, hg2, -⟩ := good_exec he
  have hc := (hg2.used c x hx).1
  refine ⟨hc, fun b y hy => ?_⟩
  obtain ⟨bs, hbs⟩ := hg.reach c x hx
  rw [((SB.bufsOk_exec hbs).2.buf hy).2.2, ← hc]; rfl

end

/-! ### Witnesses -/
section Witness

/-- A source of naturals that are their own keys. -/
def wcfg : SrcCfg Nat Nat := { key := id, keyNone := .error .typeError, rdCfg := fun _ => Cfg.default }

/-- A first `open_reader()`. -/
def wOpen : List (SrcAct Nat Nat Nat) :=
  .openReader :: (List.replicate 5 (.bg .startGo)) ++ [.bg .openOk, .bg (.bufOk 7), .bg .startGo, .openGo, .openGo]

/-- Another one. -/
def wMore : List (SrcAct Nat Nat Nat) := [.openReader, .openGo]

/-- C45 is false if a reader is closed twice: the source stops its stream buffer although reader 1 is open. -/
theorem C45_refuted_double_close : ∃ (as : List (SrcAct Nat Nat Nat)) (s : Src Nat Nat Nat) (c : Option Nat × Bool) (x : SB Nat Nat Nat),
    Src.init.exec wcfg as = some s ∧ s.sb = some (c, x) ∧ isOpenReader s.log 1 ∧ (∀ r f, SrcEv.assigned r f ∉ s.log) ∧
      SrcEv.opened 1 0 true ∈ s.log ∧ SrcEv.stopped ∈ s.log ∧ x.log.any isDeath = false ∧ live x 0 = false := by
  have hlog : ∃ s c x, Src.init.exec wcfg (wOpen ++ wMore ++ [.close 0, .close 0]) = some s ∧ s.sb = some (c, x) ∧
      s.log = [.bufferMade (some 100, true), .opened 0 0 true, .opened 1 0 true, .closed 0 (.ok ()), .closed 0 (.ok ()), .stopped] ∧
      x.log.any isDeath = false ∧ live x 0 = false := ⟨_, _, _, rfl, rfl, rfl, rfl, rfl⟩
  obtain ⟨s, c, x, h1, h2, h3, h4, h5⟩ := hlog
  refine ⟨_, s, c, x, h1, h2, ?_, ?_, ?_, ?_, h4, h5⟩ <;> simp [h3, isOpenReader, fromSource]

/-- The hypotheses of the C45 theorems are met: two readers, closed one after the other, stop on the second close and not on the first. -/
example : ∃ (as : List (SrcAct Nat Nat Nat)) (s : Src Nat Nat Nat), Src.init.exec wcfg as = some s ∧ closedOnce s.log ∧
    (∀ r f, SrcEv.assigned r f ∉ s.log) ∧
    s.log = [.bufferMade (some 100, true), .opened 0 0 true, .opened 1 0 true, .closed 1 (.ok ()), .closed 0 (.ok ()), .stopped] := by
  have hlog : ∃ s, Src.init.exec wcfg (wOpen ++ wMore ++ [.close 1, .close 0]) = some s ∧
      s.log = [.bufferMade (some 100, true), .opened 0 0 true, .opened 1 0 true, .closed 1 (.ok ()), .closed 0 (.ok ()), .stopped] := ⟨_, rfl, rfl⟩
  obtain ⟨s, h1, h3⟩ := hlog
  refine ⟨_, s, h1, ?_, ?_, h3⟩ <;> simp [h3, closedOnce]
  omega

/-- A live reader that is never closed while another one comes and goes. -/
example : ∃ (as : List (SrcAct Nat Nat Nat)) (s : Src Nat Nat Nat) (c : Option Nat × Bool) (x : SB Nat Nat Nat),
    Src.init.exec wcfg as = some s ∧ s.sb = some (c, x) ∧ closedOnce s.log ∧ (∀ r f, SrcEv.assigned r f ∉ s.log) ∧
      x.log.any isDeath = false ∧ SrcEv.opened 0 0 true ∈ s.log ∧ (∀ out, SrcEv.closed 0 out ∉ s.log) ∧ SrcEv.closed 1 (.ok ()) ∈ s.log := by
  have hlog : ∃ s c x, Src.init.exec wcfg (wOpen ++ wMore ++ [.close 1]) = some s ∧ s.sb = some (c, x) ∧
      s.log = [.bufferMade (some 100, true), .opened 0 0 true, .opened 1 0 true, .closed 1 (.ok ())] ∧ x.log.any isDeath = false :=
    ⟨_, _, _, rfl, rfl, rfl, rfl⟩
  obtain ⟨s, c, x, h1, h2, h3, h4⟩ := hlog
  refine ⟨_, s, c, x, h1, h2, ?_, ?_, h4, ?_, ?_, ?_⟩ <;> simp [h3, closedOnce]

/-- C46 is false on a concrete run: open, close, open again gives a reader of a stopped stream, and the source was opened once. -/
theorem C46_refuted_witness : ∃ (as : List (SrcAct Nat Nat Nat)) (s : Src Nat Nat Nat) (c : Option Nat × Bool) (x : SB Nat Nat Nat),
    Src.init.exec wcfg as = some s ∧ s.sb = some (c, x) ∧
    s.log = [.bufferMade (some 100, true), .opened 0 0 true, .closed 0 (.ok ()), .stopped, .opened 1 0 false] ∧ x.log.countP isOpen = 1 ∧
    x.log.any isDeath = false :=
  ⟨wOpen ++ [.close 0, .closeGo] ++ wMore, _, _, _, rfl, rfl, rfl, rfl, rfl⟩

/-- C46 is false on a concrete run: `open()` raises, and the next `open_reader()` raises StreamNotStartedError without calling `open()`. -/
theorem C46_refuted_failed_witness : ∃ (as : List (SrcAct Nat Nat Nat)) (s : Src Nat Nat Nat) (c : Option Nat × Bool) (x : SB Nat Nat Nat),
    Src.init.exec wcfg as = some s ∧ s.sb = some (c, x) ∧
    s.log = [.bufferMade (some 100, true), .openError (.other 0), .openError .streamNotStarted] ∧ x.log = [.openRaised 0] :=
  ⟨(.openReader :: (List.replicate 5 (.bg .startGo)) ++ [.bg .openRaise, .openGo]) ++ wMore, _, _, _, rfl, rfl, rfl, rfl⟩

/-- C47 is false on a concrete run, beside a reader that can be closed and readers with an assigned `onclose`. -/
theorem C47_refuted_witness : ∃ (as : List (SrcAct Nat Nat Nat)) (s : Src Nat Nat Nat), Src.init.exec wcfg as = some s ∧
    s.log = [.bufferMade (some 100, true), .opened 0 0 true, .made 1, .made 2, .made 3, .closed 1 (.error .attributeError),
      .assigned 2 true, .ran 2, .closed 2 (.ok ()), .assigned 3 false, .closed 3 (.ok ()), .closed 0 (.ok ()), .stopped] :=
  ⟨wOpen ++ [.mkReader, .mkReader, .mkReader, .close 1, .assign 2 true, .close 2, .assign 3 false, .close 3, .close 0], _, rfl, rfl⟩

/-- C48: two configurations, the open, and a rejected third one. -/
example : ∃ (as : List (SrcAct Nat Nat Nat)) (s : Src Nat Nat Nat) (c : Option Nat × Bool) (x : SB Nat Nat Nat),
    Src.init.exec wcfg as = some s ∧ s.sb = some (c, x) ∧
    s.log = [.configured (some 3, true) (.ok ()), .configured (none, true) (.ok ()), .bufferMade (none, true), .opened 0 0 true,
      .configured (some 5, false) (.error .valueError)] ∧ (x.buf 0).isSome :=
  ⟨[.configure (some 3, true), .configure (none, true)] ++ wOpen ++ [.configure (some 5, false)], _, _, _, rfl, rfl, rfl, rfl⟩

end Witness
end Src
end S2P
