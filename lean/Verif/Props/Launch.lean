import Verif.Model.Launch
import Verif.Props.FailedStart
import Verif.Props.Past
/-
C159: a `start()` that raises because the thread cannot be launched.
-/
namespace S2P
open Spec
variable {K V I : Type}

/-- Events other than the launch of a session in `l`. -/
def Ev.notLaunchOf (l : List Nat) : Ev V I → Bool
  | .launched t => !l.contains t
  | _ => true

namespace LSB
variable [LinearOrder K] [BEq V] {cfg : SBCfg K V} {s s' : LSB K V I} {x : LchAct K V I} {xs ys : List (LchAct K V I)}

/-- The state `u`, with the threads in `f` at the start of their loop and another log. -/
def ov (u : SB K V I) (f : List Nat) (L : List (Ev V I)) : SB K V I := { u with thr := fun t => if t ∈ f then .check else u.thr t, log := L }

set_option maxHeartbeats 4000000 in
/-- A step the stream buffer takes with some threads not launched, it can take with all threads launched. -/
theorem sb_step {u u' : SB K V I} {f : List Nat} {L : List (Ev V I)} {a : SBAct K V I} (hf : ∀ t ∈ f, u.thr t = .fresh)
    (hth : u.start = some .launch → ∀ t ∈ f, u.thread ≠ some t) (hn : ∀ t ∈ f, t < u.n)
    (hs : u.step cfg a = some u') :
    ∃ l, u'.log = u.log ++ l ∧ (∀ t, Ev.launched t ∈ l → t ∉ f) ∧ (∀ t ∈ f, u'.thr t = .fresh) ∧
      (ov u f L).step cfg a = some (ov u' f (L ++ l)) := by
  have hmem : ∀ t, u.thr t ≠ .fresh → (t ∈ f ↔ False) := fun t h => ⟨fun hm => h (hf t hm), False.elim⟩
  have hsw : ∀ t, t ∉ f → ∀ p, (fun j => if j = t then p else if j ∈ f then TPC.check else u.thr j) = fun j => if j ∈ f then TPC.check else if j = t then p else u.thr j := by
    intro t ht p; funext j; by_cases h1 : j = t <;> simp [h1, ht]
  have hfr : ∀ t, u.thr t ≠ .fresh → ∀ p, ∀ t' ∈ f, (if t' = t then p else u.thr t') = .fresh := by
    intro t ht p t' h'; rw [if_neg (by rintro rfl; exact ht (hf _ h'))]; exact hf _ h'
  have hst := SB.step_to hs
  clear hs
  cases hst
  all_goals try simp only [SB.say, SB.setThr, SB.setBuf, SB.setEvent, SB.setNext, SB.setDrop, SB.setInfo, SB.newSess, SB.running] at *
  all_goals first
    | refine ⟨[], (List.append_nil _).symm, by simp, ?_, ?_⟩
    | refine ⟨[_], rfl, ?_, ?_, ?_⟩
    | refine ⟨[_, _], List.append_assoc _ _ _, ?_, ?_, ?_⟩
  all_goals try (simp; done)
  all_goals try assumption
  all_goals first
    | (simp_all [ov, SB.step, SB.startGo, SB.thrGo, SB.say, SB.setThr, SB.setBuf, SB.setEvent, SB.setNext, SB.setDrop, SB.setInfo, SB.newSess, SB.running]; done)
    | (have hno := hmem _ (by rw [‹u.thr _ = _›]; simp)
       simp [ov, SB.step, SB.startGo, SB.thrGo, SB.say, SB.setThr, SB.setBuf, SB.setEvent, SB.setNext, SB.setDrop, SB.setInfo, SB.newSess, SB.running, hno, *]; done)
    | grind
    | skip
  case chk1.refine_2 h => simp only [SB.step, SB.startGo, ov, h, SB.running, List.append_nil]; rfl
  case chk2.refine_2 h => simp only [SB.step, SB.startGo, ov, h, SB.running, List.append_nil]; rfl
  case mkThr.refine_2 h =>
    have := hsw u.n (fun h => by have := hn _ h; omega)
    simp [SB.step, SB.startGo, ov, h, SB.setThr, this]
  case launch.refine_3 t h ht =>
    have := hsw _ (fun hm => hth ‹_› _ hm ht)
    simp [SB.step, SB.startGo, ov, h, ht, SB.setThr, SB.say, this]
  case stored.refine_3 t b v x r h hx hr =>
    have hno : t ∉ f := fun hm => by have := hf t hm; rw [h] at this; simp at this
    have := hsw t hno
    obtain ⟨c, r', hc⟩ : ∃ c r', x.cons.call (.append v) = (c, r') := ⟨_, _, rfl⟩
    rw [hc] at hr
    simp only at hr
    subst hr
    simp [SB.step, SB.thrGo, ov, h, hno, hx, hc, SB.setThr, SB.setBuf, SB.say, this]
  case refused.refine_3 t b v x e h hx hr =>
    have hno : t ∉ f := fun hm => by have := hf t hm; rw [h] at this; simp at this
    have := hsw t hno
    obtain ⟨c, r', hc⟩ : ∃ c r', x.cons.call (.append v) = (c, r') := ⟨_, _, rfl⟩
    rw [hc] at hr
    simp only at hr
    subst hr
    simp [SB.step, SB.thrGo, ov, h, hno, hx, hc, SB.setThr, SB.setBuf, SB.say, this]
  case next.refine_2 h => simp only [SB.step, ov, h, SB.setNext, List.append_nil, if_true]; rfl
  case mkReader.refine_3 h => simp [SB.step, ov, h, SB.say]; rfl
  case attach.refine_3 b i j b' x x' h hb hx hx' op hop =>
    subst hop
    simp only [SB.step, ov, h, hb, hx, hx', SB.say, SB.setBuf, if_true]
    rfl

set_option maxHeartbeats 4000000 in
theorem old_step {u u' : SB K V I} {a : SBAct K V I} (hs : u.step cfg a = some u') (t : Nat) (h1 : t < u.n)
    (h2 : ∀ p, u.start = some p → p.late = true → p ≠ .mkThr → t + 1 < u.n) :
    t < u'.n ∧ ∀ p, u'.start = some p → p.late = true → p ≠ .mkThr → t + 1 < u'.n := by
  have hst := SB.step_to hs
  clear hs
  cases hst
  all_goals try simp only [SB.say, SB.setThr, SB.setBuf, SB.setEvent, SB.setNext, SB.setDrop, SB.setInfo, SB.newSess, SB.running] at *
  all_goals first
    | exact ⟨h1, h2⟩
    | grind [StartPC.late]

set_option maxHeartbeats 4000000 in
theorem src_step {u u' : SB K V I} {a : SBAct K V I} (hs : u.step cfg a = some u') (t : Nat) (h1 : t < u.n)
    (h2 : ∀ p, u.start = some p → p.late = true → p ≠ .mkThr → t + 1 < u.n) (h : t + 1 = u.n → u.start ≠ some .mkThr → u.sourceBuffer = some t) :
    t + 1 = u'.n → u'.start ≠ some .mkThr → u'.sourceBuffer = some t := by
  have hst := SB.step_to hs
  clear hs
  cases hst
  all_goals try simp only [SB.say, SB.setThr, SB.setBuf, SB.setEvent, SB.setNext, SB.setDrop, SB.setInfo, SB.newSess, SB.running] at *
  all_goals first
    | exact h
    | grind [StartPC.late]

set_option maxHeartbeats 4000000 in
theorem quiet_step {u u' : SB K V I} {a : SBAct K V I} (hs : u.step cfg a = some u') (hn : u.thr u.n = .unborn)
    (h : ∀ t, u.thr t = .fresh ∨ u.thr t = .unborn → ∀ e ∈ u.log, byThread t e = false) :
    ∀ t, u'.thr t = .fresh ∨ u'.thr t = .unborn → ∀ e ∈ u'.log, byThread t e = false := by
  have hst := SB.step_to hs
  clear hs
  cases hst
  all_goals try simp only [SB.say, SB.setThr, SB.setBuf, SB.setEvent, SB.setNext, SB.setDrop, SB.setInfo, SB.newSess, SB.running] at *
  all_goals first
    | exact h
    | grind [byThread]

/-- `y` is the state with every thread launched. -/
structure Sim (cfg : SBCfg K V) (s : LSB K V I) (y : SB K V I) (as : List (SBAct K V I)) : Prop where
  reach : SB.init.exec cfg as = some y
  same : y = ov s.j.sb s.failed y.log
  fresh : ∀ t ∈ s.failed, s.j.sb.thr t = .fresh
  lt : ∀ t ∈ s.failed, t < s.j.sb.n
  old : ∀ t ∈ s.failed, ∀ p, s.j.sb.start = some p → p.late = true → p ≠ .mkThr → t + 1 < s.j.sb.n
  log : s.j.sb.log = y.log.filter (Ev.notLaunchOf s.failed)
  made : ∀ t ∈ s.failed, ∃ i, Ev.bufferMade t i ∈ y.log
  src : ∀ t ∈ s.failed, t + 1 = s.j.sb.n → s.j.sb.start ≠ some .mkThr → s.j.sb.sourceBuffer = some t
  quiet : ∀ t, s.j.sb.thr t = .fresh ∨ s.j.sb.thr t = .unborn → ∀ e ∈ s.j.sb.log, byThread t e = false
  joins : ∀ t, JEv.joined t ∈ s.j.joins → s.j.sb.thr t = .done

theorem step_cases (hs : s.step cfg x = some s') :
    (∃ z, x = .j z ∧ s.j.step cfg z = some s'.j ∧ s'.failed = s.failed) ∨
    (∃ t, x = .launchRaise ∧ s.j.sb.start = some .launch ∧ s.j.sb.thread = some t ∧ s' = { j := { s.j with sb := { s.j.sb with start := none } }, failed := s.failed ++ [t] }) := by
  cases x with
  | j z =>
    simp only [step, Option.map_eq_some_iff] at hs
    obtain ⟨y, hy, rfl⟩ := hs
    exact .inl ⟨z, rfl, hy, rfl⟩
  | launchRaise =>
    simp only [step] at hs
    split at hs
    · injection hs with hs; subst hs
      exact .inr ⟨_, rfl, ‹_›, ‹_›, rfl⟩
    · simp at hs

theorem Sim.step {y : SB K V I} {as : List (SBAct K V I)} (h : Sim cfg s y as) (hs : s.step cfg x = some s') :
    ∃ y', Sim cfg s' y' (as ++ launchedAll [x]) := by
  obtain ⟨h1, h2, h3, h4, h5, h6, h7, hsr, h9, h8⟩ := h
  have hg := SB.good h1
  have hfi := SB.failInv h1
  have hth : ∀ t ∈ s.failed, s.j.sb.start = some .launch → s.j.sb.thread ≠ some t := by
    intro t ht hl he
    have ha := h5 t ht _ hl rfl (by simp)
    have hb := hfi.thread (by rw [h2]; show 0 < s.j.sb.n; omega)
    rw [h2] at hb
    have hb : s.j.sb.thread = some (s.j.sb.n - 1) := hb
    rw [hb] at he; injection he with he; omega
  have hun : s.j.sb.thr s.j.sb.n = .unborn := by
    have := hg.inv.noThr s.j.sb.n (by rw [h2]; exact Nat.le_refl _)
    rw [h2] at this
    simpa [ov, show s.j.sb.n ∉ s.failed from fun h => by have := h4 _ h; omega] using this
  rcases step_cases hs with ⟨z, rfl, hz, hf⟩ | ⟨t, rfl, hl, ht, rfl⟩
  · rcases JSB.step_join hz with ⟨a, rfl, hsb, hj, hw⟩ | ⟨hsb, hx, hj⟩
    · obtain ⟨l, hl1, hl2, hl3, hl4⟩ := sb_step (f := s.failed) (L := y.log) h3 (fun hl t ht => hth t ht hl) h4 hsb
      rw [← h2] at hl4
      refine ⟨ov s'.j.sb s'.failed (y.log ++ l), ?_, rfl, ?_, ?_, ?_, ?_, ?_, ?_, ?_, ?_⟩
      · rw [SB.exec_append, h1]
        simp only [launchedAll, SB.exec, Option.bind_some, hl4]
        rw [hf]
      · rw [hf]; exact hl3
      · rw [hf]; exact fun t ht => (old_step hsb t (h4 t ht) (h5 t ht)).1
      · rw [hf]; exact fun t ht => (old_step hsb t (h4 t ht) (h5 t ht)).2
      · rw [hl1, hf, h6]
        show _ = (y.log ++ l).filter _
        rw [List.filter_append]
        congr 1
        symm
        rw [List.filter_eq_self]
        intro e he
        cases e <;> simp [Ev.notLaunchOf]
        exact hl2 _ he
      · rw [hf]; exact fun t ht => (h7 t ht).imp fun _ h => List.mem_append_left _ h
      · rw [hf]; exact fun t ht => src_step hsb t (h4 t ht) (h5 t ht) (hsr t ht)
      · exact quiet_step hsb hun h9
      · intro t ht
        rw [hj] at ht
        have hd := h8 t ht
        have hnf : t ∉ s.failed := fun hm => by rw [h3 t hm] at hd; simp at hd
        have := JSB.done_stays hg.inv hl4 t (by rw [h2]; simp only [ov, if_neg hnf]; exact hd)
        simpa only [ov, if_neg hnf] using this
    · refine ⟨y, ?_, ?_, ?_, ?_, ?_, ?_, ?_, ?_, ?_, ?_⟩
      · cases z with
        | sb a => exact absurd rfl (hx a)
        | _ => simpa [launchedAll] using h1
      all_goals try rw [hf]
      all_goals try rw [hsb]
      all_goals try assumption
      intro t hm
      rcases hj with ⟨hj, -⟩ | ⟨hj, -⟩ | ⟨c, t', -, -, ⟨hj, -⟩ | ⟨hj, hd⟩⟩ <;> rw [hj] at hm
      · exact h8 t hm
      · exact h8 t (by simpa using hm)
      · exact h8 t (by simpa using hm)
      · rcases List.mem_append.1 hm with hm | hm
        · exact h8 t hm
        · simp at hm; subst hm; exact hd
  · have hnot : t ∉ s.failed := fun hm => hth t hm hl ht
    have hy : y.start = some .launch := by rw [h2]; exact hl
    have hyt : y.thread = some t := by rw [h2]; exact ht
    have htn : t + 1 = s.j.sb.n ∧ s.j.sb.thr t = .fresh := by
      have := hg.inv.ph
      rw [hy] at this
      rw [h2] at this
      simp only [SB.PhaseOk, ov] at this
      grind
    refine ⟨({ y.setThr t .check with start := none }).say (.launched t), ?_, ?_, ?_, ?_, ?_, ?_, ?_, ?_, ?_, ?_⟩
    · rw [SB.exec_append, h1]
      simp [launchedAll, SB.exec, SB.step, SB.startGo, hy, hyt]
    · rw [h2]
      simp only [ov, SB.say, SB.setThr]
      congr 1
      funext j
      by_cases hj : j = t <;> simp [hj]
    · intro t' ht'
      rcases List.mem_append.1 ht' with h | h
      · exact h3 t' h
      · simp at h; subst h; exact htn.2
    · intro t' ht'
      rcases List.mem_append.1 ht' with h | h
      · exact h4 t' h
      · simp at h; subst h; show t' < s.j.sb.n; omega
    · intro t' ht' p hp; simp at hp
    · show s.j.sb.log = (y.log ++ [Ev.launched t]).filter _
      rw [h6, List.filter_append]
      simp only [Ev.notLaunchOf, List.filter_cons, List.filter_nil, List.contains_eq_mem, List.mem_append, List.mem_singleton, or_true, decide_true, Bool.not_true, Bool.false_eq_true, if_false, List.append_nil]
      refine List.filter_congr fun e he => ?_
      cases e <;> simp [Ev.notLaunchOf]
      rename_i t'
      intro _ heq
      subst heq
      have := (hg.log.launched t' he).2
      rw [h2] at this
      simp only [ov, if_neg hnot] at this
      exact this htn.2
    · intro t' ht'
      rcases List.mem_append.1 ht' with h | h
      · exact (h7 t' h).imp fun _ h => List.mem_append_left _ h
      · simp at h; subst h
        have hph := hg.inv.ph
        rw [hy] at hph
        obtain ⟨x, hx⟩ := Option.isSome_iff_exists.1 hph.2.2.2.1
        have hn1 : y.n - 1 = t' := by rw [h2]; show s.j.sb.n - 1 = t'; omega
        rw [hn1] at hx
        exact ⟨x.info, List.mem_append_left _ (hg.log.info t' x hx)⟩
    · intro t' ht' hl' _
      have hph := hg.inv.ph
      rw [hy] at hph
      have h := hph.2.2.2.2.1
      rw [h2] at h
      have h : s.j.sb.sourceBuffer = some (s.j.sb.n - 1) := h
      show s.j.sb.sourceBuffer = some t'
      have hl' : t' + 1 = s.j.sb.n := hl'
      rw [h]; congr 1; omega
    · exact h9
    · exact h8

theorem sim_from {y : SB K V I} {as : List (SBAct K V I)} (h : Sim cfg s y as) (he : s.exec cfg xs = some s') : ∃ y', Sim cfg s' y' (as ++ launchedAll xs) := by
  induction xs generalizing s y as with
  | nil => simp only [exec, Option.some.injEq] at he; subst he; exact ⟨y, by simpa [launchedAll] using h⟩
  | cons x xs ih =>
    simp only [exec] at he
    split at he
    · obtain ⟨y1, h1⟩ := h.step ‹_›
      obtain ⟨y2, h2⟩ := ih h1 he
      refine ⟨y2, ?_⟩
      have : launchedAll (x :: xs) = launchedAll [x] ++ launchedAll xs := by
        cases x with
        | j z => cases z <;> simp [launchedAll]
        | launchRaise => simp [launchedAll]
      rw [this, ← List.append_assoc]
      exact h2
    · simp at he

theorem sim (he : (LSB.init : LSB K V I).exec cfg xs = some s) : ∃ y, Sim cfg s y (launchedAll xs) := by
  have h0 : Sim cfg (LSB.init : LSB K V I) SB.init [] :=
    ⟨rfl, by simp [ov, LSB.init, JSB.init, SB.init], by simp [LSB.init], by simp [LSB.init], by simp [LSB.init], by simp [LSB.init, JSB.init, SB.init], by simp [LSB.init], by simp [LSB.init], by simp [LSB.init, JSB.init, SB.init],
      by simp [LSB.init, JSB.init]⟩
  simpa using sim_from h0 he

/-- **C159** a `start()` that fails at launching the thread leaves the stream buffer as a successful one would, with a thread that does nothing: for every execution
there is one of Model/StreamBuffer.lean (so that what is proved about all of those applies) with the same buffers, readers and stop events, the same
answers of `is_running`, `mk_reader`, the same threads but for those not launched, and the same events but for their launches. -/
theorem C159_as_if_launched (he : (LSB.init : LSB K V I).exec cfg xs = some s) :
    ∃ y : SB K V I, SB.init.exec cfg (launchedAll xs) = some y ∧ (∀ b, y.view b = s.j.sb.view b) ∧ y.running = s.j.sb.running ∧ y.sourceBuffer = s.j.sb.sourceBuffer ∧
      y.nextReader = s.j.sb.nextReader ∧ (y.start = none ↔ s.j.sb.start = none) ∧ (∀ t, t ∉ s.failed → y.thr t = s.j.sb.thr t) ∧
      (∀ t ∈ s.failed, y.thr t = .check) ∧ s.j.sb.log = y.log.filter (Ev.notLaunchOf s.failed) := by
  obtain ⟨y, h1, h2, -, -, -, h6, -, -, -, -⟩ := sim he
  refine ⟨y, h1, ?_, ?_, ?_, ?_, ?_, ?_, ?_, h6⟩
  all_goals rw [h2]
  · intro b; rfl
  · rfl
  · rfl
  · rfl
  · rfl
  · intro t ht; simp [ov, ht]
  · intro t ht; simp [ov, ht]

/-- **C159** the session of such a `start()`: the source was opened and its buffer made, and its thread never reads, stores, or closes the source; its buffer
holds only what threads of other sessions put there; `join()` never returns for it. Every execution. -/
theorem C159_never_closed [ReflBEq V] (he : (LSB.init : LSB K V I).exec cfg xs = some s) (t : Nat) (ht : t ∈ s.failed) :
    Ev.opened t ∈ s.j.sb.log ∧ (∃ i, Ev.bufferMade t i ∈ s.j.sb.log) ∧ Ev.launched t ∉ s.j.sb.log ∧ (∀ e ∈ s.j.sb.log, byThread t e = false) ∧ JEv.joined t ∉ s.j.joins := by
  obtain ⟨y, h1, h2, h3, h4, h5, h6, h7, hsr, h9, h8⟩ := sim he
  have hg := SB.good h1
  obtain ⟨i, hi⟩ := h7 t ht
  refine ⟨?_, ⟨i, ?_⟩, ?_, h9 t (.inl (h3 t ht)), fun hm => by have := h8 t hm; rw [h3 t ht] at this; simp at this⟩
  · rw [h6]; exact List.mem_filter.2 ⟨(hg.log.made t i hi).2, rfl⟩
  · rw [h6]; exact List.mem_filter.2 ⟨hi, rfl⟩
  · rw [h6]; intro hm; have := (List.mem_filter.1 hm).2; simp [Ev.notLaunchOf, ht] at this

/-- **C159** after a `start()` that raised so (the latest one, none being in progress) the stream buffer looks started: `mk_reader()` returns a reader of its
buffer, `is_running` is `True` until its stop event is set, `stop()` returns and sets it, and `join()` raises `RuntimeError`. Every execution. -/
theorem C159_looks_started [ReflBEq V] (he : (LSB.init : LSB K V I).exec cfg xs = some s) (hn : s.j.sb.start = none) (t : Nat) (ht : t ∈ s.failed) (hmax : latest s.j.sb.log t) :
    s.j.sb.step cfg .mkReader = some (s.j.sb.say (.madeReader (.ok t))) ∧
    (∃ r, s.j.sb.step cfg .isRunning = some (s.j.sb.say (.isRunning r)) ∧ (r = true ↔ Ev.eventSet t ∉ s.j.sb.log)) ∧
    (∃ u, s.j.sb.step cfg .stop = some u ∧ u.log = s.j.sb.log ++ [.eventSet t, .stopCalled (.ok ())]) ∧
    (∀ c, s.j.waits c = none → ∃ s1 s2, s.j.step cfg (.look c) = some s1 ∧ s1.step cfg (.wait c) = some s2 ∧ s2.sb = s.j.sb ∧ s2.joins = s.j.joins ++ [.raised .runtimeError]) := by
  obtain ⟨y, h1, h2, h3, h4, h5, h6, h7, hsr, h9, h8⟩ := sim he
  have hg := SB.good h1
  have hfi := SB.failInv h1
  have htn := h4 t ht
  have hyn : y.start = none := by rw [h2]; exact hn
  have hn' : y.n = s.j.sb.n := by rw [h2]; rfl
  have hlast : t + 1 = s.j.sb.n := by
    have := hmax (y.n - 1) ?_
    · omega
    · rw [h6]
      rcases SB.latest_opened h1 hyn (by omega) with h | h
      · exact .inl (List.mem_filter.2 ⟨h, rfl⟩)
      · exact .inr (List.mem_filter.2 ⟨h, rfl⟩)
  have hthr : s.j.sb.thread = some t := by
    have h := hfi.thread (by omega)
    rw [hn'] at h
    rw [h2] at h
    have h : s.j.sb.thread = some (s.j.sb.n - 1) := h
    rw [h]; congr 1; omega
  have hph := hg.inv.ph
  rw [hyn] at hph
  have hse : s.j.sb.stopEvent = some t := by
    have h : y.stopEvent = some t := by
      rcases hph with ⟨-, h⟩ | ⟨h, -⟩
      · omega
      · rw [h]; congr 1; omega
    rw [h2] at h; exact h
  have hset : s.j.sb.flag t = true ↔ Ev.eventSet t ∈ s.j.sb.log := by
    have h := hg.log.flag t
    have e : y.flag t = s.j.sb.flag t := by rw [h2]; rfl
    rw [e] at h
    rw [h, h6, List.mem_filter]
    exact ⟨fun h => ⟨h, rfl⟩, fun h => h.1⟩
  have hsb : s.j.sb.sourceBuffer = some t := hsr t ht hlast (by rw [hn]; simp)
  refine ⟨by simp [SB.step, hn, hsb], ⟨s.j.sb.running, by simp only [SB.step, hn, if_true], ?_⟩, ⟨_, by simp only [SB.step, hse]; rfl, by simp [SB.say, SB.setEvent]⟩,
    fun c hc => ⟨s.j.setWait c (some t), { (s.j.setWait c (some t)).setWait c none with joins := s.j.joins ++ [.raised .runtimeError] }, ?_, ?_, rfl, rfl⟩⟩
  · rw [← hset]; simp [SB.running, hse]
  · simp only [JSB.step, hc, if_true, hthr]
  · simp [JSB.step, JSB.setWait, h3 t ht]

/-- No caller asks for `start()`. -/
def NoStart (xs : List (LchAct K V I)) : Prop := .j (.sb .start) ∉ xs

/-- No caller asks for `stop()`. -/
def NoStop (xs : List (LchAct K V I)) : Prop := .j (.sb .stop) ∉ xs

set_option maxHeartbeats 4000000 in
theorem stuck_step {u u' : SB K V I} {a : SBAct K V I} (hs : u.step cfg a = some u') (ha : a ≠ .start) (hn : u.start = none) (hid : ∀ t, (u.thr t).idle = true) :
    u'.start = none ∧ (∀ t, (u'.thr t).idle = true) ∧ u'.sourceBuffer = u.sourceBuffer ∧ (a ≠ .stop → u'.running = u.running) ∧
    ∃ l, u'.log = u.log ++ l ∧ ∀ e ∈ l, (∀ t, byThread t e = false) ∧ isOpen e = false := by
  have hst := SB.step_to hs
  clear hs
  cases hst
  all_goals try simp only [SB.say, SB.setThr, SB.setBuf, SB.setEvent, SB.setNext, SB.setDrop, SB.setInfo, SB.newSess, SB.running] at *
  case stop e h =>
    refine ⟨hn, hid, trivial, fun h => absurd rfl h, [.eventSet e, .stopCalled (.ok ())], ?_, ?_⟩
    · simp
    · intro e he; simp at he; rcases he with rfl | rfl <;> simp [byThread, isOpen]
  case drop c k b x hc hx =>
    refine ⟨hn, hid, trivial, fun _ => trivial, [_, _], List.append_assoc _ _ _, ?_⟩
    intro e he; simp only [List.mem_cons, List.not_mem_nil, or_false, List.cons_append, List.nil_append] at he
    rcases he with rfl | rfl <;> simp [byThread, isOpen]
  all_goals first
    | (simp_all; done)
    | exact ⟨hn, hid, rfl, fun _ => rfl, [], by simp, by simp⟩
    | exact ⟨hn, hid, rfl, fun _ => rfl, [_], rfl, by simp [byThread, isOpen]⟩
    | exact ⟨hn, hid, rfl, fun h => absurd rfl h, [_], rfl, by simp [byThread, isOpen]⟩
    | exact ⟨hn, hid, rfl, fun h => absurd rfl h, [_, _], List.append_assoc _ _ _, by simp [byThread, isOpen]⟩
    | exact ⟨hn, hid, rfl, fun _ => rfl, [_, _], List.append_assoc _ _ _, by simp [byThread, isOpen]⟩
    | exact ⟨hn, hid, rfl, fun h => absurd rfl h, [_, _], (by rw [List.append_assoc]; rfl), by intro e he; simp at he; rcases he with rfl | rfl <;> simp [byThread, isOpen]⟩
    | (exfalso; have := hid ‹Nat›; simp_all [TPC.idle]; done)
    | grind [TPC.idle, byThread, isOpen]

/-- **C159** and if no thread of an earlier session is left, then until the next `start()` nothing calls the source any more (it stays open) and nothing is
ever put into a buffer, whatever the callers do, while `is_running` keeps its value until somebody calls `stop()`. Every continuation. -/
theorem C159_nothing_arrives (hn : s.j.sb.start = none) (hid : ∀ t, (s.j.sb.thr t).idle = true) (he : s.exec cfg ys = some s') (h1 : NoStart ys) :
    s'.j.sb.start = none ∧ (∀ t, (s'.j.sb.thr t).idle = true) ∧ s'.j.sb.sourceBuffer = s.j.sb.sourceBuffer ∧ s'.failed = s.failed ∧
    (NoStop ys → s'.j.sb.running = s.j.sb.running) ∧
    ∃ l, s'.j.sb.log = s.j.sb.log ++ l ∧ ∀ e ∈ l, (∀ t, byThread t e = false) ∧ isOpen e = false := by
  induction ys generalizing s with
  | nil => simp only [exec, Option.some.injEq] at he; subst he; exact ⟨hn, hid, rfl, rfl, fun _ => rfl, [], by simp, by simp⟩
  | cons x ys ih =>
    simp only [exec] at he
    split at he
    swap
    · simp at he
    rename_i s1 hs
    have h1' : NoStart ys := fun h => h1 (List.mem_cons_of_mem _ h)
    rcases step_cases hs with ⟨z, rfl, hz, hf⟩ | ⟨t, rfl, hl, ht, rfl⟩
    swap
    · rw [hn] at hl; simp at hl
    rcases JSB.step_join hz with ⟨a, rfl, hsb, -, -⟩ | ⟨hsb, hx, -⟩
    · obtain ⟨k1, k2, k3, k4, l, k5, k6⟩ := stuck_step hsb (by rintro rfl; exact h1 (List.mem_cons_self ..)) hn hid
      obtain ⟨g1, g2, g3, g4, g5, l', g6, g7⟩ := ih k1 k2 he h1'
      refine ⟨g1, g2, g3.trans k3, g4.trans hf, fun h => (g5 fun hm => h (List.mem_cons_of_mem _ hm)).trans (k4 (by rintro rfl; exact h (List.mem_cons_self ..))), l ++ l', ?_, ?_⟩
      · rw [g6, k5, List.append_assoc]
      · intro e he; rcases List.mem_append.1 he with h | h
        · exact k6 e h
        · exact g7 e h
    · have := ih (by rw [hsb]; exact hn) (by rw [hsb]; exact hid) he h1'
      rw [hsb, hf] at this
      obtain ⟨g1, g2, g3, g4, g5, g6⟩ := this
      exact ⟨g1, g2, g3, g4, fun h => g5 fun hm => h (List.mem_cons_of_mem _ hm), g6⟩

/-- What is in a buffer was stored there. -/
theorem items_stored [ReflBEq V] (he : (LSB.init : LSB K V I).exec cfg xs = some s) (b : Nat) : s.j.sb.items b <:+ storedIn b s.j.sb.log := by
  obtain ⟨y, h1, h2, -, -, -, h6, -, -, -, -⟩ := sim he
  have h := SB.items_suffix h1 b
  have e : y.items b = s.j.sb.items b := by rw [h2]; rfl
  rw [e] at h
  have e2 : storedIn b s.j.sb.log = storedIn b y.log := by
    rw [h6, storedIn, List.filterMap_filter, storedIn]
    congr 1
    funext e
    cases e <;> simp [Ev.notLaunchOf]
  rw [e2]; exact h

theorem exec_append : ∀ (xs : List (LchAct K V I)) (s : LSB K V I), s.exec cfg (xs ++ ys) = (s.exec cfg xs).bind fun s' => s'.exec cfg ys
  | [], s => rfl
  | x :: xs, s => by
    simp only [List.cons_append, exec]
    cases s.step cfg x with
    | none => rfl
    | some s' => exact exec_append xs s'

/-- **C159** in particular, if nothing was in the buffer of that session, it stays empty, so that its readers, which `is_running` tells to wait, wait in vain. -/
theorem C159_stays_empty [ReflBEq V] (he : (LSB.init : LSB K V I).exec cfg xs = some s) (hn : s.j.sb.start = none) (hid : ∀ t, (s.j.sb.thr t).idle = true)
    (he' : s.exec cfg ys = some s') (h1 : NoStart ys) (t : Nat) (h0 : storedIn t s.j.sb.log = []) : s'.j.sb.items t = [] := by
  have h : (LSB.init : LSB K V I).exec cfg (xs ++ ys) = some s' := by rw [exec_append, he]; exact he'
  obtain ⟨-, -, -, -, -, l, hl, hq⟩ := C159_nothing_arrives hn hid he' h1
  have hi := items_stored h t
  have hl0 : storedIn t l = [] := by
    rw [storedIn, List.filterMap_eq_nil_iff]
    intro e hel
    cases e <;> try rfl
    rename_i t' b v
    have := (hq _ hel).1 t'
    simp [byThread] at this
  rw [hl, storedIn_append, h0, hl0] at hi
  simpa using hi

end LSB
end S2P
