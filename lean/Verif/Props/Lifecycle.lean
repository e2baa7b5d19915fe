import Verif.Props.StreamBuffer
import Verif.Props.Reader
/-
C39–C44, C58, C59: the life of a session of a `StreamBuffer`, see Props/StreamBuffer.lean.
-/
namespace S2P
open Spec
variable {K V I : Type}

namespace Spec
theorem After.nil (p : Ev V I → Prop) (e : Ev V I) : After p e [] := by
  intro pre x post h; simp at h

theorem After.snoc {p : Ev V I → Prop} {e : Ev V I} {l : List (Ev V I)} {y : Ev V I} (h : After p e l) (hy : p y → e ∈ l) : After p e (l ++ [y]) := by
  intro pre x post heq hx
  rcases List.eq_nil_or_concat post with rfl | ⟨post', z, rfl⟩
  · have := List.append_inj' heq rfl
    obtain ⟨rfl, h2⟩ := this
    injection h2 with h2 _; subst h2
    exact hy hx
  · simp only [List.concat_eq_append] at heq
    rw [show pre ++ x :: (post' ++ [z]) = (pre ++ x :: post') ++ [z] by simp] at heq
    have := List.append_inj' heq rfl
    exact h pre x post' this.1 hx

theorem After.mem {p : Ev V I → Prop} {e x : Ev V I} {l : List (Ev V I)} (h : After p e l) (hx : x ∈ l) (hp : p x) : e ∈ l := by
  obtain ⟨pre, post, rfl⟩ := List.append_of_mem hx
  exact List.mem_append_left _ (h pre x post rfl hp)

/-- The source is open after these calls on it. -/
def openAfter (o : Bool) : List (Ev V I) → Bool
  | [] => o
  | .opened _ :: l => openAfter true l
  | .closed _ _ :: l => openAfter false l
  | _ :: l => openAfter o l

theorem protocolOk_append (o : Bool) (l l' : List (Ev V I)) : protocolOk o (l ++ l') ↔ protocolOk o l ∧ protocolOk (openAfter o l) l' := by
  induction l generalizing o with
  | nil => simp [protocolOk, openAfter]
  | cons e l ih => cases e <;> simp only [List.cons_append, protocolOk, openAfter, ih, and_assoc]

theorem openAfter_append (o : Bool) (l l' : List (Ev V I)) : openAfter o (l ++ l') = openAfter (openAfter o l) l' := by
  induction l generalizing o with
  | nil => rfl
  | cons e l ih => cases e <;> simp only [List.cons_append, openAfter, ih]
end Spec

namespace SB
section
variable [LinearOrder K] [BEq V] [ReflBEq V] {cfg : SBCfg K V} {s s' : SB K V I} {a : SBAct K V I} {as : List (SBAct K V I)}

/-! ### C39 -/

omit [ReflBEq V] in
/-- What a step adds to the log. -/
theorem log_step (hs : s.step cfg a = some s') : ∃ l, s'.log = s.log ++ l ∧ l.length ≤ 2 ∧
    (∀ t, l.countP (byThread t) = 0 ∨ ((s.thr t).idle = false ∧ ∃ x, l = [x])) := by
  have hst := step_to hs
  clear hs
  cases hst
  all_goals
    try simp only [say, setThr, setBuf, setEvent, setNext, setDrop, setInfo, newSess, running] at *
  all_goals first
    | (refine ⟨[], (List.append_nil _).symm, ?_⟩; grind)
    | (refine ⟨_, rfl, ?_⟩; simp only [List.countP_cons, List.countP_nil, byThread]; grind [TPC.idle])
    | (refine ⟨_, List.append_assoc _ _ _, ?_⟩; simp only [List.countP_cons, List.countP_nil, List.countP_append, byThread]; grind)

omit [ReflBEq V] in
/-- **C39** thread `t` has closed the source exactly once if it has ended, and not at all before. Every execution, however the thread ends and
whatever the source does. -/
theorem C39_closed_once (he : SB.init.exec cfg as = some s) (t : Nat) :
    (s.thr t = .done → s.log.countP (isCloseBy t) = 1) ∧ (s.thr t ≠ .done → s.log.countP (isCloseBy t) = 0) := by
  refine ind (P := fun s : SB K V I => (s.thr t = .done → s.log.countP (isCloseBy t) = 1) ∧ (s.thr t ≠ .done → s.log.countP (isCloseBy t) = 0))
    ?_ ?_ he
  · simp [SB.init]
  · intro s a s' hg ih hs
    have h1 := hg.inv.noThr
    have hp := hg.inv.ph
    have hst := step_to hs
    clear hs
    cases hst
    all_goals
      try simp only [say, setThr, setBuf, setEvent, setNext, setDrop, setInfo, newSess, running] at *
    all_goals
      try simp only [List.countP_append, List.countP_cons, List.countP_nil, isCloseBy]
    all_goals first
      | exact ih
      | grind [PhaseOk]

omit [ReflBEq V] in
/-- **C39** after its close, thread `t` does nothing any more: no read, no store, no second close. Every execution. -/
theorem C39_nothing_after_close (he : SB.init.exec cfg as = some s) (t : Nat) :
    s.log.Pairwise (fun x y => isCloseBy t x = true → byThread t y = false) := by
  refine ind (P := fun s : SB K V I => s.log.Pairwise (fun x y => isCloseBy t x = true → byThread t y = false)) ?_ ?_ he
  · simp [SB.init]
  · intro s a s' hg ih hs
    obtain ⟨l, hl, _, h2⟩ := log_step hs
    rw [hl, List.pairwise_append]
    refine ⟨ih, ?_, ?_⟩
    · rcases h2 t with h | ⟨_, x, rfl⟩
      · rw [List.countP_eq_zero] at h
        exact List.pairwise_of_forall_mem_list (fun x _ y hy _ => by simpa using h y hy)
      · simp
    · intro x hx y hy hc
      have hd : s.thr t = .done := by
        cases x with
        | closed t' ok => simp only [isCloseBy, decide_eq_true_eq] at hc; subst hc; exact hg.log.closed _ _ hx
        | _ => simp [isCloseBy] at hc
      rcases h2 t with h | ⟨h, _⟩
      · rw [List.countP_eq_zero] at h; simpa using h y hy
      · rw [hd] at h; simp [TPC.idle] at h

omit [ReflBEq V] in
theorem ended (he : SB.init.exec cfg as = some s) (t : Nat) (h : s.thr t = .fin3 ∨ s.thr t = .done) : s.flag t = true := by
  refine ind (P := fun s : SB K V I => ∀ t, s.thr t = .fin3 ∨ s.thr t = .done → s.flag t = true) ?_ ?_ he t h
  · intro t h; simp [SB.init] at h
  · intro s a s' hg ih hs
    have h1 := hg.inv.noThr
    have h4 := hg.inv.oldFlag
    have hp := hg.inv.ph
    have hlt := hp.lt
    have hst := step_to hs
    clear hs
    cases hst
    all_goals
      try simp only [say, setThr, setBuf, setEvent, setNext, setDrop, setInfo, newSess, running] at *
    all_goals first
      | exact ih
      | grind [PhaseOk]
      | (cases hstart : s.start with
         | none => grind [PhaseOk]
         | some p => cases p <;> grind [PhaseOk])

omit [ReflBEq V] in
/-- **C39** the readers of the session can see `is_stopped` before the source is closed. Every execution. -/
theorem C39_stopped_before_close (he : SB.init.exec cfg as = some s) (t : Nat) :
    After (fun x => isCloseBy t x = true) (.eventSet t) s.log := by
  have := exec_ind (P := fun s : SB K V I => (∃ as, SB.init.exec cfg as = some s) ∧ After (fun x => isCloseBy t x = true) (.eventSet t) s.log)
    (fun s a s' ⟨⟨as, he⟩, ih⟩ hs => by
      refine ⟨⟨as ++ [a], by rw [exec_append, he]; simp [exec, hs]⟩, ?_⟩
      have hf := ended he t
      have hflag := (good he).log.flag t
      have hst := step_to hs
      clear hs
      cases hst
      all_goals
        try simp only [say, setThr, setBuf, setEvent, setNext, setDrop, setInfo, newSess, running] at *
      all_goals first
        | exact ih
        | (refine ih.snoc ?_; simp only [isCloseBy]; grind)
        | (refine (ih.snoc ?_).snoc ?_ <;> simp only [isCloseBy] <;> grind)) (s := SB.init) (s' := s) ⟨⟨[], rfl⟩, After.nil _ _⟩ he
  exact this.2

omit [ReflBEq V] in
/-- The source is open exactly while a session is being set up after its open, or runs. -/
theorem open_while (he : SB.init.exec cfg as = some s) (hset : SB.init.Settled cfg as) (hinfo : ∀ k, Ev.infoRaised k ∉ s.log) :
    protocolOk false s.log ∧ (openAfter false s.log = true → s.start = some .mkBuf ∨ s.start = some .launch ∨ (s.thr (s.n - 1)).idle = false) ∧
      (openAfter false s.log = false → s.start ≠ some .mkBuf ∧ s.start ≠ some .launch ∧ (s.thr (s.n - 1)).idle = true) := by
  refine ind_settled (P := fun s : SB K V I => (∀ k, Ev.infoRaised k ∉ s.log) → protocolOk false s.log ∧
    (openAfter false s.log = true → s.start = some .mkBuf ∨ s.start = some .launch ∨ (s.thr (s.n - 1)).idle = false) ∧
    (openAfter false s.log = false → s.start ≠ some .mkBuf ∧ s.start ≠ some .launch ∧ (s.thr (s.n - 1)).idle = true)) ?_ ?_ he hset hinfo
  · intro _; simp [SB.init, protocolOk, openAfter, TPC.idle]
  · intro s a s' hg h2 h2' ih hs hsa
    have h1 := hg.inv.noThr
    have hp := hg.inv.ph
    obtain ⟨g1, g2, g3, g4⟩ := h2
    clear h2' hg
    have hst := step_to hs
    clear hs
    cases hst
    all_goals
      try simp only [say, setThr, setBuf, setEvent, setNext, setDrop, setInfo, newSess, running] at *
    all_goals
      try simp only [protocolOk_append, openAfter_append, protocolOk, openAfter, List.mem_append, List.mem_cons, List.not_mem_nil, or_false, not_or] at *
    all_goals first
      | exact ih
      | grind [PhaseOk, TPC.idle, StartPC.late, SettledAt]

omit [ReflBEq V] in
/-- **C78**, settled executions without an exception from `info` or `key` right after the open: calls on the source follow its protocol: it is opened
only when closed, read and closed only when open; and it is closed whenever no session runs and no `start()` is in progress.
Missing: executions that are not settled (`C78_refuted`), and sources whose `info` raises (`C78_refuted_info`). -/
theorem C78_protocol_partial (he : SB.init.exec cfg as = some s) (hset : SB.init.Settled cfg as) (hinfo : ∀ k, Ev.infoRaised k ∉ s.log) :
    protocolOk false s.log ∧
    ((∀ t, (s.thr t).idle = true) → s.start = none → s.log.countP isOpen = s.log.countP isClose) := by
  have key := open_while he hset hinfo
  refine ⟨key.1, fun hid hst => ?_⟩
  have hcl : openAfter false s.log = false := by
    cases h : openAfter false s.log with
    | false => rfl
    | true => have := key.2.1 h; simp [hst, hid] at this
  have count : ∀ (l : List (Ev V I)) (o : Bool), protocolOk o l → l.countP isOpen + o.toNat = l.countP isClose + (openAfter o l).toNat := by
    intro l
    induction l with
    | nil => intro o _; simp [openAfter]
    | cons e l ih =>
      intro o h
      cases e
      all_goals
        simp only [protocolOk, openAfter, List.countP_cons, isOpen, isClose] at h ⊢
      all_goals first
        | (have := ih _ h; simpa using this)
        | (have := ih _ h.2; obtain ⟨rfl, _⟩ := h; simp at this ⊢; omega)
  have := count s.log false key.1
  rw [hcl] at this
  simpa using this

/-! ### C41 -/

omit [ReflBEq V] in
/-- **C41** once the source thread of session `t` has ended, in whatever way, the readers of that session see `is_stopped`. Every execution. -/
theorem C41_readers_see_stop (he : SB.init.exec cfg as = some s) (t : Nat) (ok : Bool) (h : Ev.closed t ok ∈ s.log) (c : Cons K V)
    (hv : s.view t = some c) : c.stopped = true := by
  have hg := good he
  obtain ⟨x, hx, rfl⟩ := Option.map_eq_some_iff.1 hv
  simp only
  rw [hg.inv.evt t x hx]
  exact ended he t (.inr (hg.log.closed _ _ h))

omit [ReflBEq V] in
/-- The latest `start()` (when none is in progress) has called `open()`. -/
theorem latest_opened (he : SB.init.exec cfg as = some s) : s.start = none → 0 < s.n → Ev.opened (s.n - 1) ∈ s.log ∨ Ev.openRaised (s.n - 1) ∈ s.log := by
  have := ind (P := fun s : SB K V I =>
    ((∀ p, s.start = some p → p = .mkBuf ∨ p = .launch ∨ p.late = false) → 0 < s.n → Ev.opened (s.n - 1) ∈ s.log ∨ Ev.openRaised (s.n - 1) ∈ s.log))
    (cfg := cfg) (by simp [SB.init]) (by
      intro s a s' hg ih hs
      have hst := step_to hs
      clear hs
      cases hst
      all_goals
        try simp only [say, setThr, setBuf, setEvent, setNext, setDrop, setInfo, newSess, running] at *
      all_goals first
        | exact ih
        | grind [StartPC.late]) he
  intro h; exact this (by simp [h])

omit [ReflBEq V] in
/-- **C41** and, unless there was a later `start()`, `is_running` is false (when no `start()` is in progress). Every execution. -/
theorem C41_not_running (he : SB.init.exec cfg as = some s) (t : Nat) (ok : Bool) (h : Ev.closed t ok ∈ s.log) (hl : s.start = none)
    (hlast : ∀ k, (Ev.opened k ∈ s.log ∨ Ev.openRaised k ∈ s.log) → k ≤ t) :
    s.step cfg .isRunning = some (s.say (.isRunning false)) := by
  have hg := good he
  have hd := hg.log.closed _ _ h
  have hn : t < s.n := by
    by_contra hn
    rw [hg.inv.noThr t (by omega)] at hd; simp at hd
  have hle := hlast _ (latest_opened he hl (by omega))
  have hp := hg.inv.ph
  rw [hl] at hp
  have hev : s.stopEvent = some t := by
    rcases hp with ⟨_, h0⟩ | ⟨h0, _⟩
    · omega
    · rw [h0, show s.n - 1 = t by omega]
  simp only [step, hl, if_true, running, hev, ended he t (.inr hd), Bool.not_true]

/-! ### C42 -/

omit [ReflBEq V] in
/-- **C42** if the latest `start()` succeeded, as session `k`, `is_running` is true exactly while nothing has ended that session: its stop event, which
`stop()`, the next `start()` and a dying thread set, is not set. -/
theorem C42_is_running (he : SB.init.exec cfg as = some s) (hl : s.start = none) (k : Nat) (hc : current s.log = some k) :
    Ev.launched k ∈ s.log ∧ ∃ r, s.step cfg .isRunning = some (s.say (.isRunning r)) ∧ (r = true ↔ Ev.eventSet k ∉ s.log) := by
  have hg := good he
  have hsb := hg.log.cur (by simp [hl])
  rw [hc] at hsb
  obtain ⟨_, hn⟩ := hg.inv.sb k hsb
  have hp := hg.inv.ph
  rw [hl] at hp
  have hev : s.stopEvent = some k := by
    rcases hp with ⟨_, h0⟩ | ⟨h0, _⟩
    · omega
    · rw [h0, show s.n - 1 = k by omega]
  refine ⟨?_, _, by simp only [step, hl, if_true]; rfl, ?_⟩
  · have := ind (P := fun s : SB K V I => ((∀ p, s.start = some p → p.late = false) → ∀ k, s.sourceBuffer = some k → Ev.launched k ∈ s.log))
      (cfg := cfg) (by simp [SB.init]) (by
        intro s a s' hg ih hs
        have hp := hg.inv.ph
        have hst := step_to hs
        clear hs
        cases hst
        all_goals
          try simp only [say, setThr, setBuf, setEvent, setNext, setDrop, setInfo, newSess, running] at *
        all_goals first
          | exact ih
          | grind [StartPC.late, PhaseOk]) he
    exact this (by simp [hl]) k hsb
  · rw [← hg.log.flag k]; simp [running, hev]

omit [ReflBEq V] in
/-- **C42** and if no `start()` has called `open()` yet, it is false. -/
theorem C42_never_started (he : SB.init.exec cfg as = some s) (hl : s.start = none)
    (h : ∀ k, Ev.opened k ∉ s.log ∧ Ev.openRaised k ∉ s.log) : s.step cfg .isRunning = some (s.say (.isRunning false)) := by
  have hg := good he
  have hp := hg.inv.ph
  rw [hl] at hp
  have h0 : s.stopEvent = none := by
    rcases hp with ⟨h0, _⟩ | ⟨_, h0⟩
    · exact h0
    · rcases latest_opened he hl h0 with h1 | h1
      · exact absurd h1 (h _).1
      · exact absurd h1 (h _).2
  simp [step, hl, running, h0]

omit [ReflBEq V] in
/-- **C79** in all executions: let `start()` number `k` be the latest to have called `source.open()`, with or without success. `is_running` is true exactly
while the stop event it made is not set. So after a `start()` that raised, it is true until somebody calls `stop()` or `start()` (`C79_refuted`). -/
theorem C79_latest_attempt_partial (he : SB.init.exec cfg as = some s) (hl : s.start = none) (k : Nat) (hk : Ev.opened k ∈ s.log ∨ Ev.openRaised k ∈ s.log)
    (hmax : ∀ k', Ev.opened k' ∈ s.log ∨ Ev.openRaised k' ∈ s.log → k' ≤ k) :
    ∃ r, s.step cfg .isRunning = some (s.say (.isRunning r)) ∧ (r = true ↔ Ev.eventSet k ∉ s.log) := by
  have hg := good he
  have hn := hg.log.latest k hk
  have hkn : k = s.n - 1 := by have := hmax _ (latest_opened he hl (by omega)); omega
  have hp := hg.inv.ph
  rw [hl] at hp
  have hev : s.stopEvent = some k := by
    rcases hp with ⟨_, h0⟩ | ⟨h0, _⟩
    · omega
    · rw [h0, hkn]
  refine ⟨_, by simp only [step, hl, if_true]; rfl, ?_⟩
  rw [← hg.log.flag k]; simp [running, hev]

/-! ### C75 -/

omit [ReflBEq V] in
theorem open_excl (he : SB.init.exec cfg as = some s) (k : Nat) : Ev.openRaised k ∈ s.log → Ev.opened k ∉ s.log := by
  have := ind (P := fun s : SB K V I => (∀ k, Ev.openRaised k ∈ s.log → Ev.opened k ∉ s.log) ∧
      ((s.start = some .mkEvt ∨ s.start = some .opening) → ∀ k, Ev.opened k ∈ s.log ∨ Ev.openRaised k ∈ s.log → k + 1 < s.n))
    (cfg := cfg) (by simp [SB.init]) (by
      intro s a s' hg ih hs
      have hlat := hg.log.latest
      have hp := hg.inv.ph
      have hst := step_to hs
      clear hs
      cases hst
      all_goals
        try simp only [say, setThr, setBuf, setEvent, setNext, setDrop, setInfo, newSess, running] at *
      all_goals first
        | exact ih
        | grind [PhaseOk]) he
  exact this.1 k

omit [ReflBEq V] in
/-- **C75** is false in every execution in which the latest `start()` failed to open the source: `mk_reader` raises `StreamNotStartedError`, whatever earlier
`start()` calls did. -/
theorem C75_refuted_always (he : SB.init.exec cfg as = some s) (hl : s.start = none) (k : Nat) (hk : Ev.openRaised k ∈ s.log)
    (hmax : ∀ k', Ev.opened k' ∈ s.log → k' ≤ k) : s.step cfg .mkReader = some (s.say (.madeReader (.error .streamNotStarted))) := by
  obtain ⟨h1, h2⟩ := C35_mk_reader he hl
  cases hc : current s.log with
  | none => rw [h1, hc]
  | some b =>
    exfalso
    have hle := (h2 b hc).2 k (.inr hk)
    have hob : Ev.opened b ∈ s.log := opened_of_current he b hc
    have := hmax b hob
    have : b = k := by omega
    subst this
    exact open_excl he b hk hob

/-! ### C58 -/

omit [LinearOrder K] [BEq V] [ReflBEq V] in
theorem setInfo_back (s : SB K V I) (c : Nat) (h : s.infos c = .idle) (p : InfoPC) : (s.setInfo c p).setInfo c .idle = s := by
  simp only [setInfo]
  congr 1
  funext j
  grind

omit [LinearOrder K] [BEq V] [ReflBEq V] in
theorem setInfo_setInfo (s : SB K V I) (c : Nat) (p q : InfoPC) : (s.setInfo c p).setInfo c q = s.setInfo c q := by
  simp only [setInfo]
  congr 1
  funext j
  grind

omit [ReflBEq V] in
/-- **C58** a caller (nothing else happening meanwhile, no `start()` in progress) gets: if the buffer of the current session `k` is not empty, the info
reported at that open; `None` if there is no session. Missing: with an empty buffer it is `None` too (`C58_refuted`), and it may raise while `start()` is in
progress (`C58_refuted_race`). -/
theorem C58_info_partial (he : SB.init.exec cfg as = some s) (hl : s.start = none) (c : Nat) (hc : s.infos c = .idle) :
    (current s.log = none → s.exec cfg [.info c] = some (s.say (.info (.ok none)))) ∧
    (∀ k, current s.log = some k → s.items k ≠ [] → ∃ i, Ev.bufferMade k i ∈ s.log ∧
      s.exec cfg [.info c, .infoGo c, .infoGo c] = some (s.say (.info (.ok (some i))))) ∧
    (∀ k, current s.log = some k → s.items k = [] → s.exec cfg [.info c, .infoGo c] = some (s.say (.info (.ok none)))) := by
  have hg := good he
  have hsb := hg.log.cur (by simp [hl])
  refine ⟨fun h => ?_, fun k h hne => ?_, fun k h hne => ?_⟩
  · rw [h] at hsb; simp [exec, step, hsb, hc]
  · rw [h] at hsb
    obtain ⟨x, hx⟩ := Option.isSome_iff_exists.1 (hg.inv.sb k hsb).1
    refine ⟨x.info, hg.log.info k x hx, ?_⟩
    simp only [items, hx] at hne
    have h1 : s.step cfg (.info c) = some (s.setInfo c (.test k)) := by simp [step, hc, hsb]
    have h2 : (s.setInfo c (.test k)).step cfg (.infoGo c) = some (s.setInfo c .again) := by
      simp only [step]
      simp [setInfo_setInfo, SD.len, hne, show (s.setInfo c (.test k)).infos c = .test k by simp [setInfo], show (s.setInfo c (.test k)).buf k = some x from hx]
    have h3 : (s.setInfo c .again).step cfg (.infoGo c) = some (s.say (.info (.ok (some x.info)))) := by
      simp only [step]
      rw [setInfo_back s c hc]
      simp [setInfo, hx, hsb]
    simp only [exec, h1, h2, h3]
  · rw [h] at hsb
    obtain ⟨x, hx⟩ := Option.isSome_iff_exists.1 (hg.inv.sb k hsb).1
    simp only [items, hx] at hne
    have h1 : s.step cfg (.info c) = some (s.setInfo c (.test k)) := by simp [step, hc, hsb]
    have h2 : (s.setInfo c (.test k)).step cfg (.infoGo c) = some (s.say (.info (.ok none))) := by
      simp only [step]
      rw [setInfo_back s c hc]
      simp [setInfo, hx, SD.len, hne]
    simp only [exec, h1, h2]

omit [ReflBEq V] in
/-- **C58**, every execution, whatever happens while the caller is looking: a `dict` it gets is the info of the latest session there is; it raises only
`AttributeError`, and only while another `start()` is in progress or after one that failed; `None` means that there was no session, or that the buffer it found
is empty. -/
theorem C58_info_any_partial (he : SB.init.exec cfg as = some s) (a : SBAct K V I) (hs : s.step cfg a = some s') (r : Py (Option I))
    (hr : s'.log = s.log ++ [.info r]) :
    match r with
    | .ok (some i) => ∃ k, Ev.bufferMade k i ∈ s.log ∧ ∀ k' i', Ev.bufferMade k' i' ∈ s.log → k' ≤ k
    | .ok none => s.sourceBuffer = none ∨ ∃ c b, s.infos c = .test b ∧ s.items b = []
    | .error e => e = .attributeError ∧ (s.start ≠ none ∨ current s.log = none) := by
  have hg := good he
  have hcur := hg.log.cur
  have hst := step_to hs
  clear hs
  cases hst
  case infoNone _ hb => simp only [say, List.append_cancel_left_eq, List.cons.injEq, Ev.info.injEq, and_true] at hr; subst hr; exact .inl hb
  case infoEmpty c b x h hx hl =>
    simp only [say, setInfo, List.append_cancel_left_eq, List.cons.injEq, Ev.info.injEq, and_true] at hr; subst hr
    exact .inr ⟨c, b, h, by simpa only [items, hx, SD.len, List.length_eq_zero_iff] using hl⟩
  case infoGone c h hb =>
    simp only [say, setInfo, List.append_cancel_left_eq, List.cons.injEq, Ev.info.injEq, and_true] at hr; subst hr
    refine ⟨rfl, ?_⟩
    by_cases hst : s.start = none
    · exact .inr (by rw [← hcur (by simp [hst]), hb])
    · exact .inl hst
  case infoOk c b x h hb hx =>
    simp only [say, setInfo, List.append_cancel_left_eq, List.cons.injEq, Ev.info.injEq, and_true] at hr; subst hr
    refine ⟨b, hg.log.info b x hx, fun k' i' hk => ?_⟩
    have := (hg.log.made k' i' hk).1
    have := (hg.inv.sb b hb).2
    omega
  all_goals
    simp only [say, setThr, setBuf, setEvent, setNext, setDrop, setInfo, List.append_assoc, List.append_cancel_left_eq, List.cons_append, List.nil_append,
      List.cons.injEq, reduceCtorEq, and_false, false_and] at hr
  all_goals exact absurd (congrArg List.length hr) (by simp)

omit [ReflBEq V] in
/-- The info of a session never changes: every session buffer is made once. -/
theorem C58_info_once (he : SB.init.exec cfg as = some s) (k : Nat) (i i' : I) (h : Ev.bufferMade k i ∈ s.log) (h' : Ev.bufferMade k i' ∈ s.log) :
    i = i' := by
  have := ind (P := fun s : SB K V I => ∀ k i, Ev.bufferMade k i ∈ s.log → (s.buf k).map (·.info) = some i) (cfg := cfg) (by simp [SB.init]) (by
    intro s a s' hg ih hs
    have hp := hg.inv.ph
    have hst := step_to hs
    clear hs
    cases hst
    all_goals
      try simp only [say, setThr, setBuf, setEvent, setNext, setDrop, setInfo, newSess, running] at *
    all_goals first
      | exact ih
      | grind [PhaseOk]) he
  have h1 := this k i h
  rw [this k i' h'] at h1
  exact (Option.some.inj h1).symm

/-! ### C40 -/

/-- The item a thread has read and not yet handed to its buffer. -/
def _root_.S2P.TPC.inHand : TPC V → List V
  | .appending v | .storing _ v => [v]
  | _ => []

/-- The thread has left its loop. -/
def _root_.S2P.TPC.over : TPC V → Bool
  | .fin1 | .fin2 | .fin3 | .done => true
  | _ => false

omit [ReflBEq V] in
/-- **C40**, settled executions: the data read by the thread of session `t`, in order, are the items stored in the session's buffer, then the one the
thread has in its hands, if any, then the refused one, if any; and a refusal ends the thread. `None` is never stored (`dataRead` has only data).
Missing: executions that are not settled (`C76_refuted`). -/
theorem C40_stored_in_order_partial (he : SB.init.exec cfg as = some s) (hset : SB.init.Settled cfg as) (t : Nat) :
    dataRead t s.log = storedIn t s.log ++ (s.thr t).inHand ++ refusedBy t s.log ∧
    (refusedBy t s.log).length ≤ 1 ∧ (refusedBy t s.log ≠ [] → (s.thr t).over = true) := by
  refine ind_settled (P := fun s : SB K V I => dataRead t s.log = storedIn t s.log ++ (s.thr t).inHand ++ refusedBy t s.log ∧
    (refusedBy t s.log).length ≤ 1 ∧ (refusedBy t s.log ≠ [] → (s.thr t).over = true)) ?_ ?_ he hset
  · simp [SB.init, dataRead, storedIn, refusedBy, TPC.inHand]
  · intro s a s' hg h2 h2' ih hs hsa
    have h1 := hg.inv.noThr
    have hp := hg.inv.ph
    obtain ⟨g1, g2, g3, g4⟩ := h2
    clear h2' hg
    have hst := step_to hs
    clear hs hsa
    cases hst
    all_goals
      try simp only [say, setThr, setBuf, setEvent, setNext, setDrop, setInfo, newSess, running] at *
    all_goals
      try simp only [dataRead, storedIn, refusedBy, List.filterMap_append, List.filterMap_cons, List.filterMap_nil, List.append_nil] at *
    all_goals first
      | exact ih
      | grind [PhaseOk, TPC.idle, TPC.inHand, TPC.over]

/-- **C40** the decision on one item, in every execution: it is stored iff the buffer is empty or its key is above the last retained one's; otherwise
`ValueError` leaves the loop and every buffer is as before. -/
theorem C40_decision (he : SB.init.exec cfg as = some s) (t b : Nat) (v : V) (h : s.thr t = .storing b v) :
    ∃ s', s.step cfg (.thr t) = some s' ∧ (∀ b', b' ≠ b → s'.items b' = s.items b') ∧
      ((mayAppend cfg.key (s.items b) v = true ∧ s'.log = s.log ++ [.stored t b v] ∧ s'.items b = newest cfg.maxlen (s.items b ++ [v]) ∧
          s'.thr t = .check) ∨
        (mayAppend cfg.key (s.items b) v = false ∧ s'.log = s.log ++ [.refused t b v .valueError] ∧ s'.items b = s.items b ∧ s'.thr t = .fin1)) := by
  have hg := good he
  obtain ⟨x, hx⟩ := Option.isSome_iff_exists.1 (hg.inv.storing t b v h)
  obtain ⟨hwf, hk, hm⟩ := hg.bufs.buf hx
  have happ := SD.append_eq hwf.wf.aligned hwf.wf.bounded v
  have hitems : s.items b = x.cons.ch.buf.items := by simp only [items, hx]
  rw [hitems, ← hk, ← hm]
  by_cases hma : mayAppend x.cons.ch.buf.key x.cons.ch.buf.items v = true
  · rw [if_pos hma] at happ
    refine ⟨_, by simp only [step, thrGo, h, hx, Cons.call, Ch.step, happ]; rfl, ?_, .inl ⟨hma, rfl, ?_, ?_⟩⟩
    · intro b' hb'; simp [items, say, setThr, setBuf, hb']
    · simp [items, say, setThr, setBuf]
    · simp [say, setThr, setBuf]
  · rw [if_neg hma] at happ
    refine ⟨_, by simp only [step, thrGo, h, hx, Cons.call, Ch.step, happ]; rfl, ?_, .inr ⟨by simpa using hma, rfl, ?_, ?_⟩⟩
    · intro b' hb'; simp [items, say, setThr, setBuf, hb']
    · simp [items, say, setThr, setBuf]
    · simp [say, setThr, setBuf]

end
end SB

namespace Spec
variable [LT K] [DecidableLT K]

theorem acceptUntil_append (key : V → K) (acc l l' : List V) (h : acceptUntil key acc l = acc ++ l) :
    acceptUntil key acc (l ++ l') = acceptUntil key (acc ++ l) l' := by
  induction l generalizing acc with
  | nil => simp
  | cons v l ih =>
    simp only [acceptUntil, List.cons_append] at h ⊢
    split
    · rename_i hm
      rw [if_pos hm] at h
      rw [ih (acc ++ [v]) (by rw [h]; simp)]
      simp
    · rename_i hm
      rw [if_neg hm] at h
      simp at h

theorem mayAppend_newest (key : V → K) (m : Option Nat) (hm : m ≠ some 0) (l : List V) (v : V) : mayAppend key (newest m l) v = mayAppend key l v := by
  cases m with
  | none => rfl
  | some m =>
    have hm : m ≠ 0 := by intro h; exact hm (by rw [h])
    simp only [mayAppend, newest, List.getLast?_drop]
    cases l with
    | nil => simp
    | cons x l => rw [if_neg (by simp only [List.length_cons]; omega)]
end Spec

namespace SB
section
variable [LinearOrder K] [BEq V] [ReflBEq V] {cfg : SBCfg K V} {s s' : SB K V I} {a : SBAct K V I} {as : List (SBAct K V I)}

/-- The key function or a comparison raises. -/
def _root_.S2P.SBAct.isKeyRaise : SBAct K V I → Bool
  | .keyRaise _ _ => true
  | _ => false

/-- **C40**, settled executions in which the key function does not raise, with `auto_drop=True` and `maxlen` not 0: except for an item in the thread's
hands, what the session's buffer has accepted is exactly the data read up to the first one whose key is not above its predecessor's. (With
`auto_drop=False` a manual `drop` that empties the buffer resets the comparison, C57.) -/
theorem C40_until_first_bad_key_partial (he : SB.init.exec cfg as = some s) (hset : SB.init.Settled cfg as) (ha : cfg.autoDrop = true)
    (hm : cfg.maxlen ≠ some 0) (hk : ∀ a ∈ as, a.isKeyRaise = false) (t : Nat) (hh : (s.thr t).inHand = []) :
    storedIn t s.log = acceptUntil cfg.key [] (dataRead t s.log) := by
  have key : ∀ (as : List (SBAct K V I)) (s1 s : SB K V I), s1.exec cfg as = some s → s1.Settled cfg as → (∀ a ∈ as, a.isKeyRaise = false) →
      (∃ bs, SB.init.exec cfg bs = some s1 ∧ SB.init.Settled cfg bs) →
      (acceptUntil cfg.key [] (storedIn t s1.log) = storedIn t s1.log ∧ ∀ v ∈ refusedBy t s1.log, mayAppend cfg.key (storedIn t s1.log) v = false) →
      (acceptUntil cfg.key [] (storedIn t s.log) = storedIn t s.log ∧ ∀ v ∈ refusedBy t s.log, mayAppend cfg.key (storedIn t s.log) v = false) := by
    intro as
    induction as with
    | nil => intro s1 s h _ _ _ ih; simp only [exec, Option.some.injEq] at h; subst h; exact ih
    | cons a as ih =>
      intro s1 s h hset hk ⟨bs, hb, hbs⟩ hP
      simp only [exec] at h
      split at h
      · rename_i s2 hs2
        have hb2 : SB.init.exec cfg (bs ++ [a]) = some s2 := by rw [exec_append, hb]; simp [exec, hs2]
        have hset2 : SB.init.Settled cfg (bs ++ [a]) := by
          have : ∀ (bs : List (SBAct K V I)) (s0 : SB K V I), s0.exec cfg bs = some s1 → s0.Settled cfg bs → s0.Settled cfg (bs ++ [a]) := by
            intro bs
            induction bs with
            | nil => intro s0 h0 _; simp only [exec, Option.some.injEq] at h0; subst h0; exact ⟨hset.1, fun _ _ => trivial⟩
            | cons b bs ih =>
              intro s0 h0 h1
              refine ⟨h1.1, fun s' hs' => ?_⟩
              simp only [exec, hs'] at h0
              exact ih s' h0 (h1.2 s' hs')
          exact this bs _ hb hbs
        refine ih s2 s h (hset.2 s2 hs2) (fun a ha => hk a (by simp [ha])) ⟨_, hb2, hset2⟩ ?_
        have hka := hk a (by simp)
        have hg := good hb
        have hI2 := (inv2_exec hb hbs).2
        have hw := (C34_only_eviction ha hb t).1
        have hord := C40_stored_in_order_partial hb hbs t
        -- only a turn of a thread that is storing changes anything
        rcases hP with ⟨hP1, hP2⟩
        have hgen : (storedIn t s2.log = storedIn t s1.log ∧ refusedBy t s2.log = refusedBy t s1.log) ∨
            ∃ t' b v, a = .thr t' ∧ s1.thr t' = .storing b v := by
          have hst := step_to hs2
          cases hst
          all_goals
            try simp only [say, setThr, setBuf, setEvent, setNext, setDrop, setInfo, newSess, running] at *
          all_goals first
            | exact .inr ⟨_, _, _, rfl, by assumption⟩
            | (simp only [SBAct.isKeyRaise, reduceCtorEq] at hka; done)
            | exact .inl ⟨rfl, rfl⟩
            | (refine .inl ?_; simp [storedIn, refusedBy]; done)
        rcases hgen with ⟨h1, h2⟩ | ⟨t', b, v, rfl, hst⟩
        · rw [h1, h2]; exact ⟨hP1, hP2⟩
        · obtain ⟨s2', hs2', _, hcase⟩ := C40_decision hb t' b v hst
          rw [hs2] at hs2'; injection hs2' with e; subst e
          have hbt : b = t' := hI2.own t' b v hst
          subst hbt
          by_cases htb : t = b
          · subst htb
            have hr0 : refusedBy t s1.log = [] := by
              by_contra hne
              have := hord.2.2 hne
              rw [hst] at this; simp [TPC.over] at this
            rcases hcase with ⟨hma, hlog, _⟩ | ⟨hma, hlog, _⟩
            · rw [hw, mayAppend_newest _ _ hm] at hma
              rw [hlog, storedIn_append]
              have e1 : storedIn t [(Ev.stored t t v : Ev V I)] = [v] := by simp [storedIn]
              have e2 : refusedBy t (s1.log ++ [(Ev.stored t t v : Ev V I)]) = [] := by
                simp only [refusedBy, List.filterMap_append] at hr0 ⊢; rw [hr0]; rfl
              rw [e1, e2]
              refine ⟨?_, by simp⟩
              rw [acceptUntil_append _ _ _ _ (by simpa using hP1)]
              simp [acceptUntil, hma]
            · rw [hw, mayAppend_newest _ _ hm] at hma
              rw [hlog, storedIn_append]
              have e1 : storedIn t [(Ev.refused t t v .valueError : Ev V I)] = [] := by simp [storedIn]
              have e2 : refusedBy t (s1.log ++ [(Ev.refused t t v .valueError : Ev V I)]) = [v] := by
                simp only [refusedBy, List.filterMap_append] at hr0 ⊢; rw [hr0]; simp
              rw [e1, e2, List.append_nil]
              refine ⟨hP1, ?_⟩
              intro w hw; simp only [List.mem_singleton] at hw; subst hw; exact hma
          · have : storedIn t s2.log = storedIn t s1.log ∧ refusedBy t s2.log = refusedBy t s1.log := by
              rcases hcase with ⟨_, hlog, _⟩ | ⟨_, hlog, _⟩ <;> rw [hlog] <;> simp [storedIn, refusedBy, Ne.symm htb]
            rw [this.1, this.2]; exact ⟨hP1, hP2⟩
      · simp at h
  obtain ⟨h1, h2⟩ := key as SB.init s he hset hk ⟨[], rfl, trivial⟩ (by simp [SB.init, storedIn, refusedBy, acceptUntil])
  obtain ⟨h3, h4, _⟩ := C40_stored_in_order_partial he hset t
  rw [h3, hh, List.append_nil, acceptUntil_append _ _ _ _ (by simpa using h1)]
  cases hr : refusedBy t s.log with
  | nil => simp [acceptUntil]
  | cons v vs =>
    have := h2 v (by rw [hr]; simp)
    simp [acceptUntil, this]

/-! ### C44 -/

omit [ReflBEq V] in
/-- **C44** (refuted for `auto_drop=False`): with `maxlen=None` and `auto_drop=False` nothing is ever read or stored, in any execution: each thread dies
of a `TypeError` in its first round (`C44_dies`). -/
theorem C44_refuted (hm : cfg.maxlen = none) (ha : cfg.autoDrop = false) (he : SB.init.exec cfg as = some s) :
    (∀ t, s.log.countP (isReadBy t) = 0) ∧ (∀ b, storedIn b s.log = []) := by
  have := ind (P := fun s : SB K V I => (∀ t, (s.thr t).holding = false) ∧ (∀ t, s.log.countP (isReadBy t) = 0) ∧ (∀ b, storedIn b s.log = []))
    (cfg := cfg) (by simp [SB.init, TPC.holding, storedIn]) (by
      intro s a s' hg ih hs
      obtain ⟨i1, i2, i3⟩ := ih
      have hst := step_to hs
      clear hs
      cases hst
      all_goals
        try simp only [say, setThr, setBuf, setEvent, setNext, setDrop, setInfo, newSess, running] at *
      all_goals
        try simp only [storedIn, List.filterMap_append, List.filterMap_cons, List.filterMap_nil, List.append_nil, List.countP_append,
          List.countP_cons, List.countP_nil, isReadBy] at *
      all_goals first
        | exact ⟨i1, i2, i3⟩
        | grind [TPC.holding]) he
  exact this.2

omit [ReflBEq V] in
/-- **C44** what kills it: having looked up the buffer, it compares its length with `None`. -/
theorem C44_dies (hm : cfg.maxlen = none) (ha : cfg.autoDrop = false) (he : SB.init.exec cfg as = some s) (t : Nat) :
    (s.thr t = .cap → s.step cfg (.thr t) = some ((s.setThr t .fin1).say (.crashed t .typeError)) ∨
      ∃ b, s.step cfg (.thr t) = some (s.setThr t (.measuring b))) ∧
    (∀ b, s.thr t = .measuring b → s.step cfg (.thr t) = some ((s.setThr t .fin1).say (.crashed t .typeError))) := by
  have hg := (good he).inv
  refine ⟨fun h => ?_, fun b h => ?_⟩
  · simp only [step, thrGo, h, ha, Bool.false_eq_true, if_false]
    cases hb : s.sourceBuffer with
    | none => exact .inl rfl
    | some b => exact .inr ⟨b, rfl⟩
  · obtain ⟨x, hx⟩ := Option.isSome_iff_exists.1 (hg.measuring t b h)
    simp only [step, thrGo, h, hx, hm]

/-- **C44** with `auto_drop=True` an unbounded buffer retains everything stored. Every execution. -/
theorem C44_unbounded_auto_partial (hm : cfg.maxlen = none) (ha : cfg.autoDrop = true) (he : SB.init.exec cfg as = some s) (b : Nat) :
    s.items b = storedIn b s.log := by
  have := (C34_only_eviction ha he b).1
  rw [this, hm]; rfl

omit [ReflBEq V] in
/-- **C44** and, in settled executions, no thread crashes outside `read` and `append`, for every setting but `maxlen=None` with `auto_drop=False`. -/
theorem C44_no_crash_partial (hc : cfg.maxlen ≠ none ∨ cfg.autoDrop = true) (he : SB.init.exec cfg as = some s) (hset : SB.init.Settled cfg as)
    (t : Nat) (e : PyErr) : Ev.crashed t e ∉ s.log := by
  refine (ind_settled (P := fun s : SB K V I => (∀ t e, Ev.crashed t e ∉ s.log) ∧ ∀ t b, s.thr t = .measuring b → cfg.autoDrop = false) ?_ ?_ he hset).1 t e
  · simp [SB.init]
  · intro s a s' hg h2 h2' ih hs hsa
    obtain ⟨g1, g2, g3, g4, g5⟩ := h2
    clear h2' hg
    have hst := step_to hs
    clear hs hsa
    cases hst
    all_goals
      try simp only [say, setThr, setBuf, setEvent, setNext, setDrop, setInfo, newSess, running] at *
    all_goals first
      | exact ih
      | grind [TPC.idle]

/-! ### C43 -/

/-- When a `start()` throws the old session away, the reader behind `next(stream_buffer)` is forgotten and no `next` call is past making its reader. -/
def TidyAt (s : SB K V I) (a : SBAct K V I) : Prop :=
  a = .startGo → s.start = some .wipe → s.nextReader = none ∧ ∀ c, s.nexts c = .idle ∨ s.nexts c = .make

/-- The same for a whole execution. -/
def Tidy (cfg : SBCfg K V) : SB K V I → List (SBAct K V I) → Prop
  | _, [] => True
  | s, a :: as => s.TidyAt a ∧ ∀ s', s.step cfg a = some s' → s'.Tidy cfg as

omit [ReflBEq V] in
theorem exec_ind_tidy {P : SB K V I → Prop} (hstep : ∀ s a s', P s → s.step cfg a = some s' → s.TidyAt a → P s')
    {as : List (SBAct K V I)} {s s' : SB K V I} (h : P s) (he : s.exec cfg as = some s') (hset : s.Tidy cfg as) : P s' := by
  induction as generalizing s with
  | nil => simp only [exec, Option.some.injEq] at he; exact he ▸ h
  | cons a as ih =>
    simp only [exec] at he
    split at he
    · exact ih (hstep _ _ _ h ‹_› hset.1) he (hset.2 _ ‹_›)
    · simp at he

omit [ReflBEq V] in
/-- **C43**, tidy executions: `next(stream_buffer)` reads from the buffer of the latest session. Tidy means: before a restart, `stop()` was called and had
returned, and no `next` was running meanwhile. Missing: restarts without `stop()` after the stream died (`C43_refuted_death`), and `next` calls
between `stop()` and `start()` (`C43_refuted_stop`). -/
theorem C43_current_session_partial (he : SB.init.exec cfg as = some s) (ht : SB.init.Tidy cfg as) (hl : s.start = none) (c b : Nat)
    (hs : s.step cfg (.nextGo c) = some s') (hlog : s'.log = s.log ++ [.nextOn (.ok b)]) : current s.log = some b := by
  have key := exec_ind_tidy (P := fun s : SB K V I => s.Good cfg ∧ (∀ b, s.nextReader = some b → s.sourceBuffer = some b) ∧
      (∀ c b, s.nexts c = .store b → s.sourceBuffer = some b) ∧
      (∀ p, s.start = some p → p.late = true → s.nextReader = none ∧ ∀ c, s.nexts c = .idle ∨ s.nexts c = .make))
    (fun s a s' ⟨hg, i1, i2, i3⟩ hs ht => by
      refine ⟨hg.step hs, ?_⟩
      have hst := step_to hs
      clear hs
      cases hst
      all_goals
        try simp only [say, setThr, setBuf, setEvent, setNext, setDrop, setInfo, newSess, running, TidyAt] at *
      all_goals first
        | exact ⟨i1, i2, i3⟩
        | grind [StartPC.late]) (s := SB.init) (s' := s) ⟨Good.init, by simp [SB.init]⟩ he ht
  obtain ⟨hg, i1, i2, _⟩ := key
  have hsb := hg.log.cur (by simp [hl])
  rw [← hsb]
  have hst := step_to hs
  clear hs
  cases hst
  all_goals
    try simp only [say, setThr, setBuf, setEvent, setNext, setDrop, setInfo, newSess, running] at *
  · simp at hlog
  · simp at hlog
  · simp at hlog
  · simp at hlog
  · rename_i b' hr _
    have : b' = b := by simpa using hlog
    subst this
    exact i1 _ hr

/-- The user takes care: every `start()` comes when no `next(stream_buffer)` call is running, and after a `stop()` that returned later than the last of them
did anything (`clean`). With `with stream_buffer:` blocks and `next` calls only inside them, this is the case. -/
def NextCare (cfg : SBCfg K V) : Prop → SB K V I → List (SBAct K V I) → Prop
  | _, _, [] => True
  | clean, s, a :: as => (a = .start → clean ∧ ∀ c, s.nexts c = .idle) ∧
    ∀ s', s.step cfg a = some s' → s'.NextCare cfg (match a with | .stopEnd => True | .next _ => False | .nextGo _ => False | _ => clean) as

omit [ReflBEq V] in
theorem tidy_of_care {as : List (SBAct K V I)} : ∀ {s : SB K V I} {clean : Prop}, (clean → s.nextReader = none) →
    (∀ p, s.start = some p → p.late = false → s.nextReader = none ∧ ∀ c, s.nexts c = .idle ∨ s.nexts c = .make) →
    s.NextCare cfg clean as → s.Tidy cfg as := by
  induction as with
  | nil => intros; trivial
  | cons a as ih =>
    intro s clean h1 h2 hc
    refine ⟨fun ha hs => h2 _ hs rfl, fun s' hs => ih (s := s') ?_ ?_ (hc.2 s' hs)⟩
    · intro hcl
      have hst := step_to hs
      clear hs hc ih
      cases hst
      all_goals
        try simp only [say, setThr, setBuf, setEvent, setNext, setDrop, setInfo, newSess, running] at *
      all_goals first
        | exact h1 hcl
        | grind
    · have hcare := hc.1
      clear hc ih
      have hst := step_to hs
      clear hs
      cases hst
      all_goals
        try simp only [say, setThr, setBuf, setEvent, setNext, setDrop, setInfo, newSess, running] at *
      all_goals first
        | exact h2
        | grind [StartPC.late]

omit [ReflBEq V] in
/-- **C43** for a user who takes care: `next(stream_buffer)` reads from the buffer of the latest session. Missing: as above. -/
theorem C43_careful_partial (he : SB.init.exec cfg as = some s) (ht : SB.init.NextCare cfg True as) (hl : s.start = none) (c b : Nat)
    (hs : s.step cfg (.nextGo c) = some s') (hlog : s'.log = s.log ++ [.nextOn (.ok b)]) : current s.log = some b :=
  C43_current_session_partial he (tidy_of_care (fun _ => rfl) (by simp [SB.init]) ht) hl c b hs hlog

omit [ReflBEq V] in
/-- **C43** without any assumption: `next(stream_buffer)` raises `StreamNotStartedError` only if there is no session. -/
theorem C43_not_started (he : SB.init.exec cfg as = some s) (hl : s.start = none) (c : Nat) (hc : s.nexts c = .make) :
    ∃ s', s.step cfg (.nextGo c) = some s' ∧ (current s.log = none → s'.log = s.log ++ [.nextOn (.error .streamNotStarted)]) ∧
      (∀ b, current s.log = some b → s'.nexts c = .store b ∧ s'.log = s.log) := by
  have hsb := (good he).log.cur (by simp [hl])
  rw [← hsb]
  simp only [step, hc, hl, if_true]
  cases s.sourceBuffer with
  | none => exact ⟨_, rfl, fun _ => rfl, by simp⟩
  | some b => exact ⟨_, rfl, by simp, fun b' hb' => by injection hb' with e; subst e; simp [setNext]⟩

/-! ### C59 -/

/-- **C59** `attach_reader(reader)` for a reader `i` of an older session `b`, when session `b'` is the current one: from then on it is a reader of `b'`
(as `j`) with the same cursor, it sees `is_stopped` of `b'`, and what it has still to read are exactly the retained items of `b'` whose keys
are above the key of its cursor; nothing else of `b'` changes. Every execution. -/
theorem C59_attach (he : SB.init.exec cfg as = some s) (hl : s.start = none) (b i j b' : Nat) (c c' : Cons K V) (hb : s.view b = some c)
    (hc : current s.log = some b') (hb' : s.view b' = some c') :
    ∃ s' c'', s.step cfg (.attach b i j) = some s' ∧ s'.view b' = some c'' ∧
      (c''.ch.readers j).lastItem = (c.ch.readers i).lastItem ∧ c''.stopped = c'.stopped ∧ c''.ch.buf = c'.ch.buf ∧
      (∀ j', j' ≠ j → c''.ch.readers j' = c'.ch.readers j') ∧
      unreadOf c''.ch j = c'.ch.buf.items.filter (fun v => match (c.ch.readers i).lastItem with
        | some w => decide (cfg.key w < cfg.key v) | none => true) := by
  have hg := good he
  have hsb := hg.log.cur (by simp [hl])
  rw [hc] at hsb
  obtain ⟨x, hx, rfl⟩ := Option.map_eq_some_iff.1 hb
  obtain ⟨x', hx', rfl⟩ := Option.map_eq_some_iff.1 hb'
  obtain ⟨s', hs'⟩ : ∃ s', s.step cfg (.attach b i j) = some s' := by simp only [step, hl, if_true, hsb, hx, hx']; exact ⟨_, rfl⟩
  have hg' := hg.step hs'
  have hv : s'.view b' = some { (x'.cons.call (.rd j (match (x.cons.ch.readers i).lastItem with | some v => .setLast v | none => .delLast))).1 with
      stopped := s.flag x'.evt } := by
    simp only [step, hl, if_true, hsb, hx, hx', Option.some.injEq] at hs'
    subst hs'
    simp only [view, say, setBuf, if_true, Option.map_some, Option.some.injEq]
    rfl
  have hreach := hg'.bufs.reach b' _ hv
  have hlast : (((x'.cons.call (.rd j (match (x.cons.ch.readers i).lastItem with | some v => .setLast v | none => .delLast))).1).ch.readers j).lastItem
      = (x.cons.ch.readers i).lastItem := by
    cases (x.cons.ch.readers i).lastItem <;> simp [Cons.call, Ch.step, Ch.rdStep, Reader.setLast, Reader.delLast]
  have hbuf : ((x'.cons.call (.rd j (match (x.cons.ch.readers i).lastItem with | some v => .setLast v | none => .delLast))).1).ch.buf
      = x'.cons.ch.buf := rfl
  refine ⟨s', _, hs', hv, hlast, rfl, hbuf, ?_, ?_⟩
  · intro j' hj'
    simp [Cons.call, Ch.step, hj']
  · have h1 := unreadOf_eq hreach.ch j
    simp only at h1
    rw [h1, hlast, hbuf]
    cases (x.cons.ch.readers i).lastItem with
    | none => exact (List.filter_eq_self.2 (fun _ _ => rfl)).symm
    | some w => rfl

end
end SB
end S2P
