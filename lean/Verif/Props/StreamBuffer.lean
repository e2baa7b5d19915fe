import Verif.Proofs.SBLog
/-
C33–C44, C58, C59: `StreamBuffer` under every schedule and every behaviour of its source (Model/StreamBuffer.lean).
Properties are stated about the log of observations (Spec/Trace.lean), `s.items b` (the items retained in buffer `b`), `s.thr t` (where
thread `t` is) and `s.view b` (what the consumers of buffer `b` see).
`Settled`: whenever a `start()` gets past its stop phase, all earlier threads have ended. Without it several properties fail, see `_refuted`.
-/
namespace S2P
open Spec
variable {K V I : Type}
namespace SB
section
variable [LinearOrder K] [BEq V] [ReflBEq V] {cfg : SBCfg K V} {s s' : SB K V I} {a : SBAct K V I} {as : List (SBAct K V I)}

omit [ReflBEq V] in
theorem BufsOk.step (h : s.Inv) (hB : s.BufsOk cfg) (hs : s.step cfg a = some s') : s'.BufsOk cfg := by
  refine ⟨fun b c' hv => ?_, drops_step hB.drops hs⟩
  rcases view_step h hs b c' hv with ⟨c, hc, rfl | ⟨a, ha⟩⟩ | ⟨_, f, rfl⟩
  · exact hB.reach b _ hc
  · exact (hB.reach b _ hc).exec (as := [a]) (by simp only [Cons.exec, ha])
  · cases f with
    | false => exact ⟨[], rfl⟩
    | true => exact ⟨[.setStop], rfl⟩

/-- All that holds in every reachable state. -/
structure Good (cfg : SBCfg K V) (s : SB K V I) : Prop where
  inv : s.Inv
  bufs : s.BufsOk cfg
  log : s.LogInv

omit [ReflBEq V] in
theorem Good.init : (SB.init : SB K V I).Good cfg := ⟨Inv.init, ⟨fun b c hv => by simp [view, SB.init] at hv, by simp [SB.init]⟩, LogInv.init⟩

omit [ReflBEq V] in
theorem Good.step (h : s.Good cfg) (hs : s.step cfg a = some s') : s'.Good cfg :=
  ⟨h.inv.step hs, h.bufs.step h.inv hs, h.log.step h.inv hs⟩

omit [ReflBEq V] in
theorem Good.exec (h : s.Good cfg) (he : s.exec cfg as = some s') : s'.Good cfg := exec_ind (fun _ _ _ h hs => h.step hs) h he

omit [ReflBEq V] in
theorem good (he : SB.init.exec cfg as = some s) : s.Good cfg := Good.init.exec he

omit [ReflBEq V] in
/-- Induction over executions. -/
theorem ind {P : SB K V I → Prop} (hi : P SB.init) (hstep : ∀ s a s', s.Good cfg → P s → s.step cfg a = some s' → P s')
    (he : SB.init.exec cfg as = some s) : P s :=
  (exec_ind (P := fun s => s.Good cfg ∧ P s) (fun s a s' h hs => ⟨h.1.step hs, hstep s a s' h.1 h.2 hs⟩) ⟨Good.init, hi⟩ he).2

omit [ReflBEq V] in
/-- Induction over settled executions. -/
theorem ind_settled {P : SB K V I → Prop} (hi : P SB.init)
    (hstep : ∀ s a s', s.Good cfg → s.Inv2 → s'.Inv2 → P s → s.step cfg a = some s' → s.SettledAt a → P s')
    (he : SB.init.exec cfg as = some s) (hset : SB.init.Settled cfg as) : P s :=
  (exec_ind_settled (P := fun s => s.Good cfg ∧ s.Inv2 ∧ P s)
    (fun s a s' h hs ha => ⟨h.1.step hs, h.2.1.step h.1.inv hs ha, hstep s a s' h.1 h.2.1 (h.2.1.step h.1.inv hs ha) h.2.2 hs ha⟩)
    ⟨Good.init, Inv2.init, hi⟩ he hset).2.2

/-! ### The readers of every session -/

omit [ReflBEq V] in
/-- What the consumers of a session see is a run of the consumer machine, so C11–C27 hold for them. -/
theorem sessions_are_consumer_runs (he : SB.init.exec cfg as = some s) (b : Nat) (c : Cons K V) (hv : s.view b = some c) :
    c.Reach cfg.key cfg.keyNone cfg.maxlen cfg.rdCfg := view_reach he b c hv

/-! ### C34 -/

omit [ReflBEq V] in
/-- **C34** with `auto_drop=True`, `drop` raises `RuntimeError` and does nothing else, at any time. -/
theorem C34_drop_refused (ha : cfg.autoDrop = true) (s : SB K V I) (c : Nat) (n : Int) (hc : s.drops c = none) :
    s.step cfg (.drop c n) = some { s with log := s.log ++ [.dropCalled n (.error .runtimeError)] } := by
  simp [step, ha, say, hc]

/-- **C34** so, with `auto_drop=True`, items leave a buffer only through `maxlen`: it holds the newest `maxlen` of the items stored in it.
Every execution. -/
theorem C34_only_eviction (ha : cfg.autoDrop = true) (he : SB.init.exec cfg as = some s) (b : Nat) :
    s.items b = newest cfg.maxlen (storedIn b s.log) ∧ droppedFrom b s.log = [] := by
  refine ind (P := fun s : SB K V I => s.items b = newest cfg.maxlen (storedIn b s.log) ∧ droppedFrom b s.log = []) ?_ ?_ he
  · constructor
    · simp [SB.init, items, storedIn, newest]; cases cfg.maxlen <;> simp
    · rfl
  · intro s a s' hg ih hs
    cases data_step hg.inv hg.bufs hs b with
    | same h1 h2 h3 _ => rw [h1, h2, h3]; exact ih
    | stored t v _ _ _ h1 h2 h3 _ => rw [h1, h2, h3, ih.1]; exact ⟨SD.newest_append _ _ _, ih.2⟩
    | dropped k hd => rw [ha] at hd; simp at hd

/-! ### C33 -/

/-- The thread has decided to read and has not stored yet. -/
def _root_.S2P.TPC.holding : TPC V → Bool
  | .reading | .appending _ | .storing _ _ => true
  | _ => false

/-- With `auto_drop=False`, from the decision to read until the item is stored there is room in the session's buffer. -/
def Room (cfg : SBCfg K V) (s : SB K V I) : Prop :=
  ∀ t, (s.thr t).holding = true → ∀ m, cfg.maxlen = some m → (s.items t).length < m

/-- How a step changes one thread: it stays, or it is this thread's turn. -/
theorem holding_step (hs : s.step cfg a = some s') (t : Nat) (hh : (s'.thr t).holding = true) :
    (s.thr t).holding = true ∨ cfg.autoDrop = true ∨ (∃ b x m, s.thr t = .measuring b ∧ s'.buf = s.buf ∧ s.buf b = some x ∧
      cfg.maxlen = some m ∧ x.cons.ch.buf.len < m) := by
  have hst := step_to hs
  clear hs
  cases hst
  all_goals
    try simp only [say, setThr, setBuf, setEvent, setNext, setDrop, setInfo, newSess, running] at *
  all_goals first
    | exact .inl hh
    | (split at hh
       · rename_i e; subst e; grind [TPC.holding]
       · exact .inl hh)

theorem room (ha : cfg.autoDrop = false) (he : SB.init.exec cfg as = some s) (hset : SB.init.Settled cfg as) :
    s.Room cfg ∧ ∀ b, storedIn b s.log = droppedFrom b s.log ++ s.items b := by
  refine ind_settled (P := fun s : SB K V I => s.Room cfg ∧ ∀ b, storedIn b s.log = droppedFrom b s.log ++ s.items b) ?_ ?_ he hset
  · exact ⟨fun t h => by simp [SB.init, TPC.holding] at h, fun b => rfl⟩
  · intro s a s' hg h2 h2' ⟨hr, hl⟩ hs hsa
    constructor
    · intro t hh m hm
      rcases holding_step hs t hh with h | h | ⟨b, x, m', h, hb, hx, hm', hl'⟩
      · have := hr t h m hm
        cases data_step hg.inv hg.bufs hs t with
        | same h1 _ _ _ => rw [h1]; exact this
        | stored t' v h0 h0' _ h1 _ _ _ =>
          have : t' = t := (h2.own t' t v h0).symm
          subst this
          rw [h0'] at hh; simp [TPC.holding] at hh
        | dropped k _ _ h1 _ _ _ => rw [h1, List.length_drop]; omega
      · rw [ha] at h; simp at h
      · rw [hm] at hm'; injection hm' with e; subst e
        have := h2.ownM t b h
        subst this
        simp only [items, hb, hx]
        exact hl'
    · intro b
      cases data_step hg.inv hg.bufs hs b with
      | same h1 h2 h3 _ => rw [h1, h2, h3]; exact hl b
      | stored t v h0 _ _ h1 h2' h3 _ =>
        have htb : b = t := h2.own t b v h0
        subst htb
        have hfull : newest cfg.maxlen (s.items b ++ [v]) = s.items b ++ [v] := by
          cases hm : cfg.maxlen with
          | none => rfl
          | some m =>
            have := hr b (by rw [h0]; rfl) m hm
            have h0 : (s.items b ++ [v]).length - m = 0 := by simp; omega
            simp only [newest, h0, List.drop_zero]
        rw [h1, h2', h3, hfull, hl b, List.append_assoc]
      | dropped k _ _ h1 h2 h3 _ => rw [h1, h2, h3, hl b, List.append_assoc, List.take_append_drop]

/-- **C33**, settled executions: with `auto_drop=False`, what was stored in a buffer is what was dropped manually followed by what is retained.
Missing: executions in which a thread outlives the `stop()` of the next `start()` (`C33_refuted`). -/
theorem C33_nothing_lost_partial (ha : cfg.autoDrop = false) (he : SB.init.exec cfg as = some s) (hset : SB.init.Settled cfg as) (b : Nat) :
    storedIn b s.log = droppedFrom b s.log ++ s.items b := (room ha he hset).2 b

/-- **C33**, settled executions: with `auto_drop=False` the source is only read while the session's buffer is not full; `t` is the session. -/
theorem C33_reads_when_room_partial (ha : cfg.autoDrop = false) (he : SB.init.exec cfg as = some s) (hset : SB.init.Settled cfg as)
    (t : Nat) (hr : s.thr t = .reading) : s.sourceBuffer = some t ∧ ∃ m, cfg.maxlen = some m ∧ (s.items t).length < m := by
  have h1 := room ha he hset
  refine ⟨((inv2_exec he hset).2.solo t (by rw [hr]; rfl)).2.2, ?_⟩
  cases hm : cfg.maxlen with
  | some m => exact ⟨m, rfl, h1.1 t (by rw [hr]; rfl) m hm⟩
  | none =>
    exfalso
    have := ind_settled (P := fun s : SB K V I => ∀ t, (s.thr t).holding = false) (cfg := cfg) (fun t => rfl) (by
      intro s a s' hg h2 h2' ih hs _ t
      by_contra hh
      rcases holding_step hs t (by simpa using hh) with h | h | ⟨_, _, m', _, _, _, hm', _⟩
      · rw [ih t] at h; simp at h
      · rw [ha] at h; simp at h
      · rw [hm] at hm'; simp at hm') he hset t
    rw [hr] at this; simp [TPC.holding] at this

/-! ### C35 -/

omit [ReflBEq V] in
/-- **C35** `mk_reader()` (when no `start()` is in progress) gives a reader of the session that the latest `start()` set up, and raises
`StreamNotStartedError` if there is none: no `start()` yet, or the latest failed to open the source. Every execution. -/
theorem C35_mk_reader (he : SB.init.exec cfg as = some s) (hl : s.start = none) :
    s.step cfg .mkReader = some (s.say (.madeReader (match current s.log with | some b => .ok b | none => .error .streamNotStarted))) ∧
    ∀ b, current s.log = some b → (s.view b).isSome ∧ ∀ k, (Ev.opened k ∈ s.log ∨ Ev.openRaised k ∈ s.log) → k ≤ b := by
  have hg := good he
  have hc := hg.log.cur (by simp [hl])
  constructor
  · simp only [step, hl, if_true, hc]
    cases current s.log <;> rfl
  · intro b hb
    rw [← hc] at hb
    have h1 := hg.inv.sb b hb
    refine ⟨by simpa [view] using h1.1, fun k hk => ?_⟩
    have := hg.log.latest k hk
    omega

omit [ReflBEq V] in
/-- **C35** the same for `attach_reader(reader)`; the reader was made for buffer `b`. -/
theorem C35_attach_reader (he : SB.init.exec cfg as = some s) (hl : s.start = none) (b i j : Nat) (hb : (s.view b).isSome) :
    ∃ s', s.step cfg (.attach b i j) = some s' ∧ s'.log = s.log ++ [.attached (match current s.log with
      | some b' => .ok b' | none => .error .streamNotStarted)] := by
  have hg := good he
  have hc := hg.log.cur (by simp [hl])
  simp only [step, hl, if_true]
  rw [← hc]
  obtain ⟨c, hc⟩ := Option.isSome_iff_exists.1 hb
  obtain ⟨x, hx, _⟩ := Option.map_eq_some_iff.1 hc
  cases hsb : s.sourceBuffer with
  | none => exact ⟨_, rfl, rfl⟩
  | some b' =>
    obtain ⟨x', hx'⟩ := Option.isSome_iff_exists.1 (hg.inv.sb b' hsb).1
    simp only [hx, hx']
    exact ⟨_, rfl, rfl⟩

omit [ReflBEq V] in
theorem opened_of_current (he : SB.init.exec cfg as = some s) (b : Nat) (hc : current s.log = some b) : Ev.opened b ∈ s.log := by
  have : ∀ (l : List (Ev V I)), current l = some b → ∃ i, Ev.bufferMade b i ∈ l := by
    intro l
    induction l using List.reverseRecOn with
    | nil => intro h; simp [current] at h
    | append_singleton l e ih =>
      intro h
      rw [current_snoc] at h
      cases e with
      | bufferMade k i => simp only [curStep, Option.some.injEq] at h; subst h; exact ⟨i, by simp⟩
      | openRaised k => simp [curStep] at h
      | infoRaised k => simp [curStep] at h
      | _ => obtain ⟨i, hi⟩ := ih h; exact ⟨i, by simp [hi]⟩
  obtain ⟨i, hi⟩ := this _ hc
  exact ((good he).log.made b i hi).2

omit [ReflBEq V] in
/-- **C35** before any `start()` has opened the source, `mk_reader` raises. -/
theorem C35_not_started (he : SB.init.exec cfg as = some s) (hl : s.start = none) (hn : ∀ k, Ev.opened k ∉ s.log) :
    s.step cfg .mkReader = some (s.say (.madeReader (.error .streamNotStarted))) := by
  have h1 := (C35_mk_reader he hl).1
  cases hc : current s.log with
  | none => rw [h1, hc]
  | some b => exact absurd (opened_of_current he b hc) (hn b)

/-! ### C36, C37 -/

omit [ReflBEq V] in
/-- **C36** readers compare equal with `is_same_buffer` (same stop event) exactly when they read the same session buffer. Every execution. -/
theorem C36_is_same_buffer (he : SB.init.exec cfg as = some s) (b b' : Nat) (x x' : Sess K V I) (hx : s.buf b = some x) (hx' : s.buf b' = some x') :
    x.evt = x'.evt ↔ b = b' := by
  have hg := (good he).inv
  rw [hg.evt b x hx, hg.evt b' x' hx']

omit [ReflBEq V] in
/-- **C36** as soon as a later `start()` has begun a new session, the readers of the old one see `is_stopped`. Every execution. -/
theorem C36_old_stopped (he : SB.init.exec cfg as = some s) (b : Nat) (c : Cons K V) (hv : s.view b = some c) (hold : b + 1 < s.n) :
    c.stopped = true := by
  have hg := (good he).inv
  obtain ⟨x, hx, rfl⟩ := Option.map_eq_some_iff.1 hv
  simp only
  rw [hg.evt b x hx]
  exact hg.oldFlag b hold

omit [ReflBEq V] in
/-- **C76**, settled executions: a thread only ever stores in the buffer of its own session.
Missing: executions that are not settled (`C76_refuted`). -/
theorem C76_own_buffer_partial (he : SB.init.exec cfg as = some s) (hset : SB.init.Settled cfg as) (t b : Nat) (v : V)
    (h : Ev.stored t b v ∈ s.log) : t = b := by
  refine ind_settled (P := fun s : SB K V I => ∀ t b v, Ev.stored t b v ∈ s.log → t = b) ?_ ?_ he hset t b v h
  · intro t b v h; simp [SB.init] at h
  · intro s a s' hg h2 _ ih hs _
    have hown := h2.own
    have hst := step_to hs
    clear hs
    cases hst
    all_goals
      try simp only [say, setThr, setBuf, setEvent, setNext, setDrop, setInfo, newSess, running] at *
    all_goals first
      | exact ih
      | grind

/-- **C76**, settled executions: once a later session has begun, nothing is added to an old buffer any more, and items leave it only by a `drop()` that had
looked up the buffer before; if there is none, its contents never change again (readers included: reading does not change it). -/
theorem C76_old_frozen_partial (as bs : List (SBAct K V I)) (he : SB.init.exec cfg as = some s) (he' : s.exec cfg bs = some s')
    (hset : SB.init.Settled cfg (as ++ bs)) (b : Nat) (hold : b + 1 < s.n) :
    (∃ d, droppedFrom b s'.log = droppedFrom b s.log ++ d ∧ s.items b = d ++ s'.items b) ∧
    ((∀ c n, s.drops c ≠ some (b, n)) → s'.items b = s.items b) := by
  have hsplit : ∀ (as : List (SBAct K V I)) (s0 : SB K V I), s0.exec cfg as = some s → s0.Settled cfg (as ++ bs) →
      s0.Settled cfg as ∧ s.Settled cfg bs := by
    intro as
    induction as with
    | nil => intro s0 h hset; simp only [SB.exec, Option.some.injEq] at h; subst h; exact ⟨trivial, hset⟩
    | cons a as ih =>
      intro s0 h hset
      simp only [SB.exec] at h
      split at h
      · rename_i s1 hs1
        have := ih s1 h (hset.2 s1 hs1)
        refine ⟨⟨hset.1, fun s2 h2 => ?_⟩, this.2⟩
        rw [hs1] at h2; injection h2 with e; subst e; exact this.1
      · simp at h
  obtain ⟨hA, hB⟩ := hsplit as _ he hset
  have h2 := inv2_exec he hA
  have := exec_ind_settled (P := fun t : SB K V I => t.Good cfg ∧ t.Inv2 ∧ b + 1 < t.n ∧
      (∃ d, droppedFrom b t.log = droppedFrom b s.log ++ d ∧ s.items b = d ++ t.items b) ∧
      ((∀ c n, s.drops c ≠ some (b, n)) → (∀ c n, t.drops c ≠ some (b, n)) ∧ t.items b = s.items b))
    (fun t a t' ⟨h1, h2, h3, ⟨d, h4, h5⟩, h6⟩ hs hsa => by
      have hdr : (∀ c n, t.drops c ≠ some (b, n)) → ∀ c n, t'.drops c ≠ some (b, n) := by
        intro hd
        have hsb : t.sourceBuffer ≠ some b := fun h => by have := (h1.inv.sb b h).2; omega
        intro c n h
        exact (drops_new hs c b n h).elim (hd c n) hsb
      refine ⟨h1.step hs, h2.step h1.inv hs hsa, ?_, ?_⟩
      · have hst := step_to hs
        clear hs
        cases hst <;> simp only [say, setThr, setBuf, setEvent, setNext, setDrop, setInfo] <;> omega
      · cases data_step h1.inv h1.bufs hs b with
        | same h _ h' _ => rw [h, h']; exact ⟨⟨d, h4, h5⟩, fun hn => ⟨hdr (h6 hn).1, (h6 hn).2⟩⟩
        | stored u v h0 _ _ _ _ _ _ =>
          have e := h2.own u b v h0
          have := (h2.solo u (by rw [h0]; rfl)).1
          omega
        | dropped k _ hb k1 _ k3 _ =>
          refine ⟨⟨d ++ (t.items b).take k, by rw [k3, h4, List.append_assoc], by rw [k1, List.append_assoc, List.take_append_drop]; exact h5⟩, fun hn => ?_⟩
          obtain ⟨c, n, hb⟩ := hb
          exact absurd hb ((h6 hn).1 c n))
    (s := s) (s' := s') ⟨good he, h2.2, hold, ⟨[], by simp, by simp⟩, fun h => ⟨h, rfl⟩⟩ he' hB
  exact ⟨this.2.2.2.1, fun h => (this.2.2.2.2 h).2⟩

omit [ReflBEq V] in
/-- **C37**, settled executions: at most one thread is inside `_run`, in particular inside `source.read()`.
Missing: executions that are not settled (`C37_refuted`). -/
theorem C37_one_reader_partial (he : SB.init.exec cfg as = some s) (hset : SB.init.Settled cfg as) (t t' : Nat)
    (h : (s.thr t).idle = false) (h' : (s.thr t').idle = false) : t = t' := by
  have h2 := (inv2_exec he hset).2
  have := (h2.solo t h).1
  have := (h2.solo t' h').1
  omega

/-! ### C38 -/

/-- Steps a thread has left once its stop event is set. -/
def _root_.S2P.TPC.left : TPC V → Nat
  | .unborn | .done => 0
  | .fin3 => 1
  | .fin1 | .fin2 => 2
  | .check | .fresh => 3
  | .sleeping | .storing _ _ => 4
  | .appending _ => 5
  | .reading => 6
  | .measuring _ => 7
  | .cap => 8

/-- Reads it may still do. -/
def _root_.S2P.TPC.readsLeft : TPC V → Nat
  | .cap | .measuring _ | .reading => 1
  | _ => 0

/-- Items it may still store. -/
def _root_.S2P.TPC.storesLeft : TPC V → Nat
  | .cap | .measuring _ | .reading | .appending _ | .storing _ _ => 1
  | _ => 0

/-- The action belongs to thread `t`. -/
def _root_.S2P.SBAct.ofThread (t : Nat) : SBAct K V I → Bool
  | .thr t' | .readOk t' _ | .readRaise t' _ | .keyRaise t' _ | .close t' _ => t' = t
  | _ => false

omit [ReflBEq V] in
theorem left_step (hs : s.step cfg a = some s') (t : Nat) (hb : s.thr t ≠ .unborn)
    (he : (s.thr t).idle = false → ∃ e, s.stopEvent = some e ∧ s.flag e = true) (hinv : s.Inv) :
    s'.thr t ≠ .unborn ∧ (s'.thr t).left + (if a.ofThread t then 1 else 0) ≤ (s.thr t).left ∧
    ∃ l, s'.log = s.log ++ l ∧ (s'.thr t).readsLeft + l.countP (isReadBy t) ≤ (s.thr t).readsLeft ∧
      (s'.thr t).storesLeft + l.countP (isStoreBy t) ≤ (s.thr t).storesLeft := by
  have hst := step_to hs
  clear hs
  have hn := hinv.noThr
  have hp := hinv.ph
  cases hst
  all_goals
    try simp only [say, setThr, setBuf, setEvent, setNext, setDrop, setInfo, newSess, running] at *
  all_goals
    refine ⟨?_, ?_, ?_⟩
  all_goals first
    | grind [TPC.left, TPC.idle, SBAct.ofThread, PhaseOk]
    | (refine ⟨[], (List.append_nil _).symm, ?_⟩; grind [TPC.idle, TPC.readsLeft, TPC.storesLeft])
    | (refine ⟨_, rfl, ?_⟩; simp only [List.countP_cons, List.countP_nil, isReadBy, isStoreBy]; grind [TPC.idle, TPC.readsLeft, TPC.storesLeft, PhaseOk])
    | (refine ⟨_, List.append_assoc _ _ _, ?_⟩; simp only [List.countP_cons, List.countP_nil, List.countP_append, isReadBy, isStoreBy]; grind [TPC.idle, TPC.readsLeft, TPC.storesLeft])

omit [ReflBEq V] in
theorem left_exec (P : SB K V I → List (SBAct K V I) → Prop) (t : Nat)
    (hP : ∀ s a bs s', s.Inv → P s (a :: bs) → s.step cfg a = some s' → P s' bs)
    (hP' : ∀ s a bs s', s.Inv → P s (a :: bs) → s.step cfg a = some s' → (s.thr t).idle = false → ∃ e, s.stopEvent = some e ∧ s.flag e = true)
    (bs : List (SBAct K V I)) : ∀ s s' : SB K V I, s.Inv → P s bs → s.thr t ≠ .unborn → s.exec cfg bs = some s' →
    (s'.thr t).left + bs.countP (·.ofThread t) ≤ (s.thr t).left ∧
    ∃ l, s'.log = s.log ++ l ∧ (s'.thr t).readsLeft + l.countP (isReadBy t) ≤ (s.thr t).readsLeft ∧
      (s'.thr t).storesLeft + l.countP (isStoreBy t) ≤ (s.thr t).storesLeft := by
  induction bs with
  | nil => intro s s' _ _ _ h; simp only [exec, Option.some.injEq] at h; subst h; exact ⟨by simp, [], by simp, by simp, by simp⟩
  | cons a bs ih =>
    intro s s' hi hp hb h
    simp only [exec] at h
    split at h
    · rename_i s1 hs1
      obtain ⟨hb1, hl, l, e1, hr, hw⟩ := left_step hs1 t hb (hP' _ _ _ _ hi hp hs1) hi
      obtain ⟨hl', l', e2, hr', hw'⟩ := ih s1 s' (hi.step hs1) (hP _ _ _ _ hi hp hs1) hb1 h
      refine ⟨?_, l ++ l', by rw [e2, e1, List.append_assoc], ?_, ?_⟩
      · rw [List.countP_cons]; omega
      · rw [List.countP_append]; omega
      · rw [List.countP_append]; omega
    · simp at h

omit [ReflBEq V] [BEq V] [LinearOrder K] in
theorem _root_.S2P.TPC.left_le (p : TPC V) : p.left ≤ 8 ∧ p.readsLeft ≤ 1 ∧ p.storesLeft ≤ 1 := by
  cases p <;> simp [TPC.left, TPC.readsLeft, TPC.storesLeft]

omit [ReflBEq V] in
theorem flag_step (h : s.Inv) (hs : s.step cfg a = some s') (e : Nat) (hf : s.flag e = true) : s'.flag e = true := by
  have := h.noFlag
  have hst := step_to hs
  clear hs
  cases hst
  all_goals
    try simp only [say, setThr, setBuf, setEvent, setNext, setDrop, setInfo, newSess, running] at *
  all_goals first
    | assumption
    | grind

omit [ReflBEq V] in
theorem stopEvent_step (h : s.Inv) (hs : s.step cfg a = some s') : s'.stopEvent = s.stopEvent ∨
    (∃ e', s'.stopEvent = some e' ∧ ∀ e, s.stopEvent = some e → e < e') := by
  have := h.ph
  have hst := step_to hs
  clear hs
  cases hst
  all_goals
    try simp only [say, setThr, setBuf, setEvent, setNext, setDrop, setInfo, newSess, running] at *
  all_goals first
    | exact .inl rfl
    | exact .inl trivial
    | exact .inr ⟨_, rfl, by grind [PhaseOk]⟩

omit [ReflBEq V] in
theorem stopEvent_mono (bs : List (SBAct K V I)) : ∀ s s' : SB K V I, s.Inv → s.exec cfg bs = some s' → ∀ e, s.stopEvent = some e →
    ∃ e', s'.stopEvent = some e' ∧ e ≤ e' := by
  induction bs with
  | nil => intro s s' _ h e he; simp only [exec, Option.some.injEq] at h; subst h; exact ⟨e, he, Nat.le_refl _⟩
  | cons a bs ih =>
    intro s s' hi h e he
    simp only [exec] at h
    split at h
    · rename_i s1 hs1
      rcases stopEvent_step hi hs1 with h1 | ⟨e1, h1, h2⟩
      · exact ih s1 s' (hi.step hs1) h e (h1.trans he)
      · obtain ⟨e', h3, h4⟩ := ih s1 s' (hi.step hs1) h e1 h1
        have := h2 e he
        exact ⟨e', h3, by omega⟩
    · simp at h

omit [ReflBEq V] in
/-- **C77**, settled executions: once the stop event of session `t` is set, thread `t` reads the source at most once more, stores at most one more
item, and takes at most 8 more steps. Missing: executions in which a later `start()` replaces the stop event while the thread lives
(see `C38_same_event`, which does not need `Settled`, and `C37_refuted`). -/
theorem C77_stop_prompt_partial (as bs : List (SBAct K V I)) (he : SB.init.exec cfg as = some s) (he' : s.exec cfg bs = some s')
    (hset : s.Settled cfg bs) (hset0 : SB.init.Settled cfg as) (t : Nat) (hstop : Ev.eventSet t ∈ s.log) :
    bs.countP (·.ofThread t) ≤ 8 ∧ ∃ l, s'.log = s.log ++ l ∧ l.countP (isReadBy t) ≤ 1 ∧ l.countP (isStoreBy t) ≤ 1 := by
  have hg := good he
  have h2 := (inv2_exec he hset0).2
  have hf := (hg.log.flag t).2 hstop
  have hu : s.thr t ≠ .unborn := by
    intro hu
    have hnf : s.n ≤ t ∨ t < s.n := by omega
    rcases hnf with h | h
    · rw [hg.inv.noFlag t h] at hf; simp at hf
    · -- every thread below `n` exists
      have := ind (P := fun s : SB K V I => ∀ t, t < s.n → s.thr t ≠ .unborn) (cfg := cfg) (by intro t h; simp [SB.init] at h) (by
        intro s a s' hg ih hs
        have hst := step_to hs
        clear hs
        cases hst
        all_goals
          try simp only [say, setThr, setBuf, setEvent, setNext, setDrop, setInfo, newSess, running] at *
        all_goals first
          | exact ih
          | grind) he t h
      exact this hu
  obtain ⟨h1, l, e1, h3, h4⟩ := left_exec (cfg := cfg) (fun s bs => s.Inv2 ∧ s.flag t = true ∧ s.Settled cfg bs) t
    (fun s a bs s' hi ⟨h, hf, hs⟩ hst => ⟨h.step hi hst hs.1, flag_step hi hst t hf, hs.2 _ hst⟩)
    (fun s a bs s' hi ⟨h, hf, _⟩ _ hid => ⟨t, (h.solo t hid).2.1, hf⟩) bs s s' hg.inv ⟨h2, hf, hset⟩ hu he'
  have := (s.thr t).left_le
  exact ⟨by omega, l, e1, by omega, by omega⟩

omit [ReflBEq V] in
/-- **C38**, every execution: once the current stop event is set, and as long as no new `start()` makes another one, every running thread (of whatever
session) reads the source at most once more, stores at most one more item, and takes at most 8 more steps. -/
theorem C38_same_event (as bs : List (SBAct K V I)) (he : SB.init.exec cfg as = some s) (he' : s.exec cfg bs = some s')
    (e : Nat) (hc : s.stopEvent = some e) (hstop : Ev.eventSet e ∈ s.log) (hsame : s'.stopEvent = some e) (t : Nat) (hrun : (s.thr t).idle = false) :
    bs.countP (·.ofThread t) ≤ 8 ∧ ∃ l, s'.log = s.log ++ l ∧ l.countP (isReadBy t) ≤ 1 ∧ l.countP (isStoreBy t) ≤ 1 := by
  have hg := good he
  have hf := (hg.log.flag e).2 hstop
  have hu : s.thr t ≠ .unborn := by intro h; rw [h] at hrun; simp [TPC.idle] at hrun
  obtain ⟨h1, l, e1, h3, h4⟩ := left_exec (cfg := cfg) (fun s bs => s.stopEvent = some e ∧ s.flag e = true ∧ ∃ s', s.exec cfg bs = some s' ∧
      s'.stopEvent = some e) t
    (fun s a bs s' hi ⟨h, hf, s2, hx, hy⟩ hst => by
      simp only [exec, hst] at hx
      refine ⟨?_, flag_step hi hst e hf, s2, hx, hy⟩
      rcases stopEvent_step hi hst with h1 | ⟨e1, h1, h2⟩
      · exact h1.trans h
      · obtain ⟨e', h3, h4⟩ := stopEvent_mono bs s' s2 (hi.step hst) hx e1 h1
        have := h2 e h
        rw [hy] at h3; injection h3 with h3; omega)
    (fun s a bs s' hi ⟨h, hf, _⟩ _ _ => ⟨e, h, hf⟩) bs s s' hg.inv ⟨hc, hf, s', he', hsame⟩ hu he'
  have := (s.thr t).left_le
  exact ⟨by omega, l, e1, by omega, by omega⟩

omit [ReflBEq V] in
/-- **C38** a running thread is never stuck: it has an enabled step, or it is inside a call of the source that may return. Every execution. -/
theorem C38_never_stuck (he : SB.init.exec cfg as = some s) (t : Nat) (hrun : (s.thr t).idle = false) :
    (∃ s', s.step cfg (.thr t) = some s') ∨
    (∀ r, ∃ s', s.step cfg (.readOk t r) = some s') ∨ (∀ ok, ∃ s', s.step cfg (.close t ok) = some s') := by
  have hg := (good he).inv
  have hp := hg.ph
  have hn := hg.noThr t
  have hev : ∃ e, s.stopEvent = some e := by
    cases hstart : s.start with
    | none => grind [PhaseOk, TPC.idle]
    | some p => cases p <;> grind [PhaseOk, TPC.idle]
  obtain ⟨e, hev⟩ := hev
  cases h : s.thr t with
  | unborn | fresh | done => rw [h] at hrun; simp [TPC.idle] at hrun
  | check | fin1 | fin2 => exact .inl (by simp [step, thrGo, h, hev])
  | sleeping => exact .inl (by simp [step, thrGo, h])
  | reading => exact .inr (.inl fun r => by simp [step, h])
  | fin3 => exact .inr (.inr fun r => by simp [step, h])
  | appending v => refine .inl ?_; simp only [step, thrGo, h]; cases s.sourceBuffer <;> simp
  | storing b v =>
    refine .inl ?_
    obtain ⟨x, hx⟩ := Option.isSome_iff_exists.1 (hg.storing t b v h)
    simp only [step, thrGo, h, hx]
    split <;> simp
  | cap =>
    refine .inl ?_
    simp only [step, thrGo, h]
    cases hb : s.sourceBuffer with
    | none => split <;> simp
    | some b =>
      split <;> simp
  | measuring b =>
    refine .inl ?_
    obtain ⟨x, hx⟩ := Option.isSome_iff_exists.1 (hg.measuring t b h)
    simp only [step, thrGo, h, hx]
    cases cfg.maxlen <;> simp

end
end SB
end S2P
