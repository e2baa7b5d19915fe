import Verif.Props.StreamBuffer
/-
C85, C86: a session ends only for a reason, and until then keeps reading.
-/
namespace S2P
open Spec
variable {K V I : Type} [LinearOrder K] [BEq V] {cfg : SBCfg K V}

namespace SB

/-- Induction over executions, with the actions so far. -/
theorem exec_ind_acts {P : List (SBAct K V I) → SB K V I → Prop} (h0 : P [] SB.init)
    (hstep : ∀ as a s s', SB.init.exec cfg as = some s → P as s → s.step cfg a = some s' → P (as ++ [a]) s')
    (as : List (SBAct K V I)) : ∀ s, SB.init.exec cfg as = some s → P as s := by
  induction as using List.reverseRecOn with
  | nil => intro s h; simp only [exec, Option.some.injEq] at h; exact h ▸ h0
  | append_singleton as a ih =>
    intro s h
    rw [exec_append] at h
    cases h1 : SB.init.exec cfg as with
    | none => simp [h1] at h
    | some s1 =>
      simp only [h1, Option.bind_some, exec] at h
      split at h
      · injection h with h; subst h; exact hstep as a s1 _ h1 (ih s1 h1) ‹_›
      · simp at h

/-- `stop()`, or another `start()`, was called after the `t`-th `start()` (counted from 0) had made its thread. -/
def Asked (cfg : SBCfg K V) (as : List (SBAct K V I)) (t : Nat) : Prop :=
  ∃ as1 a as2 s1, as = as1 ++ a :: as2 ∧ SB.init.exec cfg as1 = some s1 ∧ t < s1.n ∧ (a = .stop ∨ a = .start)

/-- An exception left the reading loop of thread `t`. -/
def Died (log : List (Ev V I)) (t : Nat) : Prop := ∃ e ∈ log, isDeath e = true ∧ byThread t e = true

theorem Asked.snoc {as : List (SBAct K V I)} {t : Nat} (h : Asked cfg as t) (a : SBAct K V I) : Asked cfg (as ++ [a]) t := by
  obtain ⟨as1, x, as2, s1, rfl, h⟩ := h
  exact ⟨as1, x, as2 ++ [a], s1, by simp, h⟩

theorem Died.append {l : List (Ev V I)} {t : Nat} (h : Died l t) (l' : List (Ev V I)) : Died (l ++ l') t := by
  obtain ⟨e, he, h⟩ := h
  exact ⟨e, List.mem_append_left _ he, h⟩

theorem Died.new {l : List (Ev V I)} {t : Nat} {e : Ev V I} (h : isDeath e = true) (h' : byThread t e = true) : Died (l ++ [e]) t :=
  ⟨e, by simp, h, h'⟩

/-- What `C85` needs at every step. -/
structure ReasonInv (cfg : SBCfg K V) (as : List (SBAct K V I)) (s : SB K V I) : Prop where
  flag : ∀ t, s.flag t = true → Asked cfg as t ∨ Died s.log t
  fin : ∀ t, s.thr t = .fin1 ∨ s.thr t = .fin2 ∨ s.thr t = .fin3 ∨ s.thr t = .done → Asked cfg as t ∨ Died s.log t
  start : ∀ p, s.start = some p → (p.late = false ∨ p = .mkThr) → 0 < s.n → Asked cfg as (s.n - 1)
  old : ∀ t, t + 1 < s.n → Asked cfg as t

theorem step_log {s s' : SB K V I} {a : SBAct K V I} (hs : s.step cfg a = some s') : ∃ l, s'.log = s.log ++ l := by
  have hst := step_to hs
  cases hst
  all_goals
    try simp only [say, setThr, setBuf, setEvent, setNext, setDrop, setInfo, newSess, running] at *
  all_goals first
    | exact ⟨[], (List.append_nil _).symm⟩
    | exact ⟨_, rfl⟩
    | exact ⟨_, List.append_assoc _ _ _⟩

theorem Settled.of_snoc {as : List (SBAct K V I)} {s0 s : SB K V I} {a : SBAct K V I} (h : s0.Settled cfg (as ++ [a])) (he : s0.exec cfg as = some s) :
    s0.Settled cfg as ∧ s.SettledAt a := by
  induction as generalizing s0 with
  | nil => simp only [exec, Option.some.injEq] at he; subst he; exact ⟨trivial, h.1⟩
  | cons b as ih =>
    simp only [exec] at he
    split at he
    · rename_i s1 hs1
      obtain ⟨h1, h2⟩ := ih (h.2 _ hs1) he
      exact ⟨⟨h.1, fun s' hs' => by rw [hs1] at hs'; injection hs' with e; exact e ▸ h1⟩, h2⟩
    · simp at he

set_option maxHeartbeats 4000000 in
theorem reason_step {as : List (SBAct K V I)} {s s' : SB K V I} {a : SBAct K V I} (he : SB.init.exec cfg as = some s) (h0 : s.Inv) (h2 : s.Inv2)
    (h : ReasonInv cfg as s) (hs : s.step cfg a = some s') : ReasonInv cfg (as ++ [a]) s' := by
  have hup : ∀ t l, (Asked cfg as t ∨ Died s.log t) → (Asked cfg (as ++ [a]) t ∨ Died (s.log ++ l) t) := fun t l h => h.imp (·.snoc a) (·.append l)
  have hup' : ∀ t l l', (Asked cfg as t ∨ Died s.log t) → (Asked cfg (as ++ [a]) t ∨ Died (s.log ++ l ++ l') t) :=
    fun t l l' h => h.imp (·.snoc a) (fun h => (h.append l).append l')
  have hup0 : ∀ t, (Asked cfg as t ∨ Died s.log t) → (Asked cfg (as ++ [a]) t ∨ Died s.log t) := fun t h => h.imp (·.snoc a) id
  have hA : ∀ t, Asked cfg as t → Asked cfg (as ++ [a]) t := fun t h => h.snoc a
  have hstop : a = .stop ∨ a = .start → ∀ t, t < s.n → Asked cfg (as ++ [a]) t := fun ha t ht => ⟨as, a, [], s, rfl, he, ht, ha⟩
  have hnew : ∀ t (e : Ev V I), isDeath e = true → byThread t e = true → Died (s.log ++ [e]) t := fun t e => Died.new
  obtain ⟨g1, g2, g3, g4⟩ := h
  have hp := h0.ph
  have hlt := h0.ph.lt
  have hsolo := h2.solo
  have hn := h0.noThr
  have hnf := h0.noFlag
  have hst := step_to hs
  clear hs he h0 h2
  cases hst
  all_goals
    try simp only [say, setThr, setBuf, setEvent, setNext, setDrop, setInfo, newSess, running] at *
    refine ⟨?_, ?_, ?_, ?_⟩ <;> dsimp only
  all_goals first
    | grind [PhaseOk, StartPC.late, TPC.idle]
    | grind [PhaseOk, StartPC.late, TPC.idle, isDeath, byThread]

theorem reason_inv (as : List (SBAct K V I)) (s : SB K V I) (he : SB.init.exec cfg as = some s) (hset : SB.init.Settled cfg as) :
    ReasonInv cfg as s := by
  refine exec_ind_acts (P := fun as s => SB.init.Settled cfg as → ReasonInv cfg as s) ?_ ?_ as s he hset
  · intro _; exact ⟨by simp [SB.init], by simp [SB.init], by simp [SB.init], by simp [SB.init]⟩
  · intro as a s s' he ih hs hset
    obtain ⟨h1, _⟩ := hset.of_snoc he
    obtain ⟨i1, i2⟩ := inv2_exec he h1
    exact reason_step he i1 i2 (ih h1) hs

/-- **C85**: if every `start()` found the threads of earlier sessions ended, the stop event of a session is set, and its source closed, only because
`stop()` or another `start()` was called, or an exception left the reading loop of its own thread (raised by `read()`, by the append, or, with
`maxlen=None` and `auto_drop=False`, by the comparison of the length). In particular not because `read()` returned `None`. -/
theorem C85_ends_for_a_reason {as : List (SBAct K V I)} {s : SB K V I} (he : SB.init.exec cfg as = some s) (hset : SB.init.Settled cfg as) (t : Nat)
    (h : Ev.eventSet t ∈ s.log ∨ ∃ ok, Ev.closed t ok ∈ s.log) : Asked cfg as t ∨ Died s.log t := by
  have hr := reason_inv as s he hset
  have hg := good he
  rcases h with h | ⟨ok, h⟩
  · exact hr.flag t ((hg.log.flag t).2 h)
  · exact hr.fin t (.inr (.inr (.inr (hg.log.closed t ok h))))

/-- **C85**: until then the stream is running: `is_running` is `True`, its readers do not see `is_stopped`, the source is not closed. -/
theorem C85_runs_on {as : List (SBAct K V I)} {s : SB K V I} (he : SB.init.exec cfg as = some s) (hset : SB.init.Settled cfg as) (t : Nat)
    (h : Ev.launched t ∈ s.log) (ha : ¬ Asked cfg as t) (hd : ¬ Died s.log t) :
    s.step cfg .isRunning = some (s.say (.isRunning true)) ∧ (∀ c, s.view t = some c → c.stopped = false) ∧ (∀ ok, Ev.closed t ok ∉ s.log) ∧
      (s.thr t).idle = false := by
  have hr := reason_inv as s he hset
  have hg := good he
  have h2 := (inv2_exec he hset).2
  obtain ⟨hu, hf⟩ := hg.log.launched t h
  have hnd : s.thr t ≠ .done := fun hx => (hr.fin t (.inr (.inr (.inr hx)))).elim ha hd
  have hidle : (s.thr t).idle = false := by
    cases hx : s.thr t <;> simp_all [TPC.idle]
  obtain ⟨hn, hev, hsb⟩ := h2.solo t hidle
  have hflag : s.flag t = false := by
    cases hx : s.flag t
    · rfl
    · exact ((hr.flag t hx).elim ha hd).elim
  have hstart : s.start = none := by
    cases hp : s.start with
    | none => rfl
    | some p =>
      exfalso
      by_cases hl : p.late = true
      · have := h2.quiet p hp hl t
        rw [hidle] at this; simp at this
      · have := hr.start p hp (.inl (by simpa using hl)) (by omega)
        rw [show s.n - 1 = t by omega] at this
        exact ha this
  refine ⟨?_, ?_, ?_, hidle⟩
  · simp only [step, hstart, if_true, running, hev, hflag, Bool.not_false]
  · intro c hc
    obtain ⟨x, hx, rfl⟩ := Option.map_eq_some_iff.1 hc
    simp only
    rw [hg.inv.evt t x hx, hflag]
  · intro ok hc
    exact hnd (hg.log.closed t ok hc)

/-- Steps of its own that a thread may take before it calls `read()` again (if it does not find the buffer full), or has ended. -/
def _root_.S2P.TPC.fuel : TPC V → Nat
  | .done => 0
  | .fin3 => 1
  | .fin2 => 2
  | .fin1 => 3
  | .reading => 4
  | .measuring _ => 5
  | .cap => 6
  | .check => 7
  | .sleeping | .storing _ _ => 8
  | .appending _ | .unborn | .fresh => 9

theorem _root_.S2P.TPC.fuel_le (p : TPC V) : p.fuel ≤ 9 := by cases p <;> simp [TPC.fuel]

/-- At this step thread `t` does not find the buffer full. -/
def RoomAt (cfg : SBCfg K V) (s : SB K V I) (a : SBAct K V I) (t : Nat) : Prop :=
  a = .thr t → ∀ b m, s.thr t = .measuring b → cfg.maxlen = some m → (s.items b).length < m

/-- Thread `t` does not find the buffer full (it does not look when `auto_drop=True`). -/
def NeverFull (cfg : SBCfg K V) (t : Nat) : SB K V I → List (SBAct K V I) → Prop
  | _, [] => True
  | s, a :: as => s.RoomAt cfg a t ∧ ∀ s', s.step cfg a = some s' → s'.NeverFull cfg t as

theorem fuel_step {s s' : SB K V I} {a : SBAct K V I} (hi : s.Inv) (hs : s.step cfg a = some s') (t : Nat) (hroom : s.RoomAt cfg a t) :
    ∃ l, s'.log = s.log ++ l ∧ (if a.ofThread t then 1 else 0) + (s'.thr t).fuel ≤ (s.thr t).fuel + 6 * l.countP (isReadBy t) := by
  have hn := hi.noThr
  have hp := hi.ph
  have hst := step_to hs
  clear hs hi
  cases hst
  case cap t' b x m h hx hm =>
    simp only [setThr]
    by_cases ht : t = t'
    · subst ht
      have := hroom rfl b m h hm
      simp only [items, hx] at this
      rw [if_pos (show x.cons.ch.buf.len < m from this)]
      simp only [if_true]
      refine ⟨[], by simp, ?_⟩
      simp [h, TPC.fuel, SBAct.ofThread]
    · simp only [if_neg ht]
      refine ⟨[], by simp, ?_⟩
      simp [SBAct.ofThread, Ne.symm ht]
  all_goals
    try simp only [say, setThr, setBuf, setEvent, setNext, setDrop, setInfo, newSess, running] at *
  all_goals first
    | (refine ⟨[], (List.append_nil _).symm, ?_⟩; grind [TPC.fuel, SBAct.ofThread, PhaseOk])
    | (refine ⟨_, rfl, ?_⟩; simp only [List.countP_cons, List.countP_nil, isReadBy]; grind [TPC.fuel, SBAct.ofThread, PhaseOk])
    | (refine ⟨_, List.append_assoc _ _ _, ?_⟩; simp only [List.countP_cons, List.countP_nil, List.countP_append, isReadBy]; grind [TPC.fuel, SBAct.ofThread, PhaseOk])

/-- **C86**: a thread that does not find the buffer full calls `read()` again within 6 steps of its own, or ends: in any stretch of an execution
the number of its steps is bounded by its calls of `read()`. -/
theorem C86_keeps_reading {as bs : List (SBAct K V I)} {s s' : SB K V I} (he : SB.init.exec cfg as = some s) (t : Nat)
    (he' : s.exec cfg bs = some s') (hroom : s.NeverFull cfg t bs) :
    ∃ l, s'.log = s.log ++ l ∧ bs.countP (·.ofThread t) ≤ 6 * l.countP (isReadBy t) + 9 := by
  have main : ∀ (bs : List (SBAct K V I)) (s : SB K V I), s.Inv → s.exec cfg bs = some s' → s.NeverFull cfg t bs →
      ∃ l, s'.log = s.log ++ l ∧ bs.countP (·.ofThread t) + (s'.thr t).fuel ≤ (s.thr t).fuel + 6 * l.countP (isReadBy t) := by
    intro bs
    induction bs with
    | nil => intro s _ h _; simp only [exec, Option.some.injEq] at h; subst h; exact ⟨[], by simp, by simp⟩
    | cons a bs ih =>
      intro s hi h hr
      simp only [exec] at h
      split at h
      · rename_i s1 hs1
        obtain ⟨l, e1, b1⟩ := fuel_step hi hs1 t hr.1
        obtain ⟨l', e2, b2⟩ := ih s1 (hi.step hs1) h (hr.2 _ hs1)
        refine ⟨l ++ l', by rw [e2, e1, List.append_assoc], ?_⟩
        rw [List.countP_cons, List.countP_append]; omega
      · simp at h
  obtain ⟨l, e, b⟩ := main bs s (good he).inv he' hroom
  have := (s.thr t).fuel_le
  exact ⟨l, e, by omega⟩

/-- With `auto_drop=True` the buffer's length is never looked at. -/
theorem room_auto (ha : cfg.autoDrop = true) (t : Nat) {as bs : List (SBAct K V I)} {s s' : SB K V I} (he : SB.init.exec cfg as = some s)
    (he' : s.exec cfg bs = some s') : s.NeverFull cfg t bs := by
  have main : ∀ (bs : List (SBAct K V I)) (s : SB K V I), (∀ t b, s.thr t ≠ .measuring b) → s.NeverFull cfg t bs := by
    intro bs
    induction bs with
    | nil => intro s _; trivial
    | cons a bs ih =>
      intro s hm
      refine ⟨fun _ b _ h => absurd h (hm t b), fun s' hs' => ih s' ?_⟩
      have hst := step_to hs'
      clear hs'
      cases hst
      all_goals
        try simp only [say, setThr, setBuf, setEvent, setNext, setDrop, setInfo, newSess, running] at *
      all_goals first
        | assumption
        | grind
  refine main bs s ?_
  refine ind (P := fun s : SB K V I => ∀ t b, s.thr t ≠ .measuring b) (cfg := cfg) (by simp [SB.init]) ?_ he
  intro s a s' _ ih hs
  have hst := step_to hs
  clear hs
  cases hst
  all_goals
    try simp only [say, setThr, setBuf, setEvent, setNext, setDrop, setInfo, newSess, running] at *
  all_goals first
    | assumption
    | grind

/-- **C86** with `auto_drop=True`. -/
theorem C86_keeps_reading_auto (ha : cfg.autoDrop = true) {as bs : List (SBAct K V I)} {s s' : SB K V I} (he : SB.init.exec cfg as = some s) (t : Nat)
    (he' : s.exec cfg bs = some s') : ∃ l, s'.log = s.log ++ l ∧ bs.countP (·.ofThread t) ≤ 6 * l.countP (isReadBy t) + 9 :=
  C86_keeps_reading he t he' (room_auto ha t he he')

/-- Past its loop. -/
def _root_.S2P.TPC.leaving : TPC V → Bool
  | .fin1 | .fin2 | .fin3 | .done => true
  | _ => false

theorem died_leaving {as : List (SBAct K V I)} {s : SB K V I} (he : SB.init.exec cfg as = some s) (t : Nat) (h : Died s.log t) : (s.thr t).leaving = true := by
  refine ind (P := fun s : SB K V I => ∀ t e, e ∈ s.log → isDeath e = true → byThread t e = true → (s.thr t).leaving = true) (cfg := cfg)
    (by simp [SB.init]) ?_ he t h.choose h.choose_spec.1 h.choose_spec.2.1 h.choose_spec.2.2
  intro s a s' hg ih hs t e hm hd hb
  have hn := hg.inv.noThr
  have hp := hg.inv.ph
  have hst := step_to hs
  clear hs
  cases hst
  all_goals
    try simp only [say, setThr, setBuf, setEvent, setNext, setDrop, setInfo, newSess, running, List.mem_append, List.mem_singleton, or_assoc] at *
  all_goals first
    | exact ih t e hm hd hb
    | (rcases hm with hm | rfl
       · have := ih t e hm hd hb
         first
           | exact this
           | grind [TPC.leaving, PhaseOk]
       · simp only [isDeath, byThread, decide_eq_true_eq, Bool.false_eq_true] at hd hb
         first
           | (subst hb; simp [TPC.leaving])
           | contradiction)
    | (rcases hm with hm | rfl | rfl
       · have := ih t e hm hd hb
         first
           | exact this
           | grind [TPC.leaving, PhaseOk]
       all_goals simp [isDeath] at hd)
    | (have := ih t e hm hd hb; grind [TPC.leaving, PhaseOk])

/-- A thread that has ended has closed the source. -/
theorem done_closed {as : List (SBAct K V I)} {s : SB K V I} (he : SB.init.exec cfg as = some s) (t : Nat) (h : s.thr t = .done) :
    ∃ ok, Ev.closed t ok ∈ s.log := by
  refine ind (P := fun s : SB K V I => ∀ t, s.thr t = .done → ∃ ok, Ev.closed t ok ∈ s.log) (cfg := cfg) (by simp [SB.init]) ?_ he t h
  intro s a s' hg ih hs t ht
  have hst := step_to hs
  clear hs
  cases hst
  all_goals
    try simp only [say, setThr, setBuf, setEvent, setNext, setDrop, setInfo, newSess, running, List.mem_append, List.mem_singleton, or_assoc] at *
  all_goals first
    | exact ih t ht
    | (have := ih t; grind)
    | (rename_i t2 ok _
       by_cases hx : t = t2
       · exact ⟨ok, .inr (hx ▸ rfl)⟩
       · rw [if_neg hx] at ht
         exact (ih t ht).imp fun _ => .inl)

theorem leaving_step {s s' : SB K V I} {a : SBAct K V I} (hi : s.Inv) (hs : s.step cfg a = some s') (t : Nat) (hl : (s.thr t).leaving = true) :
    (s'.thr t).leaving = true ∧ (if a.ofThread t then 1 else 0) + (s'.thr t).fuel ≤ (s.thr t).fuel ∧
      ∃ l, s'.log = s.log ++ l ∧ ∀ x ∈ l, byThread t x = true → isCloseBy t x = true := by
  have hn := hi.noThr
  have hp := hi.ph
  have hst := step_to hs
  clear hs hi
  cases hst
  all_goals
    try simp only [say, setThr, setBuf, setEvent, setNext, setDrop, setInfo, newSess, running] at *
  all_goals first
    | (refine ⟨?_, ?_, [], (List.append_nil _).symm, ?_⟩ <;> grind [TPC.leaving, TPC.fuel, SBAct.ofThread, PhaseOk])
    | (refine ⟨?_, ?_, _, rfl, ?_⟩ <;> grind [TPC.leaving, TPC.fuel, SBAct.ofThread, PhaseOk, byThread, isCloseBy])
    | (refine ⟨?_, ?_, _, List.append_assoc _ _ _, ?_⟩ <;> grind [TPC.leaving, TPC.fuel, SBAct.ofThread, PhaseOk, byThread, isCloseBy])

/-- **C90**: after an exception left the reading loop of thread `t`, whatever happens next, the thread only closes the source: it does not call
`read()` and stores nothing; it takes at most 3 more steps, and has closed the source when it has taken them. Until it has closed it, it can go on. -/
theorem C90_death_is_final {as bs : List (SBAct K V I)} {s s' : SB K V I} (he : SB.init.exec cfg as = some s) (t : Nat) (hd : Died s.log t)
    (he' : s.exec cfg bs = some s') :
    (∃ l, s'.log = s.log ++ l ∧ ∀ x ∈ l, byThread t x = true → isCloseBy t x = true) ∧ bs.countP (·.ofThread t) ≤ 3 ∧
      (3 ≤ bs.countP (·.ofThread t) → ∃ ok, Ev.closed t ok ∈ s'.log) ∧
      ((∃ ok, Ev.closed t ok ∈ s'.log) ∨ (∃ s2, s'.step cfg (.thr t) = some s2) ∨ ∀ ok, ∃ s2, s'.step cfg (.close t ok) = some s2) := by
  have main : ∀ (bs : List (SBAct K V I)) (s : SB K V I), s.Inv → (s.thr t).leaving = true → s.exec cfg bs = some s' →
      (s'.thr t).leaving = true ∧ bs.countP (·.ofThread t) + (s'.thr t).fuel ≤ (s.thr t).fuel ∧
      ∃ l, s'.log = s.log ++ l ∧ ∀ x ∈ l, byThread t x = true → isCloseBy t x = true := by
    intro bs
    induction bs with
    | nil => intro s _ hl h; simp only [exec, Option.some.injEq] at h; subst h; exact ⟨hl, by simp, [], by simp, by simp⟩
    | cons a bs ih =>
      intro s hi hl h
      simp only [exec] at h
      split at h
      · rename_i s1 hs1
        obtain ⟨h1, b1, l, e1, p1⟩ := leaving_step hi hs1 t hl
        obtain ⟨h2, b2, l', e2, p2⟩ := ih s1 (hi.step hs1) h1 h
        refine ⟨h2, ?_, l ++ l', by rw [e2, e1, List.append_assoc], fun x hx => (List.mem_append.1 hx).elim (p1 x) (p2 x)⟩
        rw [List.countP_cons]; omega
      · simp at h
  have hl := died_leaving he t hd
  obtain ⟨h1, h2, h3⟩ := main bs s (good he).inv hl he'
  have hall : SB.init.exec cfg (as ++ bs) = some s' := by rw [exec_append, he]; exact he'
  have hdone : (s'.thr t) = .done → ∃ ok, Ev.closed t ok ∈ s'.log := fun hx => done_closed hall t hx
  have hf : (s.thr t).fuel ≤ 3 := by cases hx : s.thr t <;> simp_all [TPC.fuel, TPC.leaving]
  refine ⟨h3, by omega, fun hc => hdone ?_, ?_⟩
  · cases hx : s'.thr t <;> simp_all [TPC.fuel, TPC.leaving] <;> omega
  · by_cases hx : s'.thr t = .done
    · exact .inl (hdone hx)
    · have hid : (s'.thr t).idle = false := by cases hy : s'.thr t <;> simp_all [TPC.idle, TPC.leaving]
      rcases C38_never_stuck hall t hid with h | h | h
      · exact .inr (.inl h)
      · obtain ⟨s2, h⟩ := h none
        exfalso
        simp only [step] at h
        cases hy : s'.thr t <;> simp_all [TPC.leaving]
      · exact .inr (.inr h)

end SB
end S2P
