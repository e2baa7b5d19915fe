import Verif.Proofs.Nap
import Verif.Props.AutoDrop
/-
C173: a sleep time that `time.sleep` rejects.
-/
namespace S2P
open Spec
variable {K V I : Type}

/-- Events other than exceptions that end a reading thread at its `read()` or its sleep. -/
def Spec.unthrown : Ev V I → Bool
  | .crashed _ _ | .readRaised _ _ => false
  | _ => true

namespace ASB

section
variable [LinearOrder K] [BEq V] {e : PyErr} {cfg : SBCfg K V} {s s' : ASB K V I} {as : List (AAct K V I)}

theorem napExec_append (s : ASB K V I) (as bs : List (AAct K V I)) : s.napExec e cfg (as ++ bs) = (s.napExec e cfg as).bind (·.napExec e cfg bs) := by
  induction as generalizing s with
  | nil => rfl
  | cons a as ih =>
    simp only [List.cons_append, napExec]
    cases s.napStep e cfg a with
    | none => rfl
    | some t => exact ih t

/-- A step is one of a stream buffer with an accepted sleep time, or the exception at the sleep. -/
theorem nap_step {a : AAct K V I} (h : s.napStep e cfg a = some s') :
    (s.step cfg a = some s' ∧ ∀ t, a = .act (.thr t) → s.sb.thr t ≠ .sleeping) ∨
    ∃ t, a = .act (.thr t) ∧ s.sb.thr t = .sleeping ∧ s' = { s with sb := (s.sb.setThr t .fin1).say (.crashed t e) } := by
  unfold napStep at h
  split at h
  · rename_i t
    split at h
    · injection h with h
      exact .inr ⟨t, rfl, ‹_›, h.symm⟩
    · refine .inl ⟨h, ?_⟩
      intro t' ht'
      cases ht'
      assumption
  · rename_i hne
    exact .inl ⟨h, fun t ht => absurd ht (hne t)⟩

/-- A thread that sleeps finds a stop event. -/
theorem sleeping_event {x : SB K V I} (h : x.Inv) {t : Nat} (ht : x.thr t = .sleeping) : ∃ k, x.stopEvent = some k := by
  have hlt : t < x.n := by
    by_contra hn
    have := h.noThr t (by omega)
    rw [ht] at this; cases this
  have hp := h.ph
  cases hst : x.stopEvent with
  | some k => exact ⟨k, rfl⟩
  | none =>
    exfalso
    unfold SB.PhaseOk at hp
    rw [hst] at hp
    split at hp
    all_goals simp only [true_and, reduceCtorEq, false_and, or_false, and_false] at hp
    all_goals first
      | omega
      | (obtain ⟨h1, h2, h3, -, -, -, h4⟩ := hp
         have : t = x.n - 1 := by omega
         rw [this, h3] at ht; cases ht)

set_option maxHeartbeats 1000000 in
theorem as_if_snoc {u : ASB K V I} {bs : List (AAct K V I)} {a : AAct K V I} (hb : (init cfg).exec cfg bs = some u) (hau : u.auto = s.auto)
    (hsb : u.sb = { s.sb with log := u.sb.log }) (hlog : u.sb.log.filter unthrown = s.sb.log.filter unthrown) (hs : s.napStep e cfg a = some s') :
    ∃ cs u', u.exec cfg cs = some u' ∧ u'.auto = s'.auto ∧ u'.sb = { s'.sb with log := u'.sb.log } ∧
      u'.sb.log.filter unthrown = s'.sb.log.filter unthrown ∧ (s.auto = true → (∀ x, a ≠ .assign x) → ∀ x, .assign x ∉ cs) ∧
      (∀ y, .act y ∈ cs → .act y = a ∨ (∃ t, y = .thr t) ∨ ∃ t, y = .readRaise t e) := by
  rcases nap_step hs with ⟨hs, -⟩ | ⟨t, rfl, ht, rfl⟩
  · cases a with
    | assign x =>
      simp only [step, Option.some.injEq] at hs
      subst hs
      exact ⟨[.assign x], { u with auto := x }, rfl, rfl, hsb, hlog, fun _ h => absurd rfl (h x), by simp⟩
    | act a =>
      obtain ⟨h1, h2⟩ := step_act hs
      obtain ⟨l, hl, hL⟩ := SB.log_unseen h2
      have h3 := hL u.sb.log
      rw [← hsb, ← hau] at h3
      refine ⟨[.act a], { u with sb := { s'.sb with log := u.sb.log ++ l } }, ?_, by rw [hau, h1], rfl, ?_, by simp, by simp⟩
      · simp only [exec, step, h3, Option.map_some]
      · rw [hl]; simp only [List.filter_append, hlog]
  · have hg := (good hb).inv
    have ht' : u.sb.thr t = .sleeping := by rw [hsb]; exact ht
    obtain ⟨k, hk⟩ := sleeping_event hg ht'
    cases hf : u.sb.flag k with
    | true =>
      refine ⟨[.act (.thr t), .act (.thr t)], { u with sb := (u.sb.setThr t .check).setThr t .fin1 }, ?_, hau, ?_, ?_, by simp, by simp⟩
      · simp [exec, step, SB.step, SB.thrGo, ht', SB.setThr, hk, hf]
      · rw [hsb]; simp only [SB.setThr, SB.say]
        congr 1
        funext j; split <;> rfl
      · simp [SB.setThr, SB.say, hlog, unthrown]
    | false =>
      cases hua : u.auto with
      | true =>
        refine ⟨[.act (.thr t), .act (.thr t), .act (.thr t), .act (.readRaise t e)],
          { u with sb := ((u.sb.setThr t .fin1).say (.readRaised t e)) }, ?_, hau, ?_, ?_, by simp, by simp⟩
        · simp only [exec, step, SB.step, SB.thrGo, ht', SB.setThr, hk, hf, if_true, Option.map_some, hua, SB.say, Bool.false_eq_true, if_false, Option.some.injEq]
          congr 2
          funext j; split <;> rfl
        · rw [hsb]; simp only [SB.setThr, SB.say]
        · simp [SB.setThr, SB.say, hlog, unthrown]
      | false =>
        refine ⟨[.act (.thr t), .assign true, .act (.thr t), .act (.thr t), .act (.readRaise t e), .assign false],
          { u with sb := ((u.sb.setThr t .fin1).say (.readRaised t e)) }, ?_, hau, ?_, ?_, by rw [← hau, hua]; simp, by simp⟩
        · simp only [exec, step, SB.step, SB.thrGo, ht', SB.setThr, hk, hf, if_true, Option.map_some, hua, SB.say, Bool.false_eq_true, if_false, Option.some.injEq]
          rw [← hua]
          congr 2
          funext j; split <;> rfl
        · rw [hsb]; simp only [SB.setThr, SB.say]
        · simp [SB.setThr, SB.say, hlog, unthrown]

/-- **C173** a sleep that raises is as if the next `read()` of the source had raised (or, with the buffer full, as if `auto_drop` had been set for a moment and
the next `read()` raised); if the session has been stopped meanwhile, it makes no difference. Everything else is equal: every execution ends in a state of one
in which no sleep raises, with the same events in the same order but for the exceptions themselves. -/
theorem C173_as_if (he : (init cfg).napExec e cfg as = some s) :
    ∃ bs u, (init cfg).exec cfg bs = some u ∧ u.auto = s.auto ∧ u.sb = { s.sb with log := u.sb.log } ∧
      u.sb.log.filter unthrown = s.sb.log.filter unthrown ∧
      (∀ y, .act y ∈ bs → .act y ∈ as ∨ (∃ t, y = .thr t) ∨ ∃ t, y = .readRaise t e) ∧
      (cfg.autoDrop = true → (∀ x, .assign x ∉ as) → s.auto = true ∧ ∀ x, .assign x ∉ bs) := by
  induction as using List.reverseRecOn generalizing s with
  | nil =>
    simp only [napExec, Option.some.injEq] at he
    subst he
    exact ⟨[], init cfg, rfl, rfl, rfl, rfl, by simp, fun h _ => ⟨h, by simp⟩⟩
  | append_singleton as a ih =>
    rw [napExec_append, Option.bind_eq_some_iff] at he
    obtain ⟨s1, h1, h2⟩ := he
    obtain ⟨bs, u, k1, k2, k3, k4, k5, k6⟩ := ih h1
    have h3 : s1.napStep e cfg a = some s := by
      simp only [napExec] at h2
      split at h2
      · rw [← h2]; assumption
      · cases h2
    obtain ⟨cs, u', c1, c2, c3, c4, c5, c6⟩ := as_if_snoc k1 k2 k3 k4 h3
    refine ⟨bs ++ cs, u', by rw [exec_append, k1]; exact c1, c2, c3, c4, ?_, ?_⟩
    · intro y hy
      rcases List.mem_append.1 hy with hy | hy
      · exact (k5 y hy).imp_left fun h => List.mem_append_left _ h
      · exact (c6 y hy).imp_left fun h => by simp [h]
    · intro ha hn
      obtain ⟨j1, j2⟩ := k6 ha (fun x hx => hn x (List.mem_append_left _ hx))
      have hna : ∀ x, a ≠ .assign x := fun x hx => hn x (by simp [hx])
      refine ⟨?_, ?_⟩
      · rcases nap_step h3 with ⟨h4, -⟩ | ⟨t, -, -, rfl⟩
        · cases a with
          | assign x => exact absurd rfl (hna x)
          | act a => rw [(step_act h4).1, j1]
        · exact j1
      · intro x hx
        rcases List.mem_append.1 hx with hx | hx
        · exact j2 x hx
        · exact c5 j1 hna x hx

theorem nap_ind {P : ASB K V I → Prop} (hstep : ∀ s a s', P s → s.napStep e cfg a = some s' → P s') (h : P s) (he : s.napExec e cfg as = some s') : P s' := by
  induction as generalizing s with
  | nil => simp only [napExec, Option.some.injEq] at he; exact he ▸ h
  | cons a as ih =>
    simp only [napExec] at he
    split at he
    · exact ih (hstep _ _ _ h ‹_›) he
    · simp at he

/-- What a thread does with data: it gets something from `read()`, or stores it, or fails to. -/
def works (t : Nat) : Ev V I → Prop
  | .read t' _ | .readRaised t' _ | .stored t' _ _ | .refused t' _ _ _ => t' = t
  | _ => False

/-- A thread that is on its way out or out. -/
def leaving : TPC V → Bool
  | .sleeping | .fin1 | .fin2 | .fin3 | .done => true
  | _ => false

omit [LinearOrder K] [BEq V] in
theorem works_snoc (l : List (Ev V I)) (x : Ev V I) (t : Nat) (h : l.Pairwise fun x y => x = .read t none → ¬ works t y)
    (hx : (.read t none : Ev V I) ∈ l → ¬ works t x) : (l ++ [x]).Pairwise fun x y => x = .read t none → ¬ works t y := by
  rw [List.pairwise_append]
  refine ⟨h, by simp, fun a ha b hb hab => ?_⟩
  rw [List.mem_singleton] at hb
  subst hb hab
  exact hx ha

structure Once (s : ASB K V I) : Prop where
  out : ∀ t, (.read t none : Ev V I) ∈ s.sb.log → leaving (s.sb.thr t) = true
  last : ∀ t, s.sb.log.Pairwise fun x y => x = .read t none → ¬ works t y
  why : ∀ t e', (.crashed t e' : Ev V I) ∈ s.sb.log → e' = e ∨ e' = .typeError ∨ e' = .attributeError

set_option maxHeartbeats 4000000 in
theorem Once.step {a : AAct K V I} (h : s.Once (e := e)) (hi : s.sb.Inv) (hs : s.napStep e cfg a = some s') : s'.Once (e := e) := by
  obtain ⟨h1, h2, h3⟩ := h
  rcases nap_step hs with ⟨hs, hno⟩ | ⟨t, rfl, ht, rfl⟩
  · cases a with
    | assign x => simp only [ASB.step, Option.some.injEq] at hs; subst hs; exact ⟨h1, h2, h3⟩
    | act a =>
      have hst := SB.step_to (step_act hs).2
      have hphase := hi.ph
      have hno' : ∀ t, a = .thr t → s.sb.thr t ≠ .sleeping := fun t ht => hno t (by rw [ht])
      have hun := hi.noThr
      have key : (∀ t, (.read t none : Ev V I) ∈ s'.sb.log → leaving (s'.sb.thr t) = true) ∧
          (∀ t, s'.sb.log.Pairwise fun x y => x = .read t none → ¬ works t y) ∧
          ∀ t e', (.crashed t e' : Ev V I) ∈ s'.sb.log → e' = e ∨ e' = .typeError ∨ e' = .attributeError := by
        clear hs hno hi
        generalize s'.sb = u' at hst
        generalize s.sb = u at *
        cases hst
        all_goals try simp only [SB.say, SB.setThr, SB.setBuf, SB.setEvent, SB.setNext, SB.setDrop, SB.setInfo, SB.newSess, SB.running] at *
        all_goals refine ⟨?_, fun t => ?_, ?_⟩
        all_goals first
          | exact h1
          | exact h2 t
          | exact h3
          | (refine works_snoc _ _ t (h2 t) ?_; simp [works]; done)
          | (refine works_snoc _ _ t (works_snoc _ _ t (h2 t) ?_) ?_ <;> (simp [works]; done))
          | (refine works_snoc _ _ t (h2 t) ?_
             intro hm
             simp only [works]
             rintro rfl
             have := h1 _ hm
             simp_all [leaving]; done)
          | grind [leaving, SB.PhaseOk]
      exact ⟨key.1, key.2.1, key.2.2⟩
  · refine ⟨fun t' ht' => ?_, fun t' => ?_, fun t' e' he' => ?_⟩
    · simp only [SB.say, SB.setThr, List.mem_append, List.mem_singleton, reduceCtorEq, or_false] at ht' ⊢
      split
      · rfl
      · exact h1 t' ht'
    · simp only [SB.say, SB.setThr, List.pairwise_append]
      exact ⟨h2 t', by simp, by simp [works]⟩
    · simp only [SB.say, SB.setThr, List.mem_append, List.mem_singleton, Ev.crashed.injEq] at he'
      rcases he' with he' | ⟨-, rfl⟩
      · exact h3 t' e' he'
      · exact .inl rfl

theorem nap_inv (he : (init cfg).napExec e cfg as = some s) : s.sb.Inv := by
  obtain ⟨bs, u, h1, -, h3, -⟩ := C173_as_if he
  have hg := (good h1).inv
  obtain ⟨g1, g2, g3, g4, g5, g6, g7, g8, g9, g10, g11⟩ := hg
  rw [h3] at g1 g2 g3 g4 g5 g6 g7 g8 g9 g10 g11
  exact ⟨g1, g2, g3, g4, g5, g6, g7, g8, g9, g10, g11⟩

theorem nap_once (he : (init cfg).napExec e cfg as = some s) : s.Once (e := e) := by
  induction as using List.reverseRecOn generalizing s with
  | nil =>
    simp only [napExec, Option.some.injEq] at he
    subst he
    exact ⟨by simp [init, SB.init], by simp [init, SB.init], by simp [init, SB.init]⟩
  | append_singleton as a ih =>
    rw [napExec_append, Option.bind_eq_some_iff] at he
    obtain ⟨s1, h1, h2⟩ := he
    have h3 : s1.napStep e cfg a = some s := by
      simp only [napExec] at h2
      split at h2
      · rw [← h2]; assumption
      · cases h2
    exact (ih h1).step (nap_inv h1) h3

/-- **C173** the first `None` that the source returns is the last thing a reading thread gets from it: after it nothing is read or stored in that session. -/
theorem C173_first_none (he : (init cfg).napExec e cfg as = some s) (pre post : List (Ev V I)) (t : Nat) (hl : s.sb.log = pre ++ .read t none :: post) :
    ∀ x ∈ post, ¬ works t x := by
  have h := (nap_once he).last t
  rw [hl, List.pairwise_append, List.pairwise_cons] at h
  exact fun x hx => h.2.1.1 x hx rfl

/-- **C173** a thread that is to sleep (the source returned `None`, or with `auto_drop=False` the buffer is full) sets the stop event and closes the source
instead; the stream is not running any more. -/
theorem C173_dies (he : (init cfg).napExec e cfg as = some s) (t : Nat) (ht : s.sb.thr t = .sleeping) (ok : Bool) :
    ∃ n ≤ 3, ∃ s', s.napExec e cfg (List.replicate n (.act (.thr t)) ++ [.act (.close t ok)]) = some s' ∧ s'.sb.thr t = .done ∧
      (∃ new, s'.sb.log = s.sb.log ++ .crashed t e :: new ++ [.closed t ok]) ∧ s'.sb.running = false := by
  obtain ⟨k, hk⟩ := sleeping_event (nap_inv he) ht
  cases hf : s.sb.flag k with
  | true =>
    refine ⟨2, by omega, { s with sb := ((((s.sb.setThr t .fin1).say (.crashed t e)).setThr t .fin3).setThr t .done).say (.closed t ok) }, ?_, ?_, ⟨[], ?_⟩, ?_⟩
    · simp [List.replicate, napExec, napStep, step, SB.step, SB.thrGo, ht, SB.setThr, SB.say, hk, hf]
    · simp [SB.setThr, SB.say]
    · simp [SB.setThr, SB.say]
    · simp [SB.running, SB.setThr, SB.say, hk, hf]
  | false =>
    refine ⟨3, le_rfl, { s with sb := (((((s.sb.setThr t .fin1).say (.crashed t e)).setThr t .fin2).setEvent k |>.setThr t .fin3).setThr t .done).say (.closed t ok) },
      ?_, ?_, ⟨[.eventSet k], ?_⟩, ?_⟩
    · simp [List.replicate, napExec, napStep, step, SB.step, SB.thrGo, ht, SB.setThr, SB.setEvent, SB.say, hk, hf]
    · simp [SB.setThr, SB.say]
    · simp [SB.setThr, SB.say, SB.setEvent]
    · simp [SB.running, SB.setThr, SB.say, SB.setEvent, hk]

end

section
variable [LinearOrder K] [BEq V] [ReflBEq V] {e : PyErr} {cfg : SBCfg K V} {s s' : ASB K V I} {as : List (AAct K V I)}

theorem storedIn_unthrown (b : Nat) (l : List (Ev V I)) : storedIn b (l.filter unthrown) = storedIn b l := by
  induction l with
  | nil => rfl
  | cons x l ih => cases x <;> simp_all [storedIn, unthrown, List.filter_cons, List.filterMap_cons]

/-- **C173** so nothing stored is lost other than by eviction and `drop()`, and a consumer is handed, in order, a part of what was stored. -/
theorem C173_data (he : (init cfg).napExec e cfg as = some s) (b : Nat) :
    s.sb.items b <:+ storedIn b s.sb.log ∧ (∀ m, cfg.maxlen = some m → (s.sb.items b).length ≤ m) ∧
    ∀ i, (cfg.rdCfg i).peek = false → (∀ a ∈ as, OneUser b i a) → ∀ c, s.sb.view b = some c →
      (received c i ++ unreadOf c.ch i).Sublist (storedIn b s.sb.log) := by
  obtain ⟨bs, u, h1, h2, h3, h4, h5, -⟩ := C173_as_if he
  have hst : storedIn b u.sb.log = storedIn b s.sb.log := by
    rw [← storedIn_unthrown b u.sb.log, h4, storedIn_unthrown]
  have hit : u.sb.items b = s.sb.items b := by rw [h3]; rfl
  have hvw : u.sb.view b = s.sb.view b := by rw [h3]; rfl
  obtain ⟨k1, k2⟩ := C130_retained h1 b
  rw [hit, hst] at k1
  rw [hit] at k2
  refine ⟨k1, k2, fun i hp hu c hv => ?_⟩
  rw [← hst]
  refine C130_received b i hp (fun a ha => ?_) h1 c (by rw [hvw]; exact hv)
  cases a with
  | assign x => trivial
  | act y =>
    rcases h5 y ha with h | ⟨t, rfl⟩ | ⟨t, rfl⟩
    · exact hu _ h
    · exact trivial
    · exact trivial

end
end ASB
end S2P
