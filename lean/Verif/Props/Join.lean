import Verif.Model.Join
import Verif.Props.EndToEnd
/-
C65: `join()`. C66: what careful users (stop, join, start) get.
-/
namespace S2P
open Spec
variable {K V I : Type}
namespace JSB
variable [LinearOrder K] [BEq V] [ReflBEq V] {cfg : SBCfg K V} {s s' : JSB K V I} {x : JAct K V I} {xs ys : List (JAct K V I)}

/-- Before every `start()`, `join()` has returned for every session launched so far. (`start()` here is the moment it gets `start_lock`.) -/
def CarefulAt (s : JSB K V I) (x : JAct K V I) : Prop := x = .sb .start → ∀ t, Ev.launched t ∈ s.sb.log → JEv.joined t ∈ s.joins

def Careful (cfg : SBCfg K V) : JSB K V I → List (JAct K V I) → Prop
  | _, [] => True
  | s, x :: xs => s.CarefulAt x ∧ ∀ s', s.step cfg x = some s' → s'.Careful cfg xs

omit [ReflBEq V] in
theorem step_join (hs : s.step cfg x = some s') :
    (∃ a, x = .sb a ∧ s.sb.step cfg a = some s'.sb ∧ s'.joins = s.joins ∧ s'.waits = s.waits) ∨
    (s'.sb = s.sb ∧ (∀ a, x ≠ .sb a) ∧
      ((s'.joins = s.joins ∧ ∃ c t, x = .look c ∧ s.sb.thread = some t ∧ s'.waits c = some t) ∨
       (s'.joins = s.joins ++ [.raised .attributeError] ∧ s.sb.thread = none) ∨
       ∃ c t, x = .wait c ∧ s.waits c = some t ∧
        ((s'.joins = s.joins ++ [.raised .runtimeError] ∧ s.sb.thr t = .fresh) ∨ (s'.joins = s.joins ++ [.joined t] ∧ s.sb.thr t = .done)))) := by
  cases x with
  | sb a =>
    simp only [step, Option.map_eq_some_iff] at hs
    obtain ⟨y, hy, rfl⟩ := hs
    exact .inl ⟨a, rfl, hy, rfl, rfl⟩
  | look c =>
    simp only [step] at hs
    split at hs
    · split at hs <;> (injection hs with hs; subst hs)
      · exact .inr ⟨rfl, by simp, .inr (.inl ⟨rfl, ‹_›⟩)⟩
      · exact .inr ⟨rfl, by simp, .inl ⟨rfl, c, _, rfl, ‹_›, by simp [setWait]⟩⟩
    · simp at hs
  | wait c =>
    simp only [step] at hs
    split at hs
    · simp at hs
    · split at hs
      · injection hs with hs; subst hs
        exact .inr ⟨rfl, by simp, .inr (.inr ⟨c, _, rfl, ‹_›, .inl ⟨rfl, ‹_›⟩⟩)⟩
      · injection hs with hs; subst hs
        exact .inr ⟨rfl, by simp, .inr (.inr ⟨c, _, rfl, ‹_›, .inr ⟨rfl, ‹_›⟩⟩)⟩
      · simp at hs

omit [ReflBEq V] in
theorem exec_sb (he : s.exec cfg xs = some s') : s.sb.exec cfg (sbActs xs) = some s'.sb := by
  induction xs generalizing s with
  | nil => simp only [exec, Option.some.injEq] at he; subst he; rfl
  | cons x xs ih =>
    simp only [exec] at he
    split at he
    swap
    · simp at he
    rename_i s1 hs
    have := ih he
    rcases step_join hs with ⟨a, rfl, h, -⟩ | ⟨h, h', -⟩
    · simp only [sbActs, SB.exec, h]; exact this
    · rw [← h]
      cases x with
      | sb a => exact absurd rfl (h' a)
      | _ => exact this

omit [ReflBEq V] in
theorem exec_ind {P : JSB K V I → Prop} (hstep : ∀ s x s', P s → s.step cfg x = some s' → P s') (h : P s) (he : s.exec cfg xs = some s') : P s' := by
  induction xs generalizing s with
  | nil => simp only [exec, Option.some.injEq] at he; exact he ▸ h
  | cons x xs ih =>
    simp only [exec] at he
    split at he
    · exact ih (hstep _ _ _ h ‹_›) he
    · simp at he

omit [ReflBEq V] in
theorem done_stays {y y' : SB K V I} {a : SBAct K V I} (hi : y.Inv) (hs : y.step cfg a = some y') (t : Nat) (h : y.thr t = .done) : y'.thr t = .done := by
  have h1 := hi.noThr
  have h8 := hi.ph
  clear hi
  have hst := SB.step_to hs
  clear hs
  cases hst
  all_goals try simp only [SB.say, SB.setThr, SB.setBuf, SB.setEvent, SB.setNext, SB.setDrop, SB.setInfo, SB.newSess, SB.running] at *
  all_goals first
    | exact h
    | grind [SB.PhaseOk]

omit [ReflBEq V] in
theorem joined_done (he : (JSB.init : JSB K V I).exec cfg xs = some s) (t : Nat) (h : JEv.joined t ∈ s.joins) : s.sb.thr t = .done := by
  refine (exec_ind (P := fun s : JSB K V I => s.sb.Inv ∧ ∀ t, JEv.joined t ∈ s.joins → s.sb.thr t = .done) ?_ ⟨SB.Inv.init, ?_⟩ he).2 t h
  · intro s x s' ⟨hi, ih⟩ hs
    rcases step_join hs with ⟨a, rfl, h, h2, -⟩ | ⟨h, -, h2⟩
    · exact ⟨hi.step h, fun t ht => done_stays hi h t (ih t (h2 ▸ ht))⟩
    · rw [h]
      refine ⟨hi, fun t ht => ?_⟩
      rcases h2 with ⟨h2, -⟩ | ⟨h2, -⟩ | ⟨c, t', -, -, ⟨h2, -⟩ | ⟨h2, h3⟩⟩ <;> rw [h2] at ht
      · exact ih t ht
      · exact ih t (by simpa using ht)
      · exact ih t (by simpa using ht)
      · rcases List.mem_append.1 ht with ht | ht
        · exact ih t ht
        · simp at ht; subst ht; exact h3
  · intro t h; simp [init] at h

/-- **C65** when `join()` has returned for a session, its thread has closed the source (once), its readers see `is_stopped`, and from then on the
thread does nothing more, whatever happens. Every execution. -/
theorem C65_join_means_over (he : (JSB.init : JSB K V I).exec cfg xs = some s) (t : Nat) (h : JEv.joined t ∈ s.joins) :
    s.sb.log.countP (isCloseBy t) = 1 ∧ Ev.eventSet t ∈ s.sb.log ∧ (∀ c, s.sb.view t = some c → c.stopped = true) ∧
    ∀ ys s', s.exec cfg ys = some s' → ∃ l, s'.sb.log = s.sb.log ++ l ∧ ∀ e ∈ l, byThread t e = false := by
  have hd := joined_done he t h
  have he' : SB.init.exec cfg (sbActs xs) = some s.sb := exec_sb he
  have hc := (SB.C39_closed_once he' t).1 hd
  have hcl : ∃ ok, Ev.closed t ok ∈ s.sb.log := by
    obtain ⟨e, h1, h2⟩ := List.countP_pos_iff.1 (by omega : 0 < s.sb.log.countP (isCloseBy t))
    cases e <;> simp [isCloseBy] at h2
    rename_i t' ok
    subst h2
    exact ⟨ok, h1⟩
  obtain ⟨ok, hcl⟩ := hcl
  have hset : Ev.eventSet t ∈ s.sb.log := by
    obtain ⟨pre, post, hp⟩ := List.append_of_mem hcl
    have := SB.C39_stopped_before_close he' t pre _ post hp (by simp [isCloseBy])
    rw [hp]; exact List.mem_append_left _ this
  refine ⟨hc, hset, fun c hv => SB.C41_readers_see_stop he' t ok hcl c hv, fun ys s' hys => ?_⟩
  obtain ⟨l, hl⟩ : ∃ l, s'.sb.log = s.sb.log ++ l := by
    have key : ∀ (as : List (SBAct K V I)) (y y' : SB K V I), y.exec cfg as = some y' → ∃ l, y'.log = y.log ++ l := by
      intro as
      induction as with
      | nil => intro y y' h; simp only [SB.exec, Option.some.injEq] at h; subst h; exact ⟨[], by simp⟩
      | cons a as ih =>
        intro y y' h
        simp only [SB.exec] at h
        split at h
        · obtain ⟨l, hl, -⟩ := SB.log_step ‹_›
          obtain ⟨l', hl'⟩ := ih _ _ h
          exact ⟨l ++ l', by rw [hl', hl, List.append_assoc]⟩
        · simp at h
    exact key _ _ _ (exec_sb hys)
  refine ⟨l, hl, fun e hel => ?_⟩
  have he2 : SB.init.exec cfg (sbActs xs ++ sbActs ys) = some s'.sb := by
    rw [SB.exec_append, he']; exact exec_sb hys
  have hp := SB.C39_nothing_after_close he2 t
  rw [hl, List.pairwise_append] at hp
  exact hp.2.2 _ hcl e hel (by simp [isCloseBy])

omit [ReflBEq V] in
/-- **C65** `join()` blocks exactly while the thread runs: a waiting caller can go on iff the thread has ended (it returns) or was never started (it raises
`RuntimeError`). -/
theorem C65_join_unblocks (c t : Nat) (hw : s.waits c = some t) :
    (∃ s', s.step cfg (.wait c) = some s') ↔ s.sb.thr t = .done ∨ s.sb.thr t = .fresh := by
  simp only [step, hw]
  cases s.sb.thr t <;> simp

/-! ### C66 -/

/-- What carefulness gives. -/
structure Calm (s : JSB K V I) : Prop where
  done : ∀ t, JEv.joined t ∈ s.joins → s.sb.thr t = .done
  launched : ∀ t, (s.sb.thr t).idle = false → Ev.launched t ∈ s.sb.log
  quiet : s.sb.start ≠ none → ∀ t, (s.sb.thr t).idle = true

omit [ReflBEq V] in
theorem calm_sb {y y' : SB K V I} {a : SBAct K V I} (hi : y.Inv) (hs : y.step cfg a = some y')
    (h1 : ∀ t, (y.thr t).idle = false → Ev.launched t ∈ y.log) (h2 : y.start ≠ none → ∀ t, (y.thr t).idle = true)
    (hst : a = .start → ∀ t, (y.thr t).idle = true) :
    (∀ t, (y'.thr t).idle = false → Ev.launched t ∈ y'.log) ∧ (y'.start ≠ none → ∀ t, (y'.thr t).idle = true) := by
  have h0 := hi.ph
  clear hi
  have hst' := SB.step_to hs
  clear hs
  cases hst'
  all_goals try simp only [SB.say, SB.setThr, SB.setBuf, SB.setEvent, SB.setNext, SB.setDrop, SB.setInfo, SB.newSess, SB.running] at *
  all_goals first
    | exact ⟨h1, h2⟩
    | grind [TPC.idle, SB.PhaseOk]

omit [ReflBEq V] in
theorem Calm.step (hi : s.sb.Inv) (h : Calm s) (hs : s.step cfg x = some s') (hc : s.CarefulAt x) : Calm s' := by
  obtain ⟨h1, h2, h3⟩ := h
  rcases step_join hs with ⟨a, rfl, hsb, hj, -⟩ | ⟨hsb, -, hj⟩
  · have hst : a = .start → ∀ t, (s.sb.thr t).idle = true := by
      rintro rfl t
      by_contra hn
      have hn : (s.sb.thr t).idle = false := by simpa using hn
      have := h1 t (hc rfl t (h2 t hn))
      rw [this] at hn; simp [TPC.idle] at hn
    obtain ⟨k2, k3⟩ := calm_sb hi hsb h2 h3 hst
    exact ⟨fun t ht => done_stays hi hsb t (h1 t (hj ▸ ht)), k2, k3⟩
  · refine ⟨fun t ht => ?_, by rw [hsb]; exact h2, by rw [hsb]; exact h3⟩
    rw [hsb]
    rcases hj with ⟨hj, -⟩ | ⟨hj, -⟩ | ⟨c, t', -, -, ⟨hj, -⟩ | ⟨hj, hd⟩⟩ <;> rw [hj] at ht
    · exact h1 t ht
    · exact h1 t (by simpa using ht)
    · exact h1 t (by simpa using ht)
    · rcases List.mem_append.1 ht with ht | ht
      · exact h1 t ht
      · simp at ht; subst ht; exact hd

omit [ReflBEq V] in
theorem careful_settled_from (hi : s.sb.Inv) (h : Calm s) (hc : s.Careful cfg xs) (he : s.exec cfg xs = some s') : s.sb.Settled cfg (sbActs xs) := by
  induction xs generalizing s with
  | nil => trivial
  | cons x xs ih =>
    simp only [exec] at he
    split at he
    swap
    · simp at he
    rename_i s1 hs
    have hcalm := h.step hi hs hc.1
    rcases step_join hs with ⟨a, rfl, hsb, -⟩ | ⟨hsb, hx, -⟩
    · have := ih (hi.step hsb) hcalm (hc.2 _ hs) he
      refine ⟨fun _ hw t => h.quiet (by rw [hw]; simp) t, fun y hy => ?_⟩
      rw [hsb] at hy; injection hy with hy; subst hy
      exact this
    · have := ih (hsb ▸ hi) hcalm (hc.2 _ hs) he
      cases x with
      | sb a => exact absurd rfl (hx a)
      | _ => rw [hsb] at this; exact this

omit [ReflBEq V] in
/-- **C66** careful executions are settled, so that everything proved for settled executions holds for them. -/
theorem C66_careful_settled (he : (JSB.init : JSB K V I).exec cfg xs = some s) (hc : (JSB.init : JSB K V I).Careful cfg xs) :
    SB.init.exec cfg (sbActs xs) = some s.sb ∧ SB.init.Settled cfg (sbActs xs) :=
  ⟨exec_sb he, careful_settled_from (s := JSB.init) SB.Inv.init
    ⟨fun t h => by simp [init] at h, fun t h => by simp [init, SB.init, TPC.idle] at h, fun h => by simp [init, SB.init] at h⟩ hc he⟩

/-- **C66** what careful users get, all settings, sources, consumers and schedules: one thread at a time uses the source; an item is stored in the buffer
of the session whose thread read it; what the source returned in a session is stored in order, up to one item on its way or refused; with
`auto_drop=False` nothing leaves a buffer but by `drop()`; the calls on the source obey `open`, `read`*, `close` and are balanced when nothing runs (if
`source.info` does not raise). -/
theorem C66_careful (he : (JSB.init : JSB K V I).exec cfg xs = some s) (hc : (JSB.init : JSB K V I).Careful cfg xs) :
    (∀ t t', (s.sb.thr t).idle = false → (s.sb.thr t').idle = false → t = t') ∧
    (∀ t b v, Ev.stored t b v ∈ s.sb.log → t = b) ∧
    (∀ t, dataRead t s.sb.log = storedIn t s.sb.log ++ (s.sb.thr t).inHand ++ refusedBy t s.sb.log ∧
      ((s.sb.thr t).inHand ++ refusedBy t s.sb.log).length ≤ 1) ∧
    (cfg.autoDrop = false → ∀ b, storedIn b s.sb.log = droppedFrom b s.sb.log ++ s.sb.items b) ∧
    ((∀ k, Ev.infoRaised k ∉ s.sb.log) → protocolOk false s.sb.log ∧
      ((∀ t, (s.sb.thr t).idle = true) → s.sb.start = none → s.sb.log.countP isOpen = s.sb.log.countP isClose)) := by
  obtain ⟨h1, h2⟩ := C66_careful_settled he hc
  refine ⟨SB.C37_one_reader_partial h1 h2, SB.C76_own_buffer_partial h1 h2, fun t => ?_, fun ha => SB.C33_nothing_lost_partial ha h1 h2,
    SB.C78_protocol_partial h1 h2⟩
  obtain ⟨k1, k2, k3⟩ := SB.C40_stored_in_order_partial h1 h2 t
  refine ⟨k1, ?_⟩
  cases hr : refusedBy t s.sb.log with
  | nil => cases s.sb.thr t <;> simp [TPC.inHand]
  | cons v l =>
    have := k3 (by rw [hr]; simp)
    rw [hr] at k2
    cases ht : s.sb.thr t <;> rw [ht] at this <;> simp_all [TPC.over, TPC.inHand]

/-- **C66** and sessions that are over do not change any more, but for a `drop()` that had looked up the buffer before. -/
theorem C66_old_frozen (he : (JSB.init : JSB K V I).exec cfg (xs ++ ys) = some s') (hc : (JSB.init : JSB K V I).Careful cfg (xs ++ ys))
    (he0 : (JSB.init : JSB K V I).exec cfg xs = some s) (b : Nat) (hold : b + 1 < s.sb.n) :
    (∃ d, droppedFrom b s'.sb.log = droppedFrom b s.sb.log ++ d ∧ s.sb.items b = d ++ s'.sb.items b) ∧
    ((∀ c n, s.sb.drops c ≠ some (b, n)) → s'.sb.items b = s.sb.items b) := by
  obtain ⟨h1, h2⟩ := C66_careful_settled he hc
  have happ : ∀ l : List (JAct K V I), sbActs (l ++ ys) = sbActs l ++ sbActs ys := by
    intro l
    induction l with
    | nil => rfl
    | cons x l ih => cases x <;> simp only [List.cons_append, sbActs, ih]
  rw [happ] at h1 h2
  have h3 : SB.init.exec cfg (sbActs xs) = some s.sb := exec_sb he0
  rw [SB.exec_append, h3] at h1
  exact SB.C76_old_frozen_partial _ _ h3 h1 h2 b hold

/-- **C66**, the whole path: with an unbounded buffer, what the source returned in a session is what a consumer received, then what it can still read,
then at most one item on its way or refused. -/
theorem C66_source_to_consumer (hm : cfg.maxlen = none) (hd : cfg.autoDrop = true) (b i : Nat) (hpk : (cfg.rdCfg i).peek = false)
    (he : (JSB.init : JSB K V I).exec cfg xs = some s) (hc : (JSB.init : JSB K V I).Careful cfg xs) (hu : ∀ a, .sb a ∈ xs → SB.OneUser b i a)
    (c : Cons K V) (hv : s.sb.view b = some c) :
    dataRead b s.sb.log = received c i ++ unreadOf c.ch i ++ (s.sb.thr b).inHand ++ refusedBy b s.sb.log ∧
    ((s.sb.thr b).inHand ++ refusedBy b s.sb.log).length ≤ 1 := by
  obtain ⟨h1, h2⟩ := C66_careful_settled he hc
  refine SB.C84_source_to_consumer_partial hm hd b i hpk (fun a ha => hu a ?_) h1 h2 c hv
  clear h1 h2 he hc hu
  induction xs with
  | nil => simp [sbActs] at ha
  | cons x xs ih =>
    cases x with
    | sb a' =>
      rcases List.mem_cons.1 ha with rfl | ha
      · simp
      · exact List.mem_cons_of_mem _ (ih ha)
    | _ => exact List.mem_cons_of_mem _ (ih ha)

/-- Calls of `start()`. -/
def startsIn : List (SBAct K V I) → Nat
  | [] => 0
  | .start :: as => startsIn as + 1
  | _ :: as => startsIn as

omit [ReflBEq V] in
theorem before_start {y y' : SB K V I} {a : SBAct K V I} (hs : y.step cfg a = some y') (ha : a ≠ .start) (h1 : y.start = none) (h2 : ∀ t, y.thr t = .unborn) :
    y'.start = none ∧ ∀ t, y'.thr t = .unborn := by
  have hst := SB.step_to hs
  clear hs
  cases hst
  all_goals try simp only [SB.say, SB.setThr, SB.setBuf, SB.setEvent, SB.setNext, SB.setDrop, SB.setInfo, SB.newSess, SB.running] at *
  all_goals first
    | exact ⟨h1, h2⟩
    | (simp_all; done)
    | grind

omit [ReflBEq V] in
theorem after_start {y y' : SB K V I} {a : SBAct K V I} (hs : y.step cfg a = some y') (ha : a ≠ .start) (h : y.start ≠ none → ∀ t, (y.thr t).idle = true) :
    y'.start ≠ none → ∀ t, (y'.thr t).idle = true := by
  have hst := SB.step_to hs
  clear hs
  cases hst
  all_goals try simp only [SB.say, SB.setThr, SB.setBuf, SB.setEvent, SB.setNext, SB.setDrop, SB.setInfo, SB.newSess, SB.running] at *
  all_goals first
    | exact h
    | grind [TPC.idle]

omit [ReflBEq V] in
/-- **C66** an execution in which the stream is started once is settled as well: without restarts, everything proved for settled executions holds. -/
theorem C66_one_start_settled {as : List (SBAct K V I)} {y : SB K V I} (he : SB.init.exec cfg as = some y) (h1 : startsIn as ≤ 1) :
    SB.init.Settled cfg as := by
  have later : ∀ (as : List (SBAct K V I)) (s s' : SB K V I), startsIn as = 0 → s.exec cfg as = some s' → (s.start ≠ none → ∀ t, (s.thr t).idle = true) →
      s.Settled cfg as := by
    intro as
    induction as with
    | nil => intros; trivial
    | cons a as ih =>
      intro s s' h0 he hq
      have hne : a ≠ .start := by rintro rfl; simp [startsIn] at h0
      simp only [SB.exec] at he
      split at he
      · rename_i s1 hs
        refine ⟨fun _ hw t => hq (by rw [hw]; simp) t, fun s2 hs2 => ?_⟩
        rw [hs] at hs2; injection hs2 with hs2; subst hs2
        refine ih _ _ ?_ he (after_start hs hne hq)
        cases a <;> simp_all [startsIn]
      · simp at he
  have first : ∀ (as : List (SBAct K V I)) (s s' : SB K V I), startsIn as ≤ 1 → s.exec cfg as = some s' → s.start = none → (∀ t, s.thr t = .unborn) →
      s.Settled cfg as := by
    intro as
    induction as with
    | nil => intros; trivial
    | cons a as ih =>
      intro s s' h1 he hn hu
      simp only [SB.exec] at he
      split at he
      swap
      · simp at he
      rename_i s1 hs
      by_cases ha : a = .start
      · subst ha
        refine ⟨fun h => by simp at h, fun s2 hs2 => ?_⟩
        rw [hs] at hs2; injection hs2 with hs2; subst hs2
        refine later as s1 s' (by simp [startsIn] at h1; omega) he ?_
        intro _ t
        have hst := SB.step_to hs
        cases hst
        simp [hu, TPC.idle]
      · obtain ⟨k1, k2⟩ := before_start hs ha hn hu
        refine ⟨fun _ hw => by rw [hn] at hw; simp at hw, fun s2 hs2 => ?_⟩
        rw [hs] at hs2; injection hs2 with hs2; subst hs2
        refine ih s1 s' ?_ he k1 k2
        cases a <;> simp_all [startsIn]
  exact first as SB.init y h1 he rfl (fun _ => rfl)

end JSB
end S2P
