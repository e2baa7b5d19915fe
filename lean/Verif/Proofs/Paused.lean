import Verif.Spec.Run
import Verif.Props.LoopEnd
import Verif.Props.Served
import Verif.Props.Alive
import Verif.Props.CounterLoop
/-
Infinite executions of a stream buffer that may pause, under a weakly fair scheduler: what is bound to happen does happen. Used for C134 (no pauses) and C164
(steps of the lock are pauses).
-/
namespace S2P
open Spec
variable {K V I : Type}
namespace SB
variable [LinearOrder K] [BEq V] [ReflBEq V] {cfg : SBCfg K V}

/-- A step, or none. -/
def stepS (cfg : SBCfg K V) (s : SB K V I) : Option (SBAct K V I) → Option (SB K V I)
  | none => some s
  | some a => s.step cfg a

/-- An infinite execution of a stream buffer, with pauses. -/
abbrev Paused (I : Type) (cfg : SBCfg K V) : Type := Run (SB.stepS cfg) (SB.init : SB K V I)

/-- From within a loop: still in it, or it has ended by itself, the session being stopped. -/
theorem loop_stays_exec {as bs : List (SBAct K V I)} {s s' : SB K V I} (b i : Nat) (hpk : (cfg.rdCfg i).peek = false)
    (hstr : (cfg.rdCfg i).strict = false) (h0 : SB.init.exec cfg as = some s) (c : Cons K V) (hv : s.view b = some c)
    (hin : InLoop (c.pc i)) (hstay : ∀ a ∈ bs, isLeave b i a = false) (he : s.exec cfg bs = some s') :
    ∃ c' ys, s'.view b = some c' ∧ c'.evtsOf i = c.evtsOf i ++ ys ∧ (InLoop (c'.pc i) ∨ (.loopDone ∈ ys ∧ c'.stopped = true)) := by
  induction bs using List.reverseRecOn generalizing s' with
  | nil => simp only [SB.exec, Option.some.injEq] at he; subst he; exact ⟨c, [], hv, by simp, .inl hin⟩
  | append_singleton bs a ih =>
    rw [exec_append] at he
    obtain ⟨s1, h1, he⟩ := Option.bind_eq_some_iff.1 he
    have he1 := he
    simp only [SB.exec] at he
    split at he
    swap
    · simp at he
    rename_i s2 hs
    injection he with he; subst he
    have h01 : SB.init.exec cfg (as ++ bs) = some s1 := by rw [exec_append, h0]; exact h1
    obtain ⟨c1, ys, hv1, hys, hor⟩ := ih (fun a ha => hstay a (List.mem_append_left _ ha)) h1
    obtain ⟨c2, hv2, hgo⟩ := view_pc (good h01).inv hs b i c1 hv1
    have hst : c1.stopped = true → c2.stopped = true := by
      intro h
      by_contra h2
      have := view_stopped h01 he1 b c1 c2 hv1 hv2 (by simpa using h2)
      rw [h] at this; simp at this
    refine ⟨c2, ?_⟩
    rcases hgo with ⟨-, hgo⟩ | ⟨-, hpc, hev, -⟩
    · rcases hor with h | ⟨h, hs⟩
      · cases hp : c1.pc i with
        | iterRead =>
          obtain ⟨-, -, -, k4⟩ := iter_read_step (view_reach h01 b c1 hv1) i hstr hpk hp hgo
          rcases k4 with ⟨-, k5, k6⟩ | ⟨-, k5, k6⟩
          · exact ⟨ys, hv2, by rw [k6, hys], .inl (by rw [k5]; trivial)⟩
          · exact ⟨ys ++ [_], hv2, by rw [k6, hys, List.append_assoc], .inl (by rw [k5]; trivial)⟩
        | iterYield | iterSleep =>
          simp only [Cons.go, hp, Option.some.injEq] at hgo
          subst hgo
          exact ⟨ys, hv2, hys, .inl (by simp [Cons.goto, InLoop])⟩
        | iterCheck | iterCheck2 =>
          simp only [Cons.go, hp] at hgo
          split at hgo <;> injection hgo with hgo <;> subst hgo
          · have : ((c1.emit i .loopDone).goto i .idle).evtsOf i = (c1.emit i .loopDone).evtsOf i := rfl
            exact ⟨ys ++ [.loopDone], hv2, by rw [this, Cons.evtsOf_emit, if_pos rfl, hys, List.append_assoc], .inr ⟨by simp, hst ‹_›⟩⟩
          · exact ⟨ys, hv2, hys, .inl (by simp [Cons.goto, InLoop])⟩
        | _ => rw [hp] at h; exact h.elim
      · rcases step_emits (a := .go i) (cfg := cfg.rdCfg) hgo with h' | ⟨j, e', h', -⟩
        · exact ⟨ys, hv2, by simp only [Cons.evtsOf, h'] at hys ⊢; exact hys, .inr ⟨h, hst hs⟩⟩
        · have : c1.evtsOf i <+: c2.evtsOf i := by
            simp only [Cons.evtsOf, h', List.filter_append, List.map_append]
            exact List.prefix_append _ _
          obtain ⟨zs, hz⟩ := this
          exact ⟨ys ++ zs, hv2, by rw [← List.append_assoc, ← hys, hz], .inr ⟨by simp [h], hst hs⟩⟩
    · refine ⟨ys, hv2, by rw [hev, hys], hor.imp (fun h => ?_) fun h => ⟨h.1, hst h.2⟩⟩
      rcases hpc with h' | h' | ⟨h', -⟩
      · rw [h'] at h; exact h.elim
      · rw [h']; exact h
      · rw [hstay a (by simp)] at h'; cases h'

namespace Paused
variable {r : Paused I cfg}

/-- The steps among the `n` choices from position `k` on. -/
def acts (r : Paused I cfg) (k n : Nat) : List (SBAct K V I) := (r.seg k n).filterMap id

/-- Every restart finds the threads of earlier sessions ended. -/
def Settled (r : Paused I cfg) : Prop := ∀ k a, r.act k = some a → (r.st k).SettledAt a

/-- The thread of session `t`, once started and until it has closed the source, gets its turns (and the source's `read()` and `close()` return or raise). -/
def FairThread (r : Paused I cfg) (t : Nat) : Prop :=
  r.WeakFair (fun s => Ev.launched t ∈ s.log ∧ ∀ ok, Ev.closed t ok ∉ s.log) (fun a => a.any (·.ofThread t))

/-- The consumer of reader `i` of session `b`, while inside a `for` loop, gets its turns (and the body of the loop ends). -/
def FairLoop (r : Paused I cfg) (b i : Nat) : Prop := r.WeakFair (fun s => ∃ c, s.view b = some c ∧ InLoop (c.pc i)) (fun a => a.any (isGo b i))

omit [ReflBEq V] in
theorem acts_succ (r : Paused I cfg) (k n : Nat) : r.acts k (n + 1) = r.acts k n ++ (r.act (k + n)).toList := by
  simp only [acts, Run.seg_succ, List.filterMap_append]
  cases r.act (k + n) <;> rfl

omit [ReflBEq V] in
theorem acts_add (r : Paused I cfg) (k n m : Nat) : r.acts k (n + m) = r.acts k n ++ r.acts (k + n) m := by
  simp only [acts, Run.seg_add, List.filterMap_append]

omit [ReflBEq V] in
theorem mem_acts (r : Paused I cfg) (k n : Nat) (a : SBAct K V I) (h : a ∈ r.acts k n) : ∃ j, k ≤ j ∧ j < k + n ∧ r.act j = some a := by
  obtain ⟨x, h1, h2⟩ := List.mem_filterMap.1 h
  obtain ⟨j, h3, h4, h5⟩ := r.mem_seg _ _ _ h1
  exact ⟨j, h3, h4, by rw [← h5]; exact h2⟩

omit [ReflBEq V] in
theorem many (r : Paused I cfg) {alive : SB K V I → Prop} {p : SBAct K V I → Bool} (hf : r.WeakFair alive (fun a => a.any p)) (k : Nat)
    (ha : ∀ j, k ≤ j → alive (r.st j)) (n : Nat) : ∃ m, n ≤ (r.acts k m).countP p := by
  obtain ⟨m, hm⟩ := r.many_weak hf k ha n
  refine ⟨m, ?_⟩
  have e : ∀ l : List (Option (SBAct K V I)), (l.filterMap id).countP p = l.countP (fun a => a.any p) := by
    intro l
    induction l with
    | nil => rfl
    | cons x l ih =>
      have ih' : List.countP p (List.filterMap (fun x => x) l) = List.countP (fun a => Option.any p a) l := ih
      cases x <;> simp [List.countP_cons, ih']
  rw [acts, e]
  exact hm

omit [ReflBEq V] in
theorem exec_seg (r : Paused I cfg) (k n : Nat) : (r.st k).exec cfg (r.acts k n) = some (r.st (k + n)) := by
  induction n with
  | zero => simp [acts, Run.seg, SB.exec]
  | succ n ih =>
    rw [acts_succ, exec_append, ih]
    have := r.next (k + n)
    cases ha : r.act (k + n) with
    | none => rw [ha] at this; simpa [SB.exec, stepS, Nat.add_assoc] using this
    | some a => rw [ha] at this; simp only [Option.bind, Option.toList, SB.exec]; simp only [stepS] at this; rw [this, Nat.add_assoc]

omit [ReflBEq V] in
theorem exec_to (r : Paused I cfg) (n : Nat) : (SB.init : SB K V I).exec cfg (r.acts 0 n) = some (r.st n) := by
  have := exec_seg r 0 n
  rwa [r.zero, Nat.zero_add] at this

omit [ReflBEq V] in
theorem settled_seg (h : Settled r) (k n : Nat) : (r.st k).Settled cfg (r.acts k n) := by
  induction n generalizing k with
  | zero => trivial
  | succ n ih =>
    rw [Nat.add_comm, acts_add]
    have e : r.acts k 1 = (r.act k).toList := by
      have := acts_succ r k 0
      simpa [acts, Run.seg] using this
    have hn := r.next k
    rw [e]
    cases ha : r.act k with
    | none =>
      rw [ha] at hn
      simp only [stepS, Option.some.injEq] at hn
      rw [hn]
      exact ih (k + 1)
    | some a =>
      rw [ha] at hn
      refine ⟨h k a ha, fun s' hs' => ?_⟩
      simp only [stepS] at hn
      rw [hn] at hs'
      injection hs' with hs'
      subst hs'
      exact ih (k + 1)

omit [ReflBEq V] in
theorem settled_to (h : Settled r) (n : Nat) : (SB.init : SB K V I).Settled cfg (r.acts 0 n) := by
  have := settled_seg h 0 n
  rwa [r.zero] at this

omit [ReflBEq V] in
theorem log_step {s s' : SB K V I} {a : SBAct K V I} (hs : s.step cfg a = some s') : s.log <+: s'.log := by
  have hst := step_to hs
  clear hs
  cases hst <;> simp [say, setThr, setBuf, setEvent, setNext, setDrop, setInfo, newSess]

omit [ReflBEq V] in
theorem log_mono (r : Paused I cfg) {k j : Nat} (h : k ≤ j) : (r.st k).log <+: (r.st j).log := by
  obtain ⟨n, rfl⟩ := Nat.exists_eq_add_of_le h
  exact exec_ind (P := fun t : SB K V I => (r.st k).log <+: t.log) (fun t a t' ht hs => ht.trans (log_step hs)) (List.prefix_refl _) (exec_seg r k n)

/-- once the stop event of a session is set, by `stop()` or because its thread died, its source is closed, sooner or later. -/
theorem stop_closes (hset : Settled r) (t k : Nat) (hf : FairThread r t) (hl : Ev.launched t ∈ (r.st k).log) (hs : Ev.eventSet t ∈ (r.st k).log) :
    ∃ j ok, k ≤ j ∧ Ev.closed t ok ∈ (r.st j).log := by
  by_contra hno
  simp only [not_exists, not_and] at hno
  obtain ⟨m, hm⟩ := many r hf k (fun j hj => ⟨(log_mono r hj).subset hl, fun ok h => hno j ok hj h⟩) 9
  have := (C77_stop_prompt_partial _ _ (exec_to r k) (exec_seg r k m) (settled_seg hset k m) (settled_to hset k) t hs).1
  omega

/-- an exception of `read()`, of the append or in the loop ends the session: its source is closed, sooner or later. Any execution. -/
theorem death_closes (t k : Nat) (hf : FairThread r t) (hl : Ev.launched t ∈ (r.st k).log) (hd : Died (r.st k).log t) :
    ∃ j ok, k ≤ j ∧ Ev.closed t ok ∈ (r.st j).log := by
  by_contra hno
  simp only [not_exists, not_and] at hno
  obtain ⟨m, hm⟩ := many r hf k (fun j hj => ⟨(log_mono r hj).subset hl, fun ok h => hno j ok hj h⟩) 4
  have := (C90_death_is_final (exec_to r k) t hd (exec_seg r k m)).2.1
  omega

/-- `auto_drop=True`: the source is read again and again, until it is closed. Any execution. -/
theorem reads_on (ha : cfg.autoDrop = true) (t k : Nat) (hf : FairThread r t) (hl : Ev.launched t ∈ (r.st k).log) (n : Nat) :
    ∃ j, k ≤ j ∧ ((∃ ok, Ev.closed t ok ∈ (r.st j).log) ∨ n ≤ (r.st j).log.countP (isReadBy t)) := by
  by_contra hno
  simp only [not_exists, not_and, not_or] at hno
  obtain ⟨m, hm⟩ := many r hf k (fun j hj => ⟨(log_mono r hj).subset hl, fun ok h => (hno j hj).1 ok h⟩) (6 * n + 9 + 1)
  obtain ⟨l, h1, h2⟩ := C86_keeps_reading_auto ha (exec_to r k) t (exec_seg r k m)
  have := (hno (k + m) (by omega)).2
  rw [h1, List.countP_append] at this
  omega

omit [ReflBEq V] in
/-- A buffer once made stays. -/
theorem view_stays {k : Nat} {b : Nat} {c : Cons K V} (hv : (r.st k).view b = some c) {j : Nat} (h : k ≤ j) : ∃ c', (r.st j).view b = some c' := by
  obtain ⟨n, rfl⟩ := Nat.exists_eq_add_of_le h
  induction n with
  | zero => exact ⟨c, hv⟩
  | succ n ih =>
    obtain ⟨c1, h1⟩ := ih (by omega)
    have hn := r.next (k + n)
    cases ha : r.act (k + n) with
    | none =>
      rw [ha] at hn
      simp only [stepS, Option.some.injEq] at hn
      exact ⟨c1, by rw [← Nat.add_assoc, ← hn]; exact h1⟩
    | some a =>
      rw [ha] at hn
      obtain ⟨c2, h2, -⟩ := view_pc (good (exec_to r (k + n))).inv hn b 0 c1 h1
      exact ⟨c2, h2⟩

/-- unbounded buffer, `auto_drop=True`: a `for` loop (default arguments) over a reader of a session is given everything that has been stored, sooner or
later, in order; or the session is stopped first. -/
theorem loop_gets_all (hm : cfg.maxlen = none) (hd : cfg.autoDrop = true) (b i k : Nat) (hpk : (cfg.rdCfg i).peek = false)
    (hstr : (cfg.rdCfg i).strict = false) (hu : ∀ j a, r.act j = some a → OneUser b i a) (hf : FairLoop r b i) (c : Cons K V) (hv : (r.st k).view b = some c)
    (hin : InLoop (c.pc i)) (hstay : ∀ j a, k ≤ j → r.act j = some a → isLeave b i a = false) :
    ∃ j c', k ≤ j ∧ (r.st j).view b = some c' ∧ (c'.stopped = true ∨ storedIn b (r.st k).log <+: received c' i) := by
  by_contra hno
  simp only [not_exists, not_and, not_or] at hno
  have hsto : ∀ j c', k ≤ j → (r.st j).view b = some c' → c'.stopped = false := fun j c' hj h => by simpa using (hno j c' hj h).1
  have hone : ∀ n m a, a ∈ r.acts 0 n ++ r.acts n m → OneUser b i a := by
    intro n m a ha
    rcases List.mem_append.1 ha with ha | ha <;> obtain ⟨j, -, -, e⟩ := mem_acts r _ _ _ ha <;> exact hu j a e
  have hall : ∀ n, ∀ bs1 bs2 s1 c1, r.acts k n = bs1 ++ bs2 → (r.st k).exec cfg bs1 = some s1 → s1.view b = some c1 →
      received c1 i ++ unreadOf c1.ch i = storedIn b s1.log := by
    intro n bs1 bs2 s1 c1 e h1 hv1
    refine C63_unbounded hm hd b i hpk (as := r.acts 0 k ++ bs1) (fun a ha => hone k n a ?_) (by rw [exec_append, exec_to]; exact h1) c1 hv1
    rw [e]
    simp only [List.mem_append] at ha ⊢
    exact ha.imp id .inl
  have hleft : ∀ n, ∀ a ∈ r.acts k n, isLeave b i a = false := fun n a ha => by
    obtain ⟨j, hj, -, e⟩ := mem_acts r _ _ _ ha; exact hstay j a hj e
  have hin' : ∀ j, k ≤ j → ∃ c', (r.st j).view b = some c' ∧ InLoop (c'.pc i) := by
    intro j hj
    obtain ⟨n, rfl⟩ := Nat.exists_eq_add_of_le hj
    obtain ⟨c', hv', hpre, hor⟩ := loop_core b i hpk hstr (exec_to r k) c hv hin (hleft n) (hall n) (exec_seg r k n) (.inr fun c' h => hsto _ c' hj h)
    rcases hor with ⟨h, -⟩ | hle
    · exact ⟨c', hv', h⟩
    · exfalso
      refine (hno (k + n) c' hj hv').2 ?_
      have := hall n (r.acts k n) [] _ c' (by simp) (exec_seg r k n) hv'
      exact List.prefix_of_prefix_length_le hpre ⟨_, this⟩ hle
  obtain ⟨m, hk⟩ := many r hf k hin' (2 * (unreadOf c.ch i).length + 2)
  obtain ⟨c', hv', hpre⟩ := C92_loop_gets_all hm hd b i hpk hstr (hone k m) (exec_to r k) c hv (hleft m) (exec_seg r k m)
    (.inr ⟨hin, fun c' h => hsto _ c' (by omega) h, hk⟩)
  exact (hno (k + m) c' (by omega) hv').2 hpre

/-- From within a loop: still in it, or it has ended by itself, the session being stopped. -/
theorem loop_stays (b i k n : Nat) (hpk : (cfg.rdCfg i).peek = false) (hstr : (cfg.rdCfg i).strict = false) (c : Cons K V) (hv : (r.st k).view b = some c)
    (hin : InLoop (c.pc i)) (hstay : ∀ j a, k ≤ j → r.act j = some a → isLeave b i a = false) :
    ∃ c' ys, (r.st (k + n)).view b = some c' ∧ c'.evtsOf i = c.evtsOf i ++ ys ∧ (InLoop (c'.pc i) ∨ (.loopDone ∈ ys ∧ c'.stopped = true)) :=
  loop_stays_exec b i hpk hstr (exec_to r k) c hv hin (fun a ha => by obtain ⟨j, hj, -, e⟩ := mem_acts r _ _ _ ha; exact hstay j a hj e) (exec_seg r k n)

/-- once a session is stopped (or its thread has died), a `for` loop over one of its readers ends by itself, sooner or later. Any settings. -/
theorem loop_ends (hset : Settled r) (b i k : Nat) (hpk : (cfg.rdCfg i).peek = false) (hstr : (cfg.rdCfg i).strict = false)
    (hu : ∀ j a, r.act j = some a → OneUser b i a) (hf : FairThread r b) (hc : FairLoop r b i) (hl : Ev.launched b ∈ (r.st k).log)
    (hs : Ev.eventSet b ∈ (r.st k).log) (c : Cons K V) (hv : (r.st k).view b = some c) (hin : InLoop (c.pc i))
    (hstay : ∀ j a, k ≤ j → r.act j = some a → isLeave b i a = false) :
    ∃ j c' ys, k ≤ j ∧ (r.st j).view b = some c' ∧ c'.evtsOf i = c.evtsOf i ++ ys ∧ .loopDone ∈ ys := by
  by_contra hno
  simp only [not_exists, not_and] at hno
  have hin' : ∀ j, k ≤ j → ∃ c' ys, (r.st j).view b = some c' ∧ c'.evtsOf i = c.evtsOf i ++ ys ∧ InLoop (c'.pc i) := by
    intro j hj
    obtain ⟨n, rfl⟩ := Nat.exists_eq_add_of_le hj
    obtain ⟨c', ys, h1, h2, h3⟩ := loop_stays b i k n hpk hstr c hv hin hstay
    exact ⟨c', ys, h1, h2, h3.resolve_right fun h => hno _ c' ys hj h1 h2 h.1⟩
  obtain ⟨k1, ok, hk1, hcl⟩ := stop_closes hset b k hf hl hs
  obtain ⟨c1, ys, hv1, hys, hin1⟩ := hin' k1 hk1
  obtain ⟨m, hm⟩ := many r hc k1 (fun j hj => by obtain ⟨c', -, h1, -, h2⟩ := hin' j (by omega); exact ⟨c', h1, h2⟩) (2 * (unreadOf c1.ch i).length + 3)
  obtain ⟨c2, zs, hv2, hzs, hdone⟩ := C107_loop_ends b i hpk hstr (exec_to r k1) ok hcl (exec_seg r k1 m)
    (by have := settled_to hset (k1 + m); rwa [acts_add, Nat.zero_add] at this)
    (fun a ha => by obtain ⟨j, -, -, e⟩ := mem_acts r _ _ _ ha; exact hu j a e)
    (fun a ha => by obtain ⟨j, hj, -, e⟩ := mem_acts r _ _ _ ha; exact hstay j a (by omega) e) c1 hv1 hin1
  exact hno (k1 + m) c2 (ys ++ zs) (by omega) hv2 (by rw [hzs, hys, List.append_assoc]) (by simp [hdone.resolve_right fun h => by omega])

/-- `auto_drop=True`, `maxlen` not 0: a consumer that waits in `next`, a `for` loop or a blocking read with something unread is given something, sooner
or later; or the session is stopped first. -/
theorem served (hd : cfg.autoDrop = true) (hm : cfg.maxlen ≠ some 0) (b i k : Nat) (hstr : (cfg.rdCfg i).strict = false)
    (hu : ∀ j a, r.act j = some a → OneUser b i a) (hf : r.WeakFair (fun s => ∃ c, s.view b = some c ∧ Waits (c.pc i)) (fun a => a.any (isGo b i))) (c : Cons K V)
    (hv : (r.st k).view b = some c) (hw : Waits (c.pc i)) (hun : unreadOf c.ch i ≠ [])
    (hstay : ∀ j a, k ≤ j → r.act j = some a → isLeave b i a = false) :
    ∃ j c', k ≤ j ∧ (r.st j).view b = some c' ∧ (c'.stopped = true ∨ ∃ e, e.items ≠ [] ∧ c.evtsOf i ++ [e] <+: c'.evtsOf i) := by
  by_contra hno
  simp only [not_exists, not_and, not_or] at hno
  have core : ∀ n, ∃ c', (r.st (k + n)).view b = some c' ∧ Waits (c'.pc i) ∧ left (c'.pc i) + (r.acts k n).countP (isGo b i) ≤ left (c.pc i) := by
    intro n
    obtain ⟨c', h1, h2⟩ := served_core hd hm b i hstr (bs := r.acts k n) (fun a ha => by obtain ⟨j, -, -, e⟩ := mem_acts r _ _ _ ha; exact hu j a e)
      (fun a ha => by obtain ⟨j, hj, -, e⟩ := mem_acts r _ _ _ ha; exact hstay j a hj e)
      (exec_to r k) c hv hw hun (exec_seg r k n) (.inr fun c' h => by simpa using (hno (k + n) c' (by omega) h).1)
    rcases h2 with ⟨h2, h3, -⟩ | ⟨e, h2, h3⟩
    · exact ⟨c', h1, h2, h3⟩
    · exact absurd h3 ((hno (k + n) c' (by omega) h1).2 e h2)
  obtain ⟨m, hm'⟩ := many r hf k (fun j hj => by
    obtain ⟨n, rfl⟩ := Nat.exists_eq_add_of_le hj
    obtain ⟨c', h1, h2, -⟩ := core n
    exact ⟨c', h1, h2⟩) (left (c.pc i) + 1)
  obtain ⟨c', -, -, h⟩ := core m
  omega

end Paused
end SB
end S2P
