import Verif.Model.QuickSource
import Verif.Spec.Quick
import Verif.Props.SourceObj
/-
C155: `QuickSourceReader` under a stream buffer: what its `open` does and does not do.
-/
namespace S2P
open Spec
variable {σ τ K V I : Type}

theorem allAnswers_append (l l' : List (Ev V I)) : allAnswers (l ++ l') = allAnswers l ++ allAnswers l' := by simp [allAnswers]

theorem dataOf_append (l l' : List (Py (Option V))) : dataOf (l ++ l') = dataOf l ++ dataOf l' := by simp [dataOf]

theorem flatMap_eq {α β : Type} {f g : α → List β} {l : List α} (h : ∀ a ∈ l, f a = g a) : l.flatMap f = l.flatMap g := by
  induction l with
  | nil => rfl
  | cons a l ih => rw [List.flatMap_cons, List.flatMap_cons, h a List.mem_cons_self, ih fun b hb => h b (List.mem_cons_of_mem _ hb)]

theorem dataOf_flatMap {α : Type} (f : α → List (Py (Option V))) (l : List α) : dataOf (l.flatMap f) = l.flatMap fun a => dataOf (f a) := by
  induction l with
  | nil => rfl
  | cons a l ih => rw [List.flatMap_cons, List.flatMap_cons, dataOf_append, ih]

namespace ObjSB
variable [LinearOrder K] [BEq V] {o : SrcObj σ K V I} {cfg : SBCfg K V} {s s' : ObjSB σ K V I} {x : ObjAct K V I} {xs : List (ObjAct K V I)}

/-- `open` and `close` do not touch `f` of the object's state, and `read` depends on nothing else. -/
structure Keeps (o : SrcObj σ K V I) (f : σ → τ) (r : τ → Py (Option V) × τ) : Prop where
  open' : ∀ st, f (o.open' st).2 = f st
  close : ∀ st, f (o.close st).2 = f st
  ans : ∀ st, (o.read st).1 = (r (f st)).1
  next : ∀ st, f (o.read st).2 = (r (f st)).2

theorem exec_ind {P : ObjSB σ K V I → Prop} (hstep : ∀ s x s', P s → s.step o cfg x = some s' → P s')
    (h : P s) (he : s.exec o cfg xs = some s') : P s' := by
  induction xs generalizing s with
  | nil => simp only [exec, Option.some.injEq] at he; exact he ▸ h
  | cons a as ih =>
    simp only [exec] at he
    split at he
    · exact ih (hstep _ _ _ h ‹_›) he
    · simp at he

/-- A step that is not a call of `read` adds no answers. -/
theorem all_other {y y' : SB K V I} {a : SBAct K V I} (hs : y.step cfg a = some y') (h1 : ∀ t r, a ≠ .readOk t r) (h2 : ∀ t e, a ≠ .readRaise t e) :
    allAnswers y'.log = allAnswers y.log := by
  have hst := SB.step_to hs
  clear hs
  cases hst
  all_goals try simp only [SB.say, SB.setThr, SB.setBuf, SB.setEvent, SB.setNext, SB.setDrop, SB.setInfo, SB.newSess, SB.running, allAnswers_append]
  all_goals first
    | simp [allAnswers]; done
    | exact absurd rfl (h1 _ _)
    | exact absurd rfl (h2 _ _)

theorem ans_other {y y' : SB K V I} {a : SBAct K V I} (hs : y.step cfg a = some y') (h1 : ∀ t r, a ≠ .readOk t r) (h2 : ∀ t e, a ≠ .readRaise t e)
    (t : Nat) : answered t y'.log = answered t y.log := by
  have hst := SB.step_to hs
  clear hs
  cases hst
  all_goals try simp only [SB.say, SB.setThr, SB.setBuf, SB.setEvent, SB.setNext, SB.setDrop, SB.setInfo, SB.newSess, SB.running, answered_append]
  all_goals first
    | simp [answered]; done
    | exact absurd rfl (h1 _ _)
    | exact absurd rfl (h2 _ _)

theorem readOk_log {y y' : SB K V I} {t : Nat} {r : Option V} (hs : y.step cfg (.readOk t r) = some y') :
    y'.log = y.log ++ [.read t r] ∧ y.thr t = .reading ∧ y'.n = y.n := by
  have hst := SB.step_to hs
  clear hs
  cases hst <;> exact ⟨rfl, by assumption, rfl⟩

theorem readRaise_log {y y' : SB K V I} {t : Nat} {e : PyErr} (hs : y.step cfg (.readRaise t e) = some y') :
    y'.log = y.log ++ [.readRaised t e] ∧ y.thr t = .reading ∧ y'.n = y.n := by
  have hst := SB.step_to hs
  clear hs
  cases hst <;> exact ⟨rfl, by assumption, rfl⟩

/-- What is known at any moment. -/
def OneSeq (f : σ → τ) (r : τ → Py (Option V) × τ) (u : τ) (s : ObjSB σ K V I) : Prop :=
  allAnswers s.sb.log = answers r u (allAnswers s.sb.log).length ∧ f s.st = after r u (allAnswers s.sb.log).length

theorem OneSeq.step {f : σ → τ} {r : τ → Py (Option V) × τ} {u : τ} (hk : Keeps o f r) (h : OneSeq f r u s) (hs : s.step o cfg x = some s') :
    OneSeq f r u s' := by
  obtain ⟨h1, h2⟩ := h
  have same : ∀ a, s.sb.step cfg a = some s'.sb → (∀ t r, a ≠ .readOk t r) → (∀ t e, a ≠ .readRaise t e) → f s'.st = f s.st → OneSeq f r u s' := by
    intro a ha g1 g2 g3
    have := all_other ha g1 g2
    exact ⟨by rw [this]; exact h1, by rw [this, g3]; exact h2⟩
  have more : ∀ ans, allAnswers s'.sb.log = allAnswers s.sb.log ++ [ans] → o.read s.st = (ans, s'.st) → OneSeq f r u s' := by
    intro ans ha h0
    have e1 := hk.ans s.st
    have e2 := hk.next s.st
    rw [h0] at e1 e2
    dsimp only at e1 e2
    refine ⟨?_, ?_⟩
    · rw [ha, List.length_append, List.length_singleton, answers_snoc, ← h1, e1, h2]
    · rw [ha, List.length_append, List.length_singleton, after_snoc, ← h2, e2]
  cases below hs with
  | other a hx ha hk' hr hs' e1 e2 =>
    exact same a hs' (fun t r e => by subst e; simp [SBAct.noCall] at ha) (fun t r e => by subst e; simp [SBAct.noCall] at ha) (by rw [e1])
  | openOk hx hs' h0 => exact same _ hs' (by simp) (by simp) (by have := hk.open' s.st; rw [h0] at this; exact this)
  | openRaise hx e hs' h0 => exact same _ hs' (by simp) (by simp) (by have := hk.open' s.st; rw [h0] at this; exact this)
  | bufOk hx i hs' h0 e1 => exact same _ hs' (by simp) (by simp) (by rw [e1])
  | bufRaise hx e hs' h0 e1 => exact same _ hs' (by simp) (by simp) (by rw [e1])
  | readOk t hx r' hs' h0 => exact more _ (by rw [(readOk_log hs').1, allAnswers_append]; rfl) h0
  | readRaise t hx e hs' h0 => exact more _ (by rw [(readRaise_log hs').1, allAnswers_append]; rfl) h0
  | close t hx ok hs' h0 => exact same _ hs' (by simp) (by simp) (by rw [← h0]; exact hk.close s.st)

/-- The answers of the sessions, one after the other, are all answers. -/
theorem sessions_answers {st : σ} (he : (ObjSB.init st).exec o cfg xs = some s) (hset : (ObjSB.init st : ObjSB σ K V I).Settled o cfg xs) :
    (List.range s.sb.n).flatMap (fun t => answered t s.sb.log) = allAnswers s.sb.log := by
  refine (exec_ind_settled (P := fun s => Acc o cfg s ∧ (List.range s.sb.n).flatMap (fun t => answered t s.sb.log) = allAnswers s.sb.log) ?_
    ⟨Acc.init st, rfl⟩ he hset).2
  intro s x s' _ ⟨hacc, ih⟩ hs hsa
  refine ⟨hacc.step hs hsa, ?_⟩
  obtain ⟨bs, hb, hbs⟩ := hacc.real
  have h2 := SB.inv2_exec hb hbs
  have grow : ∀ a, s.sb.step cfg a = some s'.sb → (∀ t, answered t s'.sb.log = answered t s.sb.log) → allAnswers s'.sb.log = allAnswers s.sb.log →
      (List.range s'.sb.n).flatMap (fun t => answered t s'.sb.log) = allAnswers s'.sb.log := by
    intro a ha g1 g2
    rw [g2, ← ih]
    simp only [g1]
    have hn : s'.sb.n = s.sb.n ∨ s'.sb.n = s.sb.n + 1 := by
      have hst := SB.step_to ha
      clear ha
      generalize s'.sb = y at hst
      cases hst
      all_goals simp [SB.say, SB.setThr, SB.setBuf, SB.setEvent, SB.setNext, SB.setDrop, SB.setInfo, SB.newSess, SB.running]
    rcases hn with hn | hn
    · rw [hn]
    · rw [hn, List.range_succ, List.flatMap_append]
      have : answered s.sb.n s.sb.log = [] := hacc.knows.fresh _ (.inl (h2.1.noThr _ (Nat.le_refl _)))
      simp [this]
  have more : ∀ t ans, s.sb.thr t = .reading → s'.sb.n = s.sb.n → (∀ u, answered u s'.sb.log = answered u s.sb.log ++ if u = t then [ans] else []) →
      allAnswers s'.sb.log = allAnswers s.sb.log ++ [ans] → (List.range s'.sb.n).flatMap (fun t => answered t s'.sb.log) = allAnswers s'.sb.log := by
    intro t ans ht hn g1 g2
    obtain ⟨hn', -, -⟩ := h2.2.solo t (by rw [ht]; rfl)
    rw [g2, ← ih, hn, ← hn', List.range_succ, List.flatMap_append, List.flatMap_append]
    have : (List.range t).flatMap (fun u => answered u s'.sb.log) = (List.range t).flatMap (fun u => answered u s.sb.log) := by
      refine flatMap_eq fun u hu => ?_
      rw [g1, if_neg (by have := List.mem_range.1 hu; omega), List.append_nil]
    rw [this]
    simp [g1]
  have grow' : ∀ a, s.sb.step cfg a = some s'.sb → (∀ t r, a ≠ .readOk t r) → (∀ t e, a ≠ .readRaise t e) →
      (List.range s'.sb.n).flatMap (fun t => answered t s'.sb.log) = allAnswers s'.sb.log :=
    fun a ha g1 g2 => grow a ha (ans_other ha g1 g2) (all_other ha g1 g2)
  cases below hs with
  | other a hx ha hk' hr hs' e1 e2 =>
    exact grow' a hs' (fun t r e => by subst e; simp [SBAct.noCall] at ha) (fun t r e => by subst e; simp [SBAct.noCall] at ha)
  | openOk hx hs' h0 => exact grow' _ hs' (by simp) (by simp)
  | openRaise hx e hs' h0 => exact grow' _ hs' (by simp) (by simp)
  | bufOk hx i hs' h0 e1 => exact grow' _ hs' (by simp) (by simp)
  | bufRaise hx e hs' h0 e1 => exact grow' _ hs' (by simp) (by simp)
  | readOk t hx r' hs' h0 =>
    obtain ⟨g1, g2, g3⟩ := readOk_log hs'
    exact more t (.ok r') g2 g3 (fun u => by rw [g1, answered_append, answered_read]) (by rw [g1, allAnswers_append]; rfl)
  | readRaise t hx e hs' h0 =>
    obtain ⟨g1, g2, g3⟩ := readRaise_log hs'
    exact more t (.error e) g2 g3 (fun u => by rw [g1, answered_append, answered_raise]) (by rw [g1, allAnswers_append]; rfl)
  | close t hx ok hs' h0 => exact grow' _ hs' (by simp) (by simp)

/-- **C155** a source whose `open` and `close` do not rewind it: whatever the sessions, restarts, threads and their overlaps, all the answers of `read()`
together, in the order they were given, are what `read` answers called again and again from the state the source was made in. Nothing is
read twice, nothing is left out. -/
theorem C155_one_sequence {f : σ → τ} {r : τ → Py (Option V) × τ} (hk : Keeps o f r) {st : σ} (he : (ObjSB.init st).exec o cfg xs = some s) :
    allAnswers s.sb.log = answers r (f st) (allAnswers s.sb.log).length :=
  (exec_ind (P := OneSeq f r (f st)) (fun _ _ _ h hs => h.step hk hs) ⟨rfl, rfl⟩ he).1

/-- **C155** and in settled executions the data the sessions read, one session after the other, are the data of that one sequence: each session goes on
where the one before left off. -/
theorem C155_sessions_go_on {f : σ → τ} {r : τ → Py (Option V) × τ} (hk : Keeps o f r) {st : σ} (he : (ObjSB.init st).exec o cfg xs = some s)
    (hset : (ObjSB.init st : ObjSB σ K V I).Settled o cfg xs) :
    (List.range s.sb.n).flatMap (fun t => dataRead t s.sb.log) = dataOf (answers r (f st) (allAnswers s.sb.log).length) := by
  rw [← C155_one_sequence hk he, ← sessions_answers he hset, dataOf_flatMap]
  exact flatMap_eq fun t _ => dataRead_eq t _

variable [ReflBEq V]

/-- **C155** all of it is accounted for: what the sessions stored, with the item each thread has in its hands and the item (at most one per session, with
which the session dies) each session could not append, session after session, is the data of that sequence. -/
theorem C155_accounted {f : σ → τ} {r : τ → Py (Option V) × τ} (hk : Keeps o f r) {st : σ} (he : (ObjSB.init st).exec o cfg xs = some s)
    (hset : (ObjSB.init st : ObjSB σ K V I).Settled o cfg xs) :
    (List.range s.sb.n).flatMap (fun t => storedIn t s.sb.log ++ (s.sb.thr t).inHand ++ refusedBy t s.sb.log) =
      dataOf (answers r (f st) (allAnswers s.sb.log).length) ∧
    ∀ t, (refusedBy t s.sb.log).length ≤ 1 := by
  obtain ⟨bs, hb, hbs⟩ := (acc he hset).real
  refine ⟨?_, fun t => (SB.C40_stored_in_order_partial hb hbs t).2.1⟩
  rw [← C155_sessions_go_on hk he hset]
  exact flatMap_eq fun t _ => (SB.C40_stored_in_order_partial hb hbs t).1.symm

end ObjSB

namespace Quick
section
variable [LinearOrder V] {clock : Nat → Int} {cfg : SBCfg V V}

/-- The list reader's `read` does not look at what `open` sets. -/
theorem keeps (l : List (Option V)) : ObjSB.Keeps (quick clock (listRead l)) (fun s : St Nat => s.user)
    (fun p => match l[p]? with | some r => (.ok r, p + 1) | none => (.ok none, p)) := by
  refine ⟨fun _ => rfl, fun _ => rfl, fun st => ?_, fun st => ?_⟩
  · simp only [quick, listRead]; cases l[st.user]? <;> rfl
  · simp only [quick, listRead]; cases l[st.user]? <;> rfl

/-- The data of the list's first `n` places from `p` on. -/
theorem list_data (l : List (Option V)) (n : Nat) : ∀ p,
    dataOf (answers (fun p => match l[p]? with | some r => ((.ok r : Py (Option V)), p + 1) | none => (.ok none, p)) p n) =
      ((l.drop p).take n).filterMap id := by
  induction n with
  | zero => intro p; simp [answers, dataOf]
  | succ n ih =>
    intro p
    rw [answers, show ∀ (a : Py (Option V)) l, a :: l = [a] ++ l from fun _ _ => rfl, dataOf_append]
    cases h : l[p]? with
    | none =>
      have hp : l.length ≤ p := List.getElem?_eq_none_iff.1 h
      dsimp only
      rw [ih, List.drop_of_length_le hp]
      simp [dataOf]
    | some r =>
      obtain ⟨hp, rfl⟩ := List.getElem?_eq_some_iff.1 h
      dsimp only
      rw [ih, List.drop_eq_getElem_cons hp, List.take_succ_cons, List.filterMap_cons]
      cases l[p] <;> simp [dataOf]

variable {xs : List (ObjAct V V Info)} {τ : Type} {s : ObjSB (St τ) V V Info} {x : ObjAct V V Info}

/-- How many opens there were. -/
structure Opens (clock : Nat → Int) (s : ObjSB (St τ) V V Info) : Prop where
  count : s.st.tick + (if s.sb.start = some .mkEvt ∨ s.sb.start = some .opening then 1 else 0) = s.sb.n
  at' : ∀ t st, s.opened t = some st → st.openTime = some (clock t) ∧ st.openInstance = true

theorem Opens.step {uread : τ → Option Nat → Py (Option V) × τ × Option Nat} {s' : ObjSB (St τ) V V Info} (h : Opens clock s)
    (hb : ObjSB.Below (quick clock uread) cfg s s' x) : Opens clock s' := by
  obtain ⟨h1, h2⟩ := h
  have h3 : ∀ t st, s'.opened t = some st → st.openTime = some (clock t) ∧ st.openInstance = true := by
    intro t st ht
    rcases ObjSB.opened_step hb t st ht with ht | ⟨-, k1, k2, k3⟩
    · exact h2 t st ht
    · simp only [quick, Prod.mk.injEq, true_and] at k3
      rw [← k3]
      rw [k2] at h1
      simp only [open', and_true, or_true, if_true] at h1 ⊢
      rw [show s.st.tick = t by omega]
  refine ⟨?_, h3⟩
  cases hb with
  | other a hx ha hk hr hs e1 e2 =>
    rw [e1]
    refine ObjSB.opens_count hs _ ⟨?_, ?_⟩ h1 <;> (rintro rfl; simp [SBAct.noCall] at ha)
  | openOk hx hs h0 e2 =>
    simp only [quick, Prod.mk.injEq, true_and] at h0
    rw [← h0]
    have hst := SB.step_to hs
    clear hs
    generalize s'.sb = y at hst
    cases hst
    rename_i hst
    rw [hst] at h1
    simp [SB.say, open'] at h1 ⊢
    exact h1
  | openRaise hx e hs h0 e2 => simp [quick] at h0
  | bufOk hx i hs h0 e1 e2 => rw [e1]; exact ObjSB.opens_count hs _ (by simp) h1
  | bufRaise hx e hs h0 e1 e2 => rw [e1]; exact ObjSB.opens_count hs _ (by simp) h1
  | readOk t hx r hs h0 e2 =>
    simp only [quick, Prod.mk.injEq] at h0
    rw [← h0.2]; exact ObjSB.opens_count hs _ (by simp) h1
  | readRaise t hx e hs h0 e2 =>
    simp only [quick, Prod.mk.injEq] at h0
    rw [← h0.2]; exact ObjSB.opens_count hs _ (by simp) h1
  | close t hx ok hs h0 hok e2 =>
    have : s'.st.tick = s.st.tick := by rw [← h0]; rfl
    rw [this]; exact ObjSB.opens_count hs _ (by simp) h1

/-- **C155** the info of the `t`-th session (from 0) of a `QuickSourceReader`, whatever its `read`, is the time of the `t`-th `open()`, and the instance. -/
theorem C155_info (uread : τ → Option Nat → Py (Option V) × τ × Option Nat) (u : τ) (he : (ObjSB.init (new u)).exec (quick clock uread) cfg xs = some s)
    (hset : (ObjSB.init (new u) : ObjSB (St τ) V V Info).Settled (quick clock uread) cfg xs) (t : Nat) (i : Info)
    (ht : Ev.bufferMade t i ∈ s.sb.log) : i = { openTime := some (clock t), openInstance := true } := by
  have h := ObjSB.acc he hset
  have ho : Opens clock s := by
    refine ObjSB.exec_ind_settled (P := Opens clock) (fun _ _ _ _ h hs _ => h.step (ObjSB.below hs)) ⟨rfl, ?_⟩ he hset
    intro t st h; simp [ObjSB.init] at h
  obtain ⟨st0, k1, k2⟩ := h.info t i ht
  obtain ⟨g1, g2⟩ := ho.at' t st0 k1
  simp only [quick, Except.ok.injEq] at k2
  rw [← k2, g1, g2]

section
variable {l : List (Option V)} {s : ObjSB (St Nat) V V Info}

/-- **C155** the reader of a list: however often the stream is stopped, restarted, or dies, what its sessions read, one after the other, is the data of the
first `n` places of the list, `n` the number of `read()` calls made: no datum is read by two sessions, none is skipped between sessions. -/
theorem C155_list (he : (ObjSB.init (new 0)).exec (quick clock (listRead l)) cfg xs = some s)
    (hset : (ObjSB.init (new 0) : ObjSB (St Nat) V V Info).Settled (quick clock (listRead l)) cfg xs) :
    (List.range s.sb.n).flatMap (fun t => dataRead t s.sb.log) = (l.take (allAnswers s.sb.log).length).filterMap id := by
  rw [ObjSB.C155_sessions_go_on (keeps l) he hset]
  exact list_data l _ 0

/-- **C155** once the list is exhausted there is nothing for later sessions: if the sessions before the `t`-th have read it all, the `t`-th and all after it
read nothing, however long they run. -/
theorem C155_list_exhausted (he : (ObjSB.init (new 0)).exec (quick clock (listRead l)) cfg xs = some s)
    (hset : (ObjSB.init (new 0) : ObjSB (St Nat) V V Info).Settled (quick clock (listRead l)) cfg xs) (t : Nat)
    (hall : (List.range t).flatMap (fun u => dataRead u s.sb.log) = l.filterMap id) (u : Nat) (hu : t ≤ u) : dataRead u s.sb.log = [] := by
  have h := ObjSB.acc he hset
  obtain ⟨bs, hb, hbs⟩ := h.real
  have h2 := SB.inv2_exec hb hbs
  by_cases hun : s.sb.n ≤ u
  · rw [dataRead_eq, h.knows.fresh u (.inl (h2.1.noThr u hun))]; rfl
  have h1 := C155_list he hset
  have hsub : ((List.range s.sb.n).flatMap (fun t => dataRead t s.sb.log)).length ≤ (l.filterMap id).length := by
    rw [h1]; exact ((List.take_sublist _ l).filterMap id).length_le
  have hsplit : List.range s.sb.n = List.range t ++ (List.range (u - t)).map (t + ·) ++ u :: (List.range (s.sb.n - u - 1)).map (u + 1 + ·) := by
    have e1 : s.sb.n = t + (u - t) + (1 + (s.sb.n - u - 1)) := by omega
    conv_lhs => rw [e1, List.range_add, List.range_add]
    have e2 : t + (u - t) = u := by omega
    rw [e2, Nat.add_comm 1, List.range_succ_eq_map]
    simp [Function.comp_def, Nat.add_comm, Nat.add_left_comm]
  rw [hsplit, List.flatMap_append, List.flatMap_append, hall, List.flatMap_cons] at hsub
  simp only [List.length_append] at hsub
  exact List.eq_nil_of_length_eq_zero (by omega)

/-- A list reader over strictly increasing data is orderly. -/
theorem orderly (hinc : (l.filterMap id).Pairwise (· < ·)) : ObjSB.Orderly (quick clock (listRead l)) := by
  have hans : ∀ (st : St Nat) n, answers (quick clock (listRead l)).read st n =
      answers (fun p => match l[p]? with | some r => (.ok r, p + 1) | none => (.ok none, p)) st.user n := by
    intro st n
    induction n generalizing st with
    | zero => rfl
    | succ n ih => rw [answers, answers, ih, (keeps (clock := clock) l).ans, (keeps (clock := clock) l).next]
  refine ⟨fun x st n e _ => ?_, fun x st n v _ _ => ⟨v, rfl⟩, fun x st n _ => ?_⟩
  · rw [hans]
    generalize st.user = p
    induction n generalizing p with
    | zero => simp [answers]
    | succ n ih =>
      rw [answers, List.mem_cons, not_or]
      refine ⟨?_, ih _⟩
      cases l[p]? <;> simp
  · rw [hans, list_data]
    refine (hinc.sublist (((List.take_sublist _ _).trans (List.drop_sublist _ _)).filterMap id)).imp ?_
    intro v w hvw k m hk hm
    simp only [quick, Except.ok.injEq] at hk hm
    rw [← hk, ← hm]; exact hvw

/-- **C155** a list of strictly increasing data (which may contain `None`s): no session ever dies, and what the sessions stored, with the item in a thread's
hands, is the data of the first `n` places of the list, in order, each once. -/
theorem C155_list_stored (hinc : (l.filterMap id).Pairwise (· < ·)) (hkey : ∀ v, cfg.key v = v) (hc : cfg.maxlen ≠ none ∨ cfg.autoDrop = true)
    (he : (ObjSB.init (new 0)).exec (quick clock (listRead l)) cfg xs = some s)
    (hset : (ObjSB.init (new 0) : ObjSB (St Nat) V V Info).Settled (quick clock (listRead l)) cfg xs) :
    (∀ e ∈ s.sb.log, isDeath e = false) ∧
    (List.range s.sb.n).flatMap (fun t => storedIn t s.sb.log ++ (s.sb.thr t).inHand) = (l.take (allAnswers s.sb.log).length).filterMap id := by
  have hf : ObjSB.Fits (quick clock (listRead l)) cfg := fun v k h => by
    simp only [quick, Except.ok.injEq] at h; rw [hkey, h]
  refine ⟨ObjSB.C64_orderly_never_dies_partial (orderly hinc) hf hc he hset, ?_⟩
  rw [← C155_list he hset]
  exact flatMap_eq fun t _ => ObjSB.C64_orderly_all_stored_partial (orderly hinc) hf he hset t

end

section
variable {l : List (Option V)} {s : ObjSB (St Unit) V V Info}

theorem idx_data (n : Nat) : ∀ (st : St Unit) (p : Nat), st.readIdx = some p →
    dataOf (answers (quick clock (idxRead l)).read st n) = ((l.drop p).take n).filterMap id := by
  induction n with
  | zero => intro st p _; simp [answers, dataOf]
  | succ n ih =>
    intro st p hp0
    rw [answers, show ∀ (a : Py (Option V)) l, a :: l = [a] ++ l from fun _ _ => rfl, dataOf_append]
    cases h : l[p]? with
    | none =>
      have hp : l.length ≤ p := List.getElem?_eq_none_iff.1 h
      rw [ih _ p (by simp [quick, idxRead, hp0, h]), List.drop_of_length_le hp]
      simp [dataOf, quick, idxRead, hp0, h]
    | some r =>
      obtain ⟨hp, rfl⟩ := List.getElem?_eq_some_iff.1 h
      rw [ih _ (p + 1) (by simp only [quick, idxRead, hp0, h]), List.drop_eq_getElem_cons hp, List.take_succ_cons, List.filterMap_cons]
      cases h : l[p] <;> simp [dataOf, quick, idxRead, hp0, h, hp]

/-- **C155** a `read` that goes by the `read_idx` that `open` sets to 0 starts over in every session: each session reads the data of the first places of the list,
as many as it made `read()` calls. -/
theorem C155_idx (he : (ObjSB.init (new ())).exec (quick clock (idxRead l)) cfg xs = some s)
    (hset : (ObjSB.init (new ()) : ObjSB (St Unit) V V Info).Settled (quick clock (idxRead l)) cfg xs) (t : Nat) :
    dataRead t s.sb.log = (l.take (answered t s.sb.log).length).filterMap id := by
  rw [dataRead_eq]
  by_cases ht : answered t s.sb.log = []
  · rw [ht]; simp [dataOf]
  obtain ⟨x0, st0, h1, h2⟩ := ObjSB.C64_fresh_start_partial he hset t ht
  rw [congrArg dataOf h2]
  simp only [quick, Prod.mk.injEq, true_and] at h1
  rw [show ((l.take (answered t s.sb.log).length).filterMap id) = ((l.drop 0).take (answered t s.sb.log).length).filterMap id from rfl]
  exact idx_data _ st0 0 (by rw [← h1]; rfl)

end

end
end Quick
end S2P
