import Verif.Proofs.FineRun
import Verif.Proofs.Paused
import Verif.Props.Fine
/-
C164: liveness of the stream buffer with every append, drop and reader call executed statement by statement under the lock, in infinite executions with a fair
scheduler.
-/
namespace S2P
open Spec
variable {K V I : Type}

namespace FSB
variable [LinearOrder K] [BEq V] {cfg : SBCfg K V} {n : Nat} {r : Forever I n cfg}

/-- A step of the thread of session `t`, or a statement of a call it makes on a buffer. -/
def turnOf (t : Nat) : FAct K V I → Bool
  | .sb a => a.ofThread t
  | .low _ (.thr t') => t' = t
  | _ => false

/-- A step of the consumer of reader `i` of session `b`, or a statement of a call it makes on that buffer. -/
def turnFor (b i : Nat) : FAct K V I → Bool
  | .sb a => SB.isGo b i a
  | .low b' (.cons i') => b' = b && i' = i
  | _ => false

/-- A call in progress that has not taken effect takes effect. -/
theorem Live.act_of_pend (h : Live r) {b : Nat} {w : Who} (hret : ∀ k p, ((r.st k).lm b).pend w.num = some p → ∃ j, k ≤ j ∧ ((r.st j).lm b).pend w.num = none)
    {k : Nat} {p : Pend K V} (hp : ((r.st k).lm b).pend w.num = some p) (he : p.eff = false) : ∃ j op, k ≤ j ∧ h.sb.act j = some (SB.move b op w) := by
  obtain ⟨j, h1, h2⟩ := hret k p hp
  obtain ⟨e, rfl⟩ := Nat.exists_eq_add_of_le h1
  obtain ⟨j, h3, h4⟩ := h.takes hp he h2
  exact ⟨j, _, h3, h4⟩

theorem Live.act_of_start (h : Live r) {b : Nat} {w : Who} (hret : ∀ k p, ((r.st k).lm b).pend w.num = some p → ∃ j, k ≤ j ∧ ((r.st j).lm b).pend w.num = none)
    {k e : Nat} {p : Pend K V} (hn : ((r.st k).lm b).pend w.num = none) (hp : ((r.st (k + e)).lm b).pend w.num = some p) :
    ∃ j op, k ≤ j ∧ h.sb.act j = some (SB.move b op w) := by
  induction e generalizing p with
  | zero => rw [Nat.add_zero, hn] at hp; cases hp
  | succ e ih =>
    cases hm : ((r.st (k + e)).lm b).pend w.num with
    | some p' => exact ih hm
    | none =>
      have hs := (h.lm b).next (k + e)
      have hp : ((h.lm b).st (k + e + 1)).pend w.num = some p := hp
      have hm : ((h.lm b).st (k + e)).pend w.num = none := hm
      have he : p.eff = false := by
        cases ha : (h.lm b).act (k + e) with
        | none =>
          rw [ha] at hs
          simp only [LM.stepS, Option.some.injEq] at hs
          rw [← hs, hm] at hp; cases hp
        | some a =>
          rw [ha] at hs
          simp only [LM.stepS] at hs
          cases a with
          | call j c =>
            obtain ⟨e1, -, e2⟩ := LM.call_shape hs
            by_cases hj : w.num = j
            · rw [← hj] at e2
              rcases e2 with ⟨-, e2⟩ | ⟨⟨p', e2, -, e4⟩, -⟩
              · rw [e2] at hp; cases hp
              · rw [e2] at hp; injection hp with hp; subst hp; exact e4
            · rw [e1 _ hj, hm] at hp; cases hp
          | go j =>
            obtain ⟨p0, t, e0, -, e1, e2⟩ := LM.go_shape hs
            by_cases hj : w.num = j
            · rw [← hj, hm] at e0; cases e0
            · rw [e1 _ hj, hm] at hp; cases hp
      obtain ⟨j, op, h1, h2⟩ := h.act_of_pend hret (k := k + e + 1) hp he
      exact ⟨j, op, by omega, h2⟩

/-- Turns in the statement-by-statement run give turns in the one-step run. -/
theorem Live.turns (h : Live r) {w : Who} {Q : Nat → Prop} {turn : FAct K V I → Bool} {own : SBAct K V I → Bool} (hsb : ∀ a, turn (.sb a) = own a)
    (hlow : ∀ b w', turn (.low b w') = true → w' = w ∧ Q b) (hdir : ∀ b c op, turn (.direct b c op) = false) (hmove : ∀ b op, Q b → own (SB.move b op w) = true)
    (hbeg : ∀ k b w' a, r.act k = .sb a → own a = true → (r.st k).Begins b w' (r.act k) → w' = w ∧ Q b)
    (hret : ∀ b, Q b → ∀ k p, ((r.st k).lm b).pend w.num = some p → ∃ j, k ≤ j ∧ ((r.st j).lm b).pend w.num = none)
    (hone : ∀ b b' k p, Q b → Q b' → b' ≠ b → ((r.st k).lm b).pend w.num = some p → ((r.st k).lm b').pend w.num = none)
    {alive : SB K V I → Prop} (hf : r.WeakFair (fun s => alive s.sb) turn) : h.sb.WeakFair alive (fun a => a.any own) := by
  intro k ha
  have ha' : ∀ j, k ≤ j → alive (r.st j).sb := ha
  have fin : ∀ {b j op}, Q b → h.sb.act j = some (SB.move b op w) → (h.sb.act j).any own = true := by
    intro b j op hb e
    rw [e]; exact hmove b op hb
  have one : ∀ k', k ≤ k' → ∃ j, k' ≤ j ∧ ((∃ j', j ≤ j' ∧ (h.sb.act j').any own = true) ∨ ∃ b p, Q b ∧ ((r.st j).lm b).pend w.num = some p) := by
    intro k' hk
    obtain ⟨j, h1, h2⟩ := hf k' fun j hj => ha' j (by omega)
    refine ⟨j, h1, ?_⟩
    cases hx : r.act j with
    | sb a =>
      left
      rw [hx, hsb] at h2
      rcases h.sb_act j with ⟨a', e, e2⟩ | ⟨-, b', w', p', e, e2, e3⟩ | ⟨-, b', w', e, -⟩ | ⟨b', w', p', e, -⟩ | ⟨b', c, op, e, -⟩
      · rw [hx] at e; injection e with e; subst e
        exact ⟨j, Nat.le_refl j, by rw [e2]; exact h2⟩
      · obtain ⟨rfl, hq⟩ := hbeg j b' w' a hx h2 e
        obtain ⟨j', op, h3, h4⟩ := h.act_of_pend (hret b' hq) e2 e3
        exact ⟨j', by omega, fin hq h4⟩
      all_goals (rw [hx] at e; cases e)
    | low b w' =>
      right
      rw [hx] at h2
      obtain ⟨rfl, hq⟩ := hlow b w' h2
      have hs := r.next j
      rw [hx] at hs
      rcases lm_sim hs b with ⟨w', h3, h4⟩ | ⟨h3, -⟩
      · injection h3 with _ h3; subst h3
        obtain ⟨p, hp⟩ := LM.go_pend h4
        exact ⟨b, p, hq, hp⟩
      · exact absurd rfl (h3 w')
    | direct b c op => rw [hx, hdir] at h2; cases h2
  obtain ⟨j, h1, ⟨j', h2, h3⟩ | ⟨b, p, hq, hp⟩⟩ := one k (Nat.le_refl k)
  · exact ⟨j', by omega, h3⟩
  cases he : p.eff with
  | false =>
    obtain ⟨j', op, h3, h4⟩ := h.act_of_pend (hret b hq) hp he
    exact ⟨j', by omega, fin hq h4⟩
  | true =>
    obtain ⟨j1, h3, h4⟩ := hret b hq j p hp
    obtain ⟨j2, h5, ⟨j', h6, h7⟩ | ⟨b2, p2, hq2, hp2⟩⟩ := one j1 (by omega)
    · exact ⟨j', by omega, h7⟩
    by_cases hb : b2 = b
    · subst hb
      obtain ⟨e, rfl⟩ := Nat.exists_eq_add_of_le h5
      obtain ⟨j', op, h8, h9⟩ := h.act_of_start (hret b2 hq) h4 hp2
      exact ⟨j', by omega, fin hq h9⟩
    · obtain ⟨e, rfl⟩ := Nat.exists_eq_add_of_le (show j ≤ j2 by omega)
      obtain ⟨j', op, h8, h9⟩ := h.act_of_start (hret b2 hq2) (hone b b2 j p hq hq2 hb hp) hp2
      exact ⟨j', by omega, fin hq2 h9⟩

theorem Live.turns_thread (h : Live r) (t : Nat) {alive : SB K V I → Prop} (hf : r.WeakFair (fun s => alive s.sb) (turnOf t)) :
    h.sb.WeakFair alive (fun a => a.any (·.ofThread t)) := by
  refine h.turns (w := .thr t) (Q := fun _ => True) (turn := turnOf t) (own := fun a => a.ofThread t) (fun _ => rfl) ?_ (fun _ _ _ => rfl) ?_ ?_ ?_ ?_ hf
  · intro b w' hw
    cases w' <;> simp [turnOf] at hw ⊢
    exact hw
  · intro b op _
    simp [SB.move, SBAct.ofThread]
  · intro k b w' a hx ha hB
    rw [hx] at hB
    cases w' with
    | thr t' =>
      obtain ⟨e, -⟩ := hB
      injection e with e; subst e
      simp [SBAct.ofThread] at ha
      exact ⟨by rw [ha], trivial⟩
    | dropper c => obtain ⟨e, -⟩ := hB; injection e with e; subst e; simp [SBAct.ofThread] at ha
    | cons i => cases (show FAct.sb a = _ from hB); simp [SBAct.ofThread] at ha
    | direct c => obtain ⟨op, e⟩ := hB; cases e
  · intro b _ k p hp
    exact h.thread_returns rfl hp
  · intro b b' k p _ _ hb hp
    obtain ⟨O, hF⟩ := h.finv k
    cases hp' : ((r.st k).lm b').pend (Who.thr t).num with
    | none => rfl
    | some p' => exact absurd ((hF.last b' _ p' hp' rfl).symm.trans (hF.last b _ p hp rfl)) hb

theorem Live.turns_cons (h : Live r) (b i : Nat) (hq : Pauses r b) {alive : SB K V I → Prop} (hf : r.WeakFair (fun s => alive s.sb) (turnFor b i)) :
    h.sb.WeakFair alive (fun a => a.any (SB.isGo b i)) := by
  refine h.turns (w := .cons i) (Q := fun b' => b' = b) (turn := turnFor b i) (own := SB.isGo b i) (fun _ => rfl) ?_ (fun _ _ _ => rfl) ?_ ?_ ?_ ?_ hf
  · intro b' w' hw
    cases w' <;> simp [turnFor] at hw ⊢
    exact ⟨hw.2, hw.1⟩
  · rintro b' op rfl
    simp [SB.move, SB.isGo]
  · intro k b' w' a hx ha hB
    rw [hx] at hB
    cases w' with
    | thr t' => obtain ⟨e, -⟩ := hB; injection e with e; subst e; simp [SB.isGo] at ha
    | dropper c => obtain ⟨e, -⟩ := hB; injection e with e; subst e; simp [SB.isGo] at ha
    | cons i' =>
      cases (show FAct.sb a = _ from hB)
      simp [SB.isGo] at ha
      exact ⟨by rw [ha.2], ha.1⟩
    | direct c => obtain ⟨op, e⟩ := hB; cases e
  · rintro b' rfl k p hp
    exact h.reader_returns hq hp
  · rintro b1 b2 k p rfl rfl hb
    exact absurd rfl hb

/-- What a step of the one-step run tells about the run. -/
theorem Live.acted (h : Live r) {P : SBAct K V I → Prop} {k : Nat} (hsb : ∀ a, r.act k = .sb a → P a) (hmove : ∀ b w op, (∀ c, w = .direct c → Directs r b op) → P (SB.move b op w))
    {a : SBAct K V I} (ha : h.sb.act k = some a) : P a := by
  obtain ⟨O, hF⟩ := h.finv k
  rcases h.sb_act k with ⟨a', e, e2⟩ | ⟨e2, -⟩ | ⟨e2, -⟩ | ⟨b', w', p', e, e1, e2, e3⟩ | ⟨b', c, op, e, e2⟩
  · rw [ha] at e2; injection e2 with e2; subst e2; exact hsb a e
  · rw [ha] at e2; cases e2
  · rw [ha] at e2; cases e2
  · rw [ha] at e3; injection e3 with e3; subst e3
    exact hmove b' w' _ fun c hc => by subst hc; exact hF.dir b' c p' e1 e2
  · rw [ha] at e2; injection e2 with e2; subst e2
    exact hmove b' (.direct c) (.rd c op) fun _ _ => ⟨k, c, op, rfl, e⟩

/-- Every restart finds the threads of earlier sessions ended. -/
def Settled (r : Forever I n cfg) : Prop := ∀ k a, r.act k = .sb a → (r.st k).sb.SettledAt a

theorem Live.settled (h : Live r) (hset : Settled r) : SB.Paused.Settled h.sb := fun k a ha =>
  h.acted (P := fun a => (r.st k).sb.SettledAt a) (hset k) (fun b w op _ => by cases w <;> intro e <;> cases e) ha

theorem Live.one_user (h : Live r) {b i : Nat} (hu : ∀ k, OneUser b i (r.act k)) (k : Nat) (a : SBAct K V I) (ha : h.sb.act k = some a) : SB.OneUser b i a := by
  refine h.acted (P := fun a => SB.OneUser b i a) (fun a e => by have := hu k; rw [e] at this; exact this) ?_ ha
  intro b' w op hd
  cases w with
  | direct c =>
    obtain ⟨k', c', o, rfl, e⟩ := hd c rfl
    have := hu k'
    rw [e] at this
    exact this
  | cons i' => intro _; trivial
  | thr | dropper => trivial

theorem Live.stays (h : Live r) {b i k : Nat} (hstay : ∀ j a, k ≤ j → r.act j = .sb a → SB.isLeave b i a = false) (j : Nat) (a : SBAct K V I) (hj : k ≤ j)
    (ha : h.sb.act j = some a) : SB.isLeave b i a = false :=
  h.acted (P := fun a => SB.isLeave b i a = false) (fun a e => hstay j a hj e) (fun b w op _ => by cases w <;> rfl) ha

/-- The thread of session `t`, once started and until it has closed the source, gets its turns (and the source's `read()` and `close()` return or raise). -/
def FairThread (r : Forever I n cfg) (t : Nat) : Prop :=
  r.WeakFair (fun s => Ev.launched t ∈ s.sb.log ∧ ∀ ok, Ev.closed t ok ∉ s.sb.log) (turnOf t)

/-- The consumer of reader `i` of session `b`, while inside a `for` loop, gets its turns (and the body of the loop ends). -/
def FairLoop (r : Forever I n cfg) (b i : Nat) : Prop := r.WeakFair (fun s => ∃ c, s.sb.view b = some c ∧ SB.InLoop (c.pc i)) (turnFor b i)

/-- **C164** every append, and every `drop`, returns. -/
theorem C164_writer_returns (h : Live r) {k b : Nat} {w : Who} {p : Pend K V} (hp : ((r.st k).lm b).pend w.num = some p) (hc : LM.asW p.call ≠ none) :
    ∃ j, k ≤ j ∧ ((r.st j).lm b).pend w.num = none := h.writer_returns hp hc

/-- **C164** every call on a reader returns, if appends and drops pause again and again. -/
theorem C164_reader_returns (h : Live r) {k b : Nat} (hq : Pauses r b) {w : Who} {p : Pend K V} (hp : ((r.st k).lm b).pend w.num = some p) :
    ∃ j, k ≤ j ∧ ((r.st j).lm b).pend w.num = none := h.reader_returns hq hp

/-- While nobody is in the writer's section, the contents in memory are those of the one-step model. -/
theorem FInv.memory {D : Nat → ChOp K V → Prop} {O : List (SBAct K V I)} {s : FSB K V I} (h : FInv cfg n D O s) {b : Nat} {c : Cons K V} (hv : s.sb.view b = some c)
    (hQ : s.Quiet b) : c.ch = ⟨(s.lm b).m.data, (s.lm b).readers⟩ := by
  obtain ⟨x, hx, rfl⟩ := Option.map_eq_some_iff.1 hv
  have h1 := h.len hx hQ
  have h2 := h.past b x hx
  simp only [Cons.past, Prod.mk.injEq] at h2
  change x.cons.ch = _
  rw [h1, ← (show x.cons.ch.readers = (s.lm b).readers by rw [h2.1])]

theorem drops_step {s s' : SB K V I} {a : SBAct K V I} (hs : s.step cfg a = some s') (h : ∀ c, s.drops c = none) (ha : ∀ c m, a ≠ .drop c m) (c : Nat) :
    s'.drops c = none := by
  have hst := SB.step_to hs
  clear hs
  cases hst
  all_goals try simp only [SB.say, SB.setThr, SB.setBuf, SB.setEvent, SB.setNext, SB.setDrop, SB.setInfo, SB.newSess] at *
  all_goals grind

theorem drops_none (hd : ∀ k c m, r.act k ≠ .sb (.drop c m)) (h : Live r) (k : Nat) : ∀ c, (r.st k).sb.drops c = none := by
  induction k with
  | zero => rw [r.zero]; intro c; rfl
  | succ k ih =>
    have hs := h.sb.next k
    cases ha : h.sb.act k with
    | none =>
      rw [ha] at hs
      simp only [SB.stepS, Option.some.injEq] at hs
      have hs : (r.st k).sb = (r.st (k + 1)).sb := hs
      rw [← hs]; exact ih
    | some a =>
      rw [ha] at hs
      refine drops_step (s := (r.st k).sb) hs ih fun c m => ?_
      exact h.acted (P := fun a => a ≠ .drop c m) (fun a e e' => hd k c m (by rw [e, e'])) (fun b w op _ => by cases w <;> intro e <;> cases e) ha

/-- **C164** they do if nobody calls `drop` and restarts find the earlier threads ended. -/
theorem C164_pauses [ReflBEq V] (h : Live r) (hset : Settled r) (hd : ∀ k c m, r.act k ≠ .sb (.drop c m)) (b : Nat) : Pauses r b := by
  refine h.pauses (t := b) ?_ (fun k c m e => by rw [drops_none hd h k c] at e; cases e)
  intro k t v ht
  exact ((SB.inv2_exec (SB.Paused.exec_to h.sb k) (SB.Paused.settled_to (h.settled hset) k)).2.own t b v ht).symm

section
variable [ReflBEq V]

/-- **C164** once the stop event of a session is set, by `stop()` or because its thread died, its source is closed, sooner or later. -/
theorem C164_stop_closes (h : Live r) (hset : Settled r) (t k : Nat) (hf : FairThread r t) (hl : Ev.launched t ∈ (r.st k).sb.log)
    (hs : Ev.eventSet t ∈ (r.st k).sb.log) : ∃ j ok, k ≤ j ∧ Ev.closed t ok ∈ (r.st j).sb.log :=
  SB.Paused.stop_closes (r := h.sb) (h.settled hset) t k (h.turns_thread t hf) hl hs

/-- **C164** an exception of `read()`, of the append or in the loop ends the session: its source is closed, sooner or later. -/
theorem C164_death_closes (h : Live r) (t k : Nat) (hf : FairThread r t) (hl : Ev.launched t ∈ (r.st k).sb.log) (hd : SB.Died (r.st k).sb.log t) :
    ∃ j ok, k ≤ j ∧ Ev.closed t ok ∈ (r.st j).sb.log :=
  SB.Paused.death_closes (r := h.sb) t k (h.turns_thread t hf) hl hd

/-- **C164** `auto_drop=True`: the source is read again and again, until it is closed. -/
theorem C164_reads_on (h : Live r) (ha : cfg.autoDrop = true) (t k : Nat) (hf : FairThread r t) (hl : Ev.launched t ∈ (r.st k).sb.log) (m : Nat) :
    ∃ j, k ≤ j ∧ ((∃ ok, Ev.closed t ok ∈ (r.st j).sb.log) ∨ m ≤ (r.st j).sb.log.countP (isReadBy t)) :=
  SB.Paused.reads_on (r := h.sb) ha t k (h.turns_thread t hf) hl m

/-- **C164** unbounded buffer, `auto_drop=True`: a `for` loop (default arguments) over a reader of a session is given everything that has been stored, sooner or
later, in order; or the session is stopped first. -/
theorem C164_loop_gets_all (h : Live r) (hm : cfg.maxlen = none) (hd : cfg.autoDrop = true) (b i k : Nat) (hq : Pauses r b) (hpk : (cfg.rdCfg i).peek = false)
    (hstr : (cfg.rdCfg i).strict = false) (hu : ∀ j, OneUser b i (r.act j)) (hf : FairLoop r b i) (c : Cons K V) (hv : (r.st k).sb.view b = some c)
    (hin : SB.InLoop (c.pc i)) (hstay : ∀ j a, k ≤ j → r.act j = .sb a → SB.isLeave b i a = false) :
    ∃ j c', k ≤ j ∧ (r.st j).sb.view b = some c' ∧ (c'.stopped = true ∨ storedIn b (r.st k).sb.log <+: received c' i) :=
  SB.Paused.loop_gets_all (r := h.sb) hm hd b i k hpk hstr (h.one_user hu) (h.turns_cons b i hq hf) c hv hin (h.stays hstay)

/-- **C164** once a session is stopped (or its thread has died), a `for` loop over one of its readers ends by itself, sooner or later. Any settings. -/
theorem C164_loop_ends (h : Live r) (hset : Settled r) (b i k : Nat) (hq : Pauses r b) (hpk : (cfg.rdCfg i).peek = false) (hstr : (cfg.rdCfg i).strict = false)
    (hu : ∀ j, OneUser b i (r.act j)) (hf : FairThread r b) (hc : FairLoop r b i) (hl : Ev.launched b ∈ (r.st k).sb.log)
    (hs : Ev.eventSet b ∈ (r.st k).sb.log) (c : Cons K V) (hv : (r.st k).sb.view b = some c) (hin : SB.InLoop (c.pc i))
    (hstay : ∀ j a, k ≤ j → r.act j = .sb a → SB.isLeave b i a = false) :
    ∃ j c' ys, k ≤ j ∧ (r.st j).sb.view b = some c' ∧ c'.evtsOf i = c.evtsOf i ++ ys ∧ .loopDone ∈ ys :=
  SB.Paused.loop_ends (r := h.sb) (h.settled hset) b i k hpk hstr (h.one_user hu) (h.turns_thread b hf) (h.turns_cons b i hq hc) hl hs c hv hin (h.stays hstay)

/-- **C164** `auto_drop=True`, `maxlen` not 0: a consumer that waits in `next`, a `for` loop or a blocking read with something unread is given something, sooner
or later; or the session is stopped first. -/
theorem C164_served (h : Live r) (hd : cfg.autoDrop = true) (hm : cfg.maxlen ≠ some 0) (b i k : Nat) (hq : Pauses r b) (hstr : (cfg.rdCfg i).strict = false)
    (hu : ∀ j, OneUser b i (r.act j)) (hf : r.WeakFair (fun s => ∃ c, s.sb.view b = some c ∧ SB.Waits (c.pc i)) (turnFor b i)) (c : Cons K V)
    (hv : (r.st k).sb.view b = some c) (hw : SB.Waits (c.pc i)) (hQ : (r.st k).Quiet b)
    (hun : unreadOf ⟨((r.st k).lm b).m.data, ((r.st k).lm b).readers⟩ i ≠ [])
    (hstay : ∀ j a, k ≤ j → r.act j = .sb a → SB.isLeave b i a = false) :
    ∃ j c', k ≤ j ∧ (r.st j).sb.view b = some c' ∧ (c'.stopped = true ∨ ∃ e, e.items ≠ [] ∧ c.evtsOf i ++ [e] <+: c'.evtsOf i) := by
  obtain ⟨O, hF⟩ := h.finv k
  rw [← hF.memory hv hQ] at hun
  exact SB.Paused.served (r := h.sb) hd hm b i k hstr (h.one_user hu)
    (h.turns_cons b i hq (alive := fun s => ∃ c, s.view b = some c ∧ SB.Waits (c.pc i)) hf) c hv hw hun (h.stays hstay)

end

end FSB
end S2P
