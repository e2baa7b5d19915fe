import Verif.Spec.Run
import Verif.Proofs.Paused
/-
C134: infinite executions under a fair scheduler: what is bound to happen does happen.
-/
namespace S2P
open Spec
variable {K V I : Type}
namespace SB
variable [LinearOrder K] [BEq V] [ReflBEq V] {cfg : SBCfg K V}

/-- An infinite execution of a stream buffer. -/
abbrev Forever (I : Type) (cfg : SBCfg K V) : Type := Run (SB.step cfg) (SB.init : SB K V I)

namespace Forever
variable {r : Forever I cfg}

/-- Every restart finds the threads of earlier sessions ended. -/
def Settled (r : Forever I cfg) : Prop := ∀ k, (r.st k).SettledAt (r.act k)

/-- The thread of session `t`, once started and until it has closed the source, gets its turns (and the source's `read()` and `close()` return or raise). -/
def FairThread (r : Forever I cfg) (t : Nat) : Prop :=
  r.Fair (fun s => Ev.launched t ∈ s.log ∧ ∀ ok, Ev.closed t ok ∉ s.log) (·.ofThread t)

/-- The consumer of reader `i` of session `b`, while inside a `for` loop, gets its turns (and the body of the loop ends). -/
def FairLoop (r : Forever I cfg) (b i : Nat) : Prop := r.Fair (fun s => ∃ c, s.view b = some c ∧ InLoop (c.pc i)) (isGo b i)

omit [ReflBEq V] in
theorem exec_seg (r : Forever I cfg) (k n : Nat) : (r.st k).exec cfg (r.seg k n) = some (r.st (k + n)) := by
  induction n with
  | zero => simp [Run.seg, SB.exec]
  | succ n ih => rw [Run.seg_succ, exec_append, ih]; simp only [Option.bind, SB.exec, r.next, Nat.add_assoc]

omit [ReflBEq V] in
theorem exec_to (r : Forever I cfg) (n : Nat) : (SB.init : SB K V I).exec cfg (r.seg 0 n) = some (r.st n) := by
  have := exec_seg r 0 n
  rwa [r.zero, Nat.zero_add] at this

omit [ReflBEq V] in
theorem settled_seg (h : r.Settled) (k n : Nat) : (r.st k).Settled cfg (r.seg k n) := by
  induction n generalizing k with
  | zero => trivial
  | succ n ih =>
    rw [Nat.add_comm, Run.seg_add]
    have : r.seg k 1 = [r.act k] := by simp [Run.seg]
    rw [this]
    refine ⟨h k, fun s' hs' => ?_⟩
    rw [r.next] at hs'
    injection hs' with hs'
    subst hs'
    exact ih (k + 1)

omit [ReflBEq V] in
theorem settled_to (h : r.Settled) (n : Nat) : (SB.init : SB K V I).Settled cfg (r.seg 0 n) := by
  have := settled_seg h 0 n
  rwa [r.zero] at this

/-- The same execution as one that may pause. -/
def still (r : Forever I cfg) : Paused I cfg := ⟨fun k => some (r.act k), r.st, r.zero, r.next⟩

omit [ReflBEq V] in
theorem still_fair {alive : SB K V I → Prop} {p : SBAct K V I → Bool} (h : r.Fair alive p) : (still r).WeakFair alive (fun a => a.any p) := h.weak

omit [ReflBEq V] in
theorem still_settled (h : r.Settled) : Paused.Settled (still r) := fun k a e => by injection e with e; subst e; exact h k

omit [ReflBEq V] in
theorem still_act {P : SBAct K V I → Prop} {k : Nat} (h : P (r.act k)) (a : SBAct K V I) (e : (still r).act k = some a) : P a := by
  injection e with e; subst e; exact h

omit [ReflBEq V] in
theorem log_mono (r : Forever I cfg) {k j : Nat} (h : k ≤ j) : (r.st k).log <+: (r.st j).log := Paused.log_mono (still r) h

/-- **C134** once the stop event of a session is set, by `stop()` or because its thread died, its source is closed, sooner or later. -/
theorem C134_stop_closes (hset : r.Settled) (t k : Nat) (hf : r.FairThread t) (hl : Ev.launched t ∈ (r.st k).log) (hs : Ev.eventSet t ∈ (r.st k).log) :
    ∃ j ok, k ≤ j ∧ Ev.closed t ok ∈ (r.st j).log :=
  Paused.stop_closes (r := still r) (still_settled hset) t k (still_fair hf) hl hs

/-- **C134** an exception of `read()`, of the append or in the loop ends the session: its source is closed, sooner or later. Any execution. -/
theorem C134_death_closes (t k : Nat) (hf : r.FairThread t) (hl : Ev.launched t ∈ (r.st k).log) (hd : Died (r.st k).log t) :
    ∃ j ok, k ≤ j ∧ Ev.closed t ok ∈ (r.st j).log :=
  Paused.death_closes (r := still r) t k (still_fair hf) hl hd

/-- **C134** `auto_drop=True`: the source is read again and again, until it is closed. Any execution. -/
theorem C134_reads_on (ha : cfg.autoDrop = true) (t k : Nat) (hf : r.FairThread t) (hl : Ev.launched t ∈ (r.st k).log) (n : Nat) :
    ∃ j, k ≤ j ∧ ((∃ ok, Ev.closed t ok ∈ (r.st j).log) ∨ n ≤ (r.st j).log.countP (isReadBy t)) :=
  Paused.reads_on (r := still r) ha t k (still_fair hf) hl n

omit [ReflBEq V] in
/-- A buffer once made stays. -/
theorem view_stays {k : Nat} {b : Nat} {c : Cons K V} (hv : (r.st k).view b = some c) {j : Nat} (h : k ≤ j) : ∃ c', (r.st j).view b = some c' :=
  Paused.view_stays (r := still r) hv h

/-- **C134** unbounded buffer, `auto_drop=True`: a `for` loop (default arguments) over a reader of a session is given everything that has been stored, sooner or
later, in order; or the session is stopped first. -/
theorem C134_loop_gets_all (hm : cfg.maxlen = none) (hd : cfg.autoDrop = true) (b i k : Nat) (hpk : (cfg.rdCfg i).peek = false)
    (hstr : (cfg.rdCfg i).strict = false) (hu : ∀ j, OneUser b i (r.act j)) (hf : r.FairLoop b i) (c : Cons K V) (hv : (r.st k).view b = some c)
    (hin : InLoop (c.pc i)) (hstay : ∀ j, k ≤ j → isLeave b i (r.act j) = false) :
    ∃ j c', k ≤ j ∧ (r.st j).view b = some c' ∧ (c'.stopped = true ∨ storedIn b (r.st k).log <+: received c' i) :=
  Paused.loop_gets_all (r := still r) hm hd b i k hpk hstr (fun j => still_act (hu j)) (still_fair hf) c hv hin (fun j a hj => still_act (P := fun a => isLeave b i a = false) (hstay j hj) a)

/-- From within a loop: still in it, or it has ended by itself, the session being stopped. -/
theorem loop_stays (b i k n : Nat) (hpk : (cfg.rdCfg i).peek = false) (hstr : (cfg.rdCfg i).strict = false) (c : Cons K V) (hv : (r.st k).view b = some c)
    (hin : InLoop (c.pc i)) (hstay : ∀ j, k ≤ j → isLeave b i (r.act j) = false) :
    ∃ c' ys, (r.st (k + n)).view b = some c' ∧ c'.evtsOf i = c.evtsOf i ++ ys ∧ (InLoop (c'.pc i) ∨ (.loopDone ∈ ys ∧ c'.stopped = true)) :=
  loop_stays_exec b i hpk hstr (exec_to r k) c hv hin (fun a ha => by obtain ⟨j, hj, -, rfl⟩ := r.mem_seg _ _ _ ha; exact hstay j hj) (exec_seg r k n)

/-- **C134** once a session is stopped (or its thread has died), a `for` loop over one of its readers ends by itself, sooner or later. Any settings. -/
theorem C134_loop_ends (hset : r.Settled) (b i k : Nat) (hpk : (cfg.rdCfg i).peek = false) (hstr : (cfg.rdCfg i).strict = false)
    (hu : ∀ j, OneUser b i (r.act j)) (hf : r.FairThread b) (hc : r.FairLoop b i) (hl : Ev.launched b ∈ (r.st k).log)
    (hs : Ev.eventSet b ∈ (r.st k).log) (c : Cons K V) (hv : (r.st k).view b = some c) (hin : InLoop (c.pc i))
    (hstay : ∀ j, k ≤ j → isLeave b i (r.act j) = false) :
    ∃ j c' ys, k ≤ j ∧ (r.st j).view b = some c' ∧ c'.evtsOf i = c.evtsOf i ++ ys ∧ .loopDone ∈ ys :=
  Paused.loop_ends (r := still r) (still_settled hset) b i k hpk hstr (fun j => still_act (hu j)) (still_fair hf) (still_fair hc) hl hs c hv hin
    (fun j a hj => still_act (P := fun a => isLeave b i a = false) (hstay j hj) a)

/-- **C134** `auto_drop=True`, `maxlen` not 0: a consumer that waits in `next`, a `for` loop or a blocking read with something unread is given something, sooner
or later; or the session is stopped first. -/
theorem C134_served (hd : cfg.autoDrop = true) (hm : cfg.maxlen ≠ some 0) (b i k : Nat) (hstr : (cfg.rdCfg i).strict = false)
    (hu : ∀ j, OneUser b i (r.act j)) (hf : r.Fair (fun s => ∃ c, s.view b = some c ∧ Waits (c.pc i)) (isGo b i)) (c : Cons K V)
    (hv : (r.st k).view b = some c) (hw : Waits (c.pc i)) (hun : unreadOf c.ch i ≠ [])
    (hstay : ∀ j, k ≤ j → isLeave b i (r.act j) = false) :
    ∃ j c', k ≤ j ∧ (r.st j).view b = some c' ∧ (c'.stopped = true ∨ ∃ e, e.items ≠ [] ∧ c.evtsOf i ++ [e] <+: c'.evtsOf i) :=
  Paused.served (r := still r) hd hm b i k hstr (fun j => still_act (hu j)) (still_fair hf) c hv hw hun
    (fun j a hj => still_act (P := fun a => isLeave b i a = false) (hstay j hj) a)

end Forever
end SB

namespace ObjSB
variable {σ : Type} [LinearOrder K] [BEq V] {o : SrcObj σ K V I} {cfg : SBCfg K V} {st : σ}

theorem step_below {s s' : ObjSB σ K V I} {x : ObjAct K V I} (hs : s.step o cfg x = some s') :
    ∃ a, s.sb.step cfg a = some s'.sb ∧ (∀ t, a.ofThread t = x.ofThread t) ∧ (∀ b i, SB.isGo b i a = x.isGo b i ∧
      ((∀ a, x = .other a → SB.OneUser b i a) → SB.OneUser b i a) ∧
      ((∀ a, x = .other a → SB.isLeave b i a = false) → SB.isLeave b i a = false)) ∧ (a = .startGo → x = .other .startGo) := by
  unfold step at hs
  split at hs
  · simp at hs
  rename_i a st hact
  obtain ⟨y, hy, rfl⟩ := Option.map_eq_some_iff.1 hs
  refine ⟨a, hy, ?_⟩
  unfold act at hact
  cases x
  all_goals
    dsimp only at hact
    repeat' split at hact
    all_goals first
      | (injection hact with hact; injection hact with h1 h2; subst h1; exact ⟨fun _ => rfl, fun b i => ⟨rfl, fun h => by first | exact h _ rfl | trivial, fun h => by first | exact h _ rfl | rfl⟩, fun e => by first | (rw [e]; done) | simp at e⟩)
      | simp at hact

/-- The infinite execution of the stream buffer below. -/
theorem run_below (r : Run (ObjSB.step o cfg) (ObjSB.init st)) : ∃ q : SB.Forever I cfg, ∀ k, q.st k = (r.st k).sb ∧
    (∀ t, (q.act k).ofThread t = (r.act k).ofThread t) ∧ (∀ b i, SB.isGo b i (q.act k) = (r.act k).isGo b i ∧
      ((∀ a, r.act k = .other a → SB.OneUser b i a) → SB.OneUser b i (q.act k)) ∧
      ((∀ a, r.act k = .other a → SB.isLeave b i a = false) → SB.isLeave b i (q.act k) = false)) ∧ (q.act k = .startGo → r.act k = .other .startGo) := by
  have h := fun k => step_below (r.next k)
  refine ⟨⟨fun k => (h k).choose, fun k => (r.st k).sb, by rw [r.zero]; rfl, fun k => (h k).choose_spec.1⟩, fun k => ⟨rfl, (h k).choose_spec.2⟩⟩

theorem exec_seg (r : Run (ObjSB.step o cfg) (ObjSB.init st)) (k n : Nat) : (r.st k).exec o cfg (r.seg k n) = some (r.st (k + n)) := by
  induction n with
  | zero => simp [Run.seg, exec]
  | succ n ih => rw [Run.seg_succ, exec_append, ih]; simp only [Option.bind, exec, r.next, Nat.add_assoc]

theorem calm_seg (r : Run (ObjSB.step o cfg) (ObjSB.init st)) (h : ∀ k, r.act k = .other .start → ∀ t, ((r.st k).sb.thr t).idle = true) (k n : Nat) :
    (r.st k).Calm o cfg (r.seg k n) := by
  induction n generalizing k with
  | zero => trivial
  | succ n ih =>
    rw [Nat.add_comm, Run.seg_add]
    have : r.seg k 1 = [r.act k] := by simp [Run.seg]
    rw [this]
    refine ⟨h k, fun s' hs' => ?_⟩
    rw [r.next] at hs'
    injection hs' with hs'
    subst hs'
    exact ih (k + 1)

end ObjSB

namespace Counter
variable {start stop : Int} {cfg : SBCfg Int (List Char)}

/-- **C134** a `for` loop over a session of `SimpleCounterString(start, stop)` with an unbounded buffer (`start()` only when no earlier thread is alive) is given
`s{start}`, ..., `s{stop-1}`, all of them, in order, each once, and nothing else, sooner or later; or the session is stopped first. -/
theorem C134_counter (hf : ObjSB.Fits (counter start stop) cfg) (hm : cfg.maxlen = none) (hd : cfg.autoDrop = true) (b i k : Nat)
    (hpk : (cfg.rdCfg i).peek = false) (hstr : (cfg.rdCfg i).strict = false)
    (r : Run (ObjSB.step (counter start stop) cfg) (ObjSB.init new))
    (hcalm : ∀ k, r.act k = .other .start → ∀ t, ((r.st k).sb.thr t).idle = true) (hu : ∀ k a, r.act k = .other a → SB.OneUser b i a)
    (ht : r.Fair (fun s => Ev.launched b ∈ s.sb.log ∧ ∀ ok, Ev.closed b ok ∉ s.sb.log) (·.ofThread b))
    (hc : r.Fair (fun s => ∃ c, s.sb.view b = some c ∧ SB.InLoop (c.pc i)) (·.isGo b i))
    (hl : Ev.launched b ∈ (r.st k).sb.log) (c : Cons Int (List Char)) (hv : (r.st k).sb.view b = some c) (hin : SB.InLoop (c.pc i))
    (hstay : ∀ j a, k ≤ j → r.act j = .other a → SB.isLeave b i a = false) :
    ∃ j c', k ≤ j ∧ (r.st j).sb.view b = some c' ∧ (c'.stopped = true ∨ received c' i = labels start (stop - start).toNat) := by
  by_contra hno
  simp only [not_exists, not_and, not_or] at hno
  obtain ⟨q, hq⟩ := ObjSB.run_below r
  have hst : ∀ j, k ≤ j → ∃ c', (r.st j).sb.view b = some c' ∧ c'.stopped = false ∧ SB.InLoop (c'.pc i) := by
    intro j hj
    obtain ⟨n, rfl⟩ := Nat.exists_eq_add_of_le hj
    obtain ⟨c', ys, h1, h2, h3⟩ := SB.Forever.loop_stays (r := q) b i k n hpk hstr c (by rw [(hq k).1]; exact hv) hin
      (fun j hj => ((hq j).2.2.1 b i).2.2 fun a h => hstay j a hj h)
    rw [(hq (k + n)).1] at h1
    have h4 : c'.stopped = false := by simpa using (hno (k + n) c' hj h1).1
    exact ⟨c', h1, h4, h3.resolve_right fun h => by rw [h4] at h; simp at h⟩
  have hlog : ∀ {j}, k ≤ j → Ev.launched b ∈ (r.st j).sb.log := by
    intro j hj
    have := (SB.Forever.log_mono q hj).subset
    rw [(hq k).1, (hq j).1] at this
    exact this hl
  have hcl : ∀ j, k ≤ j → ∀ ok, Ev.closed b ok ∉ (r.st j).sb.log := by
    intro j hj ok h
    obtain ⟨c', h1, h2, -⟩ := hst j hj
    have := SB.C41_readers_see_stop (SB.Forever.exec_to q j) b ok (by rw [(hq j).1]; exact h) c' (by rw [(hq j).1]; exact h1)
    rw [h2] at this; simp at this
  obtain ⟨m, hm1⟩ := r.many ht k (fun j hj => ⟨hlog hj, hcl j hj⟩) (6 * (stop - start).toNat + 10)
  obtain ⟨n, hn⟩ := r.many hc (k + m) (fun j hj => by obtain ⟨c', h1, -, h3⟩ := hst j (by omega); exact ⟨c', h1, h3⟩) (2 * (stop - start).toNat + 2)
  obtain ⟨c1, h1, -, h3⟩ := hst (k + m) (by omega)
  have hzero : ∀ n, (ObjSB.init new : ObjSB St Int (List Char) Info).exec (counter start stop) cfg (r.seg 0 n) = some (r.st n) := by
    intro n
    have := ObjSB.exec_seg r 0 n
    rwa [r.zero, Nat.zero_add] at this
  have hsplit : r.seg 0 (k + m) ++ r.seg (k + m) n = r.seg 0 (k + m + n) := by rw [Run.seg_add r 0 (k + m) n, Nat.zero_add]
  obtain ⟨hun, -⟩ : (unreadOf c1.ch i).length ≤ (stop - start).toNat ∧ True := by
    have := congrArg List.length (C88_counter_delivers hf hm hd b i hpk (hzero (k + m)) (by have := ObjSB.calm_seg r hcalm 0 (k + m); rwa [r.zero] at this)
      (fun a ha => by obtain ⟨j, -, -, h⟩ := r.mem_seg _ _ _ ha; exact hu j a h.symm) c1 h1
      (by rw [Run.seg_add, List.countP_append, Nat.zero_add]; omega))
    simp only [List.length_append, labels, List.length_map, List.length_range] at this
    exact ⟨by omega, trivial⟩
  obtain ⟨-, c', hv', hrec⟩ := C93_counter_loop hf hm hd b i hpk hstr (hzero (k + m)) (ObjSB.exec_seg r (k + m) n)
    (by rw [hsplit]; have := ObjSB.calm_seg r hcalm 0 (k + m + n); rwa [r.zero] at this)
    (fun a ha => by rw [hsplit] at ha; obtain ⟨j, -, -, h⟩ := r.mem_seg _ _ _ ha; exact hu j a h.symm)
    (fun a ha => by obtain ⟨j, hj, -, h⟩ := r.mem_seg _ _ _ ha; exact hstay j a (by omega) h.symm) c1 h1
    (by rw [Run.seg_add, List.countP_append, Nat.zero_add]; omega)
    (.inr ⟨h3, fun c' h => by obtain ⟨c2, h4, h5, -⟩ := hst (k + m + n) (by omega); rw [h] at h4; injection h4 with h4; rw [h4]; exact h5, by omega⟩)
  exact (hno (k + m + n) c' (by omega) hv').2 hrec

end Counter
end S2P
