import Verif.Props.Fair
import Verif.Props.EndToEndWitness
import Verif.Props.CarefulWitness
/-
Infinite executions that meet the hypotheses of C134: a beginning, then the same steps again and again.
-/
namespace S2P
open Spec

section
variable {σ α : Type} {step : σ → α → Option σ} {s0 : σ}

/-- The `i`-th choice of: `p`, then `cyc` for ever. -/
def lassoAct [Inhabited α] (p cyc : List α) (i : Nat) : α := if i < p.length then p[i]! else cyc[(i - p.length) % cyc.length]!

theorem lasso_prefix [Inhabited α] (p cyc : List α) : (List.range p.length).map (lassoAct p cyc) = p := by
  refine List.ext_getElem (by simp) fun n h1 h2 => ?_
  simp only [List.length_map, List.length_range] at h1
  simp [lassoAct, h1]

theorem lasso_cycle [Inhabited α] (p cyc : List α) (q : Nat) : (List.range cyc.length).map (fun j => lassoAct p cyc (p.length + q * cyc.length + j)) = cyc := by
  refine List.ext_getElem (by simp) fun n h1 h2 => ?_
  have : p.length + q * cyc.length + n - p.length = n + q * cyc.length := by omega
  have h3 : ¬ p.length + q * cyc.length + n < p.length := by omega
  simp only [List.getElem_map, List.getElem_range, lassoAct, h3, if_false, this, Nat.add_mul_mod_self_right, Nat.mod_eq_of_lt h2]
  exact getElem!_pos cyc n h2

/-- A cycle that can always be repeated gives an infinite execution. -/
theorem lasso_run_inv [Inhabited α] (p cyc : List α) (hc : cyc ≠ []) (P : σ → Prop) (h0 : ∃ s, p.foldlM step s0 = some s ∧ P s)
    (hP : ∀ s, P s → ∃ s', cyc.foldlM step s = some s' ∧ P s') :
    ∃ r : Run step s0, (∀ i, r.act i = lassoAct p cyc i) ∧ ∀ q, P (r.st (p.length + q * cyc.length)) := by
  have hL : 0 < cyc.length := List.length_pos_iff.2 hc
  have hq : ∀ q, ∃ s, ((List.range (p.length + q * cyc.length)).map (lassoAct p cyc)).foldlM step s0 = some s ∧ P s := by
    intro q
    induction q with
    | zero => rw [Nat.zero_mul, Nat.add_zero, lasso_prefix]; exact h0
    | succ q ih =>
      obtain ⟨s, h1, h2⟩ := ih
      obtain ⟨s', h3, h4⟩ := hP s h2
      refine ⟨s', ?_, h4⟩
      rw [Nat.succ_mul, ← Nat.add_assoc, List.range_add, List.map_append, List.map_map, List.foldlM_append, h1]
      have := lasso_cycle p cyc q
      simp only [Function.comp_def]
      rw [this]
      exact h3
  have hall : ∀ n, ∃ s, ((List.range n).map (lassoAct p cyc)).foldlM step s0 = some s := by
    intro n
    obtain ⟨s, h1, -⟩ := hq n
    have hle : n ≤ p.length + n * cyc.length := le_trans (Nat.le_mul_of_pos_right n hL) (Nat.le_add_left _ _)
    obtain ⟨d, hd⟩ := Nat.exists_eq_add_of_le hle
    rw [hd, List.range_add, List.map_append, List.foldlM_append] at h1
    cases h2 : ((List.range n).map (lassoAct p cyc)).foldlM step s0 with
    | none => rw [h2] at h1; simp at h1
    | some t => exact ⟨t, rfl⟩
  choose st hst using hall
  refine ⟨⟨lassoAct p cyc, st, ?_, fun n => ?_⟩, fun _ => rfl, fun q => ?_⟩
  · have := hst 0
    simpa using this.symm
  · have h2 := hst (n + 1)
    rw [List.range_succ, List.map_append, List.foldlM_append, hst n] at h2
    simpa using h2
  · obtain ⟨s, h1, h2⟩ := hq q
    rw [hst] at h1
    injection h1 with h1
    subst h1
    exact h2

theorem lasso_run [Inhabited α] (p cyc : List α) (hc : cyc ≠ []) (P : σ → Prop) (h0 : ∃ s, p.foldlM step s0 = some s ∧ P s)
    (hP : ∀ s, P s → ∃ s', cyc.foldlM step s = some s' ∧ P s') : ∃ r : Run step s0, ∀ i, r.act i = lassoAct p cyc i := by
  obtain ⟨r, hr, -⟩ := lasso_run_inv p cyc hc P h0 hP
  exact ⟨r, hr⟩

theorem lasso_seg [Inhabited α] {p cyc : List α} {r : Run step s0} (hr : ∀ i, r.act i = lassoAct p cyc i) (n : Nat) (h : n ≤ p.length) :
    r.seg 0 n = p.take n := by
  refine List.ext_getElem (by simp [Run.seg, h]) fun j h1 h2 => ?_
  simp only [Run.seg, List.length_map, List.length_range] at h1
  have : j < p.length := by omega
  simp [Run.seg, hr, lassoAct, this]

/-- Every choice of a lasso is one of the beginning or of the cycle. -/
theorem lasso_mem [Inhabited α] {p cyc : List α} (hc : cyc ≠ []) (i : Nat) :
    (i < p.length ∧ lassoAct p cyc i ∈ p) ∨ (p.length ≤ i ∧ lassoAct p cyc i ∈ cyc) := by
  unfold lassoAct
  split
  · rename_i h; exact .inl ⟨h, by rw [getElem!_pos p i h]; exact List.getElem_mem h⟩
  · have h : (i - p.length) % cyc.length < cyc.length := Nat.mod_lt _ (List.length_pos_iff.2 hc)
    exact .inr ⟨by omega, by rw [getElem!_pos cyc _ h]; exact List.getElem_mem h⟩

/-- Every choice of the cycle is made again and again. -/
theorem lasso_again [Inhabited α] {p cyc : List α} {r : Run step s0} (hr : ∀ i, r.act i = lassoAct p cyc i) (d : Nat) (hd : d < cyc.length) (k : Nat) :
    ∃ j, k ≤ j ∧ r.act j = cyc[d] := by
  refine ⟨p.length + k * cyc.length + d, ?_, ?_⟩
  · have : k ≤ k * cyc.length := Nat.le_mul_of_pos_right k (by omega)
    omega
  · rw [hr, lassoAct, if_neg (by omega)]
    have : (p.length + k * cyc.length + d - p.length) % cyc.length = d := by
      rw [show p.length + k * cyc.length + d - p.length = d + k * cyc.length by omega, Nat.add_mul_mod_self_right, Nat.mod_eq_of_lt hd]
    rw [this]
    exact getElem!_pos cyc d hd

end

namespace SB

theorem foldlM_exec {K V I : Type} [LT K] [DecidableLT K] [BEq V] (cfg : SBCfg K V) (as : List (SBAct K V I)) : ∀ s : SB K V I,
    as.foldlM (SB.step cfg) s = s.exec cfg as := by
  induction as with
  | nil => intro s; rfl
  | cons a as ih =>
    intro s
    rw [List.foldlM_cons, exec]
    cases h : s.step cfg a with
    | none => rfl
    | some s' => exact ih s'

instance : Inhabited A := ⟨.isRunning⟩

/-- One item is stored; a `for` loop begins, gets it, waits; `stop()`; the thread closes the source; then the loop ends. -/
def fStop : List A := wStart 7 ++ wItem 0 1 ++ [.rd 0 (.callIter 0), .rd 0 (.go 0)] ++ wStop 0 ++ [.rd 0 (.go 0), .rd 0 (.go 0), .rd 0 (.go 0)]

/-- `fStop`, and then somebody asks `is_running` for ever. -/
theorem run_stop : ∃ r : Forever Nat (mkCfg none true), ∀ i, r.act i = lassoAct fStop [.isRunning] i := by
  refine lasso_run fStop [.isRunning] (by simp) (fun s => s.start = none) ?_ ?_
  · have h : ∃ s : S, SB.init.exec (mkCfg none true) fStop = some s ∧ s.start = none := ⟨_, rfl, rfl⟩
    rw [foldlM_exec]
    exact h
  · intro s h
    refine ⟨s.say (.isRunning s.running), ?_, h⟩
    rw [foldlM_exec]
    simp only [exec, step, h, if_true]

/-- The first states of an execution that begins with `p`. -/
theorem lasso_st {p cyc : List A} {cfg : SBCfg Nat Nat} {r : Forever Nat cfg} (hr : ∀ i, r.act i = lassoAct p cyc i) (n : Nat) (h : n ≤ p.length) :
    SB.init.exec cfg (p.take n) = some (r.st n) := by
  rw [← lasso_seg hr n h]; exact Forever.exec_to r n

theorem lasso_settled {p cyc : List A} {cfg : SBCfg Nat Nat} {r : Forever Nat cfg} (hc : cyc ≠ []) (hr : ∀ i, r.act i = lassoAct p cyc i)
    (hp : (SB.init : S).Settled cfg p) (hno : .startGo ∉ cyc) : r.Settled := by
  intro k
  rw [hr]
  rcases lasso_mem (p := p) hc k with ⟨h, -⟩ | ⟨-, h⟩
  · have h1 : p = p.take k ++ (p[k] :: p.drop (k + 1)) := by rw [List.getElem_cons_drop, List.take_append_drop]
    rw [h1] at hp
    have := (hp.split (lasso_st hr k (by omega))).2.1
    rw [lassoAct, if_pos h, getElem!_pos p k h]
    exact this
  · intro he
    rw [he] at h
    exact absurd h hno

theorem lasso_all {p cyc : List A} {cfg : SBCfg Nat Nat} {r : Forever Nat cfg} (hc : cyc ≠ []) (hr : ∀ i, r.act i = lassoAct p cyc i) {P : A → Prop}
    (hP : ∀ a ∈ p ++ cyc, P a) (k : Nat) : P (r.act k) := by
  rw [hr]
  refine hP _ ?_
  rcases lasso_mem (p := p) hc k with ⟨-, h⟩ | ⟨-, h⟩ <;> simp [h]

/-- Meets `C134_stop_closes` and `C134_loop_ends` (and `C134_reads_on`, `C134_served`). -/
theorem C134_meets : ∃ (r : Forever Nat (mkCfg none true)) (c : Cons Nat Nat), r.Settled ∧ r.FairThread 0 ∧ r.FairLoop 0 0 ∧ (∀ j, OneUser 0 0 (r.act j)) ∧ (∀ j, isLeave 0 0 (r.act j) = false) ∧
    Ev.launched 0 ∈ (r.st 17).log ∧ Ev.eventSet 0 ∈ (r.st 17).log ∧ (r.st 17).view 0 = some c ∧ InLoop (c.pc 0) := by
  obtain ⟨r, hr⟩ := run_stop
  have hst : ∀ n, n ≤ 24 → SB.init.exec (mkCfg none true) (fStop.take n) = some (r.st n) := fun n h => lasso_st hr n h
  have h17 : ∃ s : S, SB.init.exec (mkCfg none true) (fStop.take 17) = some s ∧ Ev.launched 0 ∈ s.log ∧ Ev.eventSet 0 ∈ s.log ∧
      ∃ c, s.view 0 = some c ∧ InLoop (c.pc 0) :=
    ⟨_, rfl, List.mem_of_getElem? (i := 2) rfl, List.mem_of_getElem? (i := 5) rfl, _, rfl, trivial⟩
  obtain ⟨s, h1, h2, h3, c, h4, h5⟩ := h17
  rw [hst 17 (by omega)] at h1
  injection h1 with h1
  subst h1
  have h20 : ∃ s : S, SB.init.exec (mkCfg none true) (fStop.take 20) = some s ∧ Ev.closed 0 true ∈ s.log := ⟨_, rfl, List.mem_of_getElem? (i := 7) rfl⟩
  obtain ⟨s, h1, hcl⟩ := h20
  rw [hst 20 (by omega)] at h1
  injection h1 with h1
  subst h1
  have h24 : ∃ s : S, SB.init.exec (mkCfg none true) (fStop.take 24) = some s ∧ ∃ c, s.view 0 = some c ∧ c.pc 0 = .idle := ⟨_, rfl, _, rfl, rfl⟩
  obtain ⟨s, h1, hid⟩ := h24
  rw [hst 24 (by omega)] at h1
  injection h1 with h1
  subst h1
  have hafter : ∀ n, ∃ c, (r.st (24 + n)).view 0 = some c ∧ c.pc 0 = .idle := by
    intro n
    induction n with
    | zero => exact hid
    | succ n ih =>
      have hs := r.next (24 + n)
      have : r.act (24 + n) = .isRunning := by
        rw [hr]
        rcases lasso_mem (p := fStop) (cyc := [SBAct.isRunning]) (by simp) (24 + n) with ⟨h, -⟩ | ⟨-, h⟩
        · exact absurd h (by simp [show fStop.length = 24 from rfl])
        · simpa using h
      rw [this] at hs
      simp only [step] at hs
      split at hs
      · injection hs with hs
        rw [← Nat.add_assoc, ← hs]
        exact ih
      · simp at hs
  refine ⟨r, c, lasso_settled (by simp) hr (settled_of_check rfl) (by simp), ?_, ?_, lasso_all (by simp) hr (oneUser_of_check rfl), lasso_all (by simp) hr (stay_of_check rfl), h2, h3, h4, h5⟩
  · rintro k ⟨-, hk⟩
    by_cases h : k ≤ 19
    · exact ⟨19, h, by rw [hr]; rfl⟩
    · exact absurd ((Forever.log_mono r (by omega)).subset hcl) (hk true)
  · rintro k ⟨c, hv, hin⟩
    by_cases h : k ≤ 23
    · exact ⟨23, h, by rw [hr]; rfl⟩
    · obtain ⟨n, rfl⟩ := Nat.exists_eq_add_of_le (show 24 ≤ k by omega)
      obtain ⟨c', h1, h2⟩ := hafter n
      rw [hv] at h1; injection h1 with h1; subst h1
      rw [h2] at hin; exact hin.elim

/-- Two items are stored, a `for` loop begins. -/
def fBegin : List A := wStart 7 ++ wItem 0 1 ++ wItem 0 2 ++ [.rd 0 (.callIter 0)]
/-- The source gives `None`, the loop does one step. -/
def fAgain : List A := wNone 0 ++ [.rd 0 (.go 0)]

/-- The thread is about to look at the event, which is not set; consumer 0 is in its loop. -/
structure Idling (s : S) : Prop where
  reach : ∃ as, SB.init.exec (mkCfg none true) as = some s
  thr : s.thr 0 = .check
  evt : s.stopEvent = some 0
  flag : s.flag 0 = false
  loop : ∃ c, s.view 0 = some c ∧ InLoop (c.pc 0)

theorem go_some {c : Cons Nat Nat} (h : InLoop (c.pc 0)) : ∃ c', c.go 0 = some c' := by
  unfold Cons.go
  cases hp : c.pc 0 <;> rw [hp] at h <;> first | exact h.elim | (dsimp only; split <;> exact ⟨_, rfl⟩) | exact ⟨_, rfl⟩

theorem idling_on (s : S) (h : Idling s) : ∃ s', s.exec (mkCfg none true) fAgain = some s' ∧ Idling s' := by
  obtain ⟨⟨as, hr⟩, h1, h2, h3, c, hv, hin⟩ := h
  have e1 : s.exec (mkCfg none true) (wNone 0) = some ((((((s.setThr 0 .cap).setThr 0 .reading).setThr 0 .sleeping).say (.read 0 none))).setThr 0 .check) := by
    simp [wNone, exec, step, thrGo, h1, h2, h3, setThr, say, mkCfg]
  generalize hs1 : (((((s.setThr 0 .cap).setThr 0 .reading).setThr 0 .sleeping).say (.read 0 none))).setThr 0 .check = s1 at e1
  have hv1 : s1.view 0 = some c := by rw [← hs1]; exact hv
  obtain ⟨x, hx, hc⟩ := Option.map_eq_some_iff.1 hv1
  obtain ⟨c', hgo⟩ := go_some hin
  have e2 : s1.exec (mkCfg none true) [.rd 0 (.go 0)] = some (s1.setBuf 0 { x with cons := c' }) := by
    simp only [exec, step, CAct.isReaders, if_true, hx, Cons.step]
    rw [hc, hgo]
  have e : s.exec (mkCfg none true) fAgain = some (s1.setBuf 0 { x with cons := c' }) := by
    rw [fAgain, exec_append, e1]; exact e2
  refine ⟨_, e, ⟨as ++ fAgain, by rw [exec_append, hr]; exact e⟩, by rw [← hs1]; simp [setBuf, setThr], by rw [← hs1]; exact h2, by rw [← hs1]; exact h3, ?_⟩
  obtain ⟨c2, ys, hv2, -, hor⟩ := loop_stays_exec 0 0 rfl rfl hr c hv hin (stay_of_check rfl) e
  refine ⟨c2, hv2, hor.resolve_right fun h => ?_⟩
  obtain ⟨x2, hx2, hc2⟩ := Option.map_eq_some_iff.1 hv2
  have hevt : x2.evt = 0 := (good (as := as ++ fAgain) (by rw [exec_append, hr]; exact e)).inv.evt 0 x2 hx2
  have : c2.stopped = s1.flag 0 := by rw [← hc2, hevt]; rfl
  rw [this, ← hs1] at h
  have h3' : (((((s.setThr 0 .cap).setThr 0 .reading).setThr 0 .sleeping).say (.read 0 none)).setThr 0 .check).flag 0 = false := h3
  rw [h3'] at h
  simp at h

theorem run_on : ∃ r : Forever Nat (mkCfg none true), ∀ i, r.act i = lassoAct fBegin fAgain i := by
  refine lasso_run fBegin fAgain (by simp [fAgain]) Idling ?_ ?_
  · have h : ∃ s : S, SB.init.exec (mkCfg none true) fBegin = some s ∧ s.thr 0 = .check ∧ s.stopEvent = some 0 ∧ s.flag 0 = false ∧
        ∃ c, s.view 0 = some c ∧ InLoop (c.pc 0) := ⟨_, rfl, rfl, rfl, rfl, _, rfl, trivial⟩
    obtain ⟨s, h0, h1, h2, h3, h4⟩ := h
    exact ⟨s, by rw [foldlM_exec]; exact h0, ⟨fBegin, h0⟩, h1, h2, h3, h4⟩
  · intro s h
    rw [foldlM_exec]
    exact idling_on s h

/-- Meets `C134_loop_gets_all`, `C134_reads_on` and `C134_served`: a stream that is never stopped; two items are unread when the loop begins. -/
theorem C134_meets_on : ∃ (r : Forever Nat (mkCfg none true)) (c : Cons Nat Nat), r.Settled ∧ r.FairThread 0 ∧ r.FairLoop 0 0 ∧ (∀ j, OneUser 0 0 (r.act j)) ∧ (∀ j, isLeave 0 0 (r.act j) = false) ∧
    r.Fair (fun s => ∃ c, s.view 0 = some c ∧ Waits (c.pc 0)) (isGo 0 0) ∧
    Ev.launched 0 ∈ (r.st 20).log ∧ (r.st 20).view 0 = some c ∧ InLoop (c.pc 0) ∧ Waits (c.pc 0) ∧ unreadOf c.ch 0 = [1, 2] ∧ received c 0 = [] := by
  obtain ⟨r, hr⟩ := run_on
  have h20 : ∃ s : S, SB.init.exec (mkCfg none true) (fBegin.take 20) = some s ∧ Ev.launched 0 ∈ s.log ∧
      ∃ c, s.view 0 = some c ∧ InLoop (c.pc 0) ∧ Waits (c.pc 0) ∧ unreadOf c.ch 0 = [1, 2] ∧ received c 0 = [] :=
    ⟨_, rfl, List.mem_of_getElem? (i := 2) rfl, _, rfl, trivial, trivial, rfl, rfl⟩
  obtain ⟨s, h1, h2, c, h3⟩ := h20
  rw [lasso_st hr 20 (by decide)] at h1
  injection h1 with h1
  subst h1
  have hgo : ∀ k, ∃ j, k ≤ j ∧ isGo 0 0 (r.act j) = true := by
    intro k
    obtain ⟨j, h1, h2⟩ := lasso_again hr 4 (by decide) k
    exact ⟨j, h1, by rw [h2]; rfl⟩
  refine ⟨r, c, lasso_settled (by simp [fAgain]) hr (settled_of_check rfl) (by simp [fAgain, wNone]), ?_, fun k _ => hgo k,
    lasso_all (by simp [fAgain]) hr (oneUser_of_check rfl), lasso_all (by simp [fAgain]) hr (stay_of_check rfl), fun k _ => hgo k, h2, h3⟩
  intro k _
  obtain ⟨j, h1, h2⟩ := lasso_again hr 0 (by decide) k
  exact ⟨j, h1, by rw [h2]; rfl⟩

end SB

namespace Counter
instance : Inhabited A := ⟨.other .isRunning⟩

/-- A session of `SimpleCounterString(-1, 1)` in which a loop is begun and both strings are stored; then `None` and one step of the loop for ever. -/
def oBegin : List A := cStart ++ [.other (.rd 0 (.callIter 0))] ++ cItem 0 ++ cItem 0
def oAgain : List A := cNone 0 ++ [.other (.rd 0 (.go 0))]

/-- The counter is at its end, the stream runs, consumer 0 is in its loop. -/
structure Idling (s : S) : Prop where
  reach : ∃ as, SB.init.exec (cCfg none (-1) 1) as = some s.sb
  iter : s.st.iter = some 1
  thr : s.sb.thr 0 = .check
  evt : s.sb.stopEvent = some 0
  flag : s.sb.flag 0 = false
  loop : ∃ c, s.sb.view 0 = some c ∧ SB.InLoop (c.pc 0)

theorem foldlM_exec {σ K V I : Type} [LT K] [DecidableLT K] [BEq V] (o : SrcObj σ K V I) (cfg : SBCfg K V) (as : List (ObjAct K V I)) : ∀ s : ObjSB σ K V I,
    as.foldlM (ObjSB.step o cfg) s = s.exec o cfg as := by
  induction as with
  | nil => intro s; rfl
  | cons a as ih =>
    intro s
    rw [List.foldlM_cons, ObjSB.exec]
    cases h : s.step o cfg a with
    | none => rfl
    | some s' => exact ih s'

theorem go_some {c : Cons Int (List Char)} (h : SB.InLoop (c.pc 0)) : ∃ c', c.go 0 = some c' := by
  unfold Cons.go
  cases hp : c.pc 0 <;> rw [hp] at h <;> first | exact h.elim | (dsimp only; split <;> exact ⟨_, rfl⟩) | exact ⟨_, rfl⟩

theorem idling_on (s : S) (h : Idling s) : ∃ s', s.exec (counter (-1) 1) (cCfg none (-1) 1) oAgain = some s' ∧ Idling s' := by
  obtain ⟨⟨as, hr⟩, h0, h1, h2, h3, c, hv, hin⟩ := h
  have e1 : s.exec (counter (-1) 1) (cCfg none (-1) 1) (cNone 0) =
      some { s with sb := ((((s.sb.setThr 0 .cap).setThr 0 .reading).setThr 0 .sleeping).say (.read 0 none)).setThr 0 .check } := by
    simp [cNone, ObjSB.exec, ObjSB.step, ObjSB.act, SBAct.notSource, SB.stores, SB.step, SB.thrGo, h1, h2, h3, SB.setThr, SB.say, cCfg, counter, read, h0]
  generalize hs1 : ((((s.sb.setThr 0 .cap).setThr 0 .reading).setThr 0 .sleeping).say (.read 0 none)).setThr 0 .check = s1 at e1
  have hv1 : s1.view 0 = some c := by rw [← hs1]; exact hv
  obtain ⟨x, hx, hc⟩ := Option.map_eq_some_iff.1 hv1
  obtain ⟨c', hgo⟩ := go_some hin
  have e2 : (({ s with sb := s1 } : S)).exec (counter (-1) 1) (cCfg none (-1) 1) [.other (.rd 0 (.go 0))] =
      some { s with sb := s1.setBuf 0 { x with cons := c' } } := by
    simp only [ObjSB.exec, ObjSB.step, ObjSB.act, SBAct.notSource, SB.stores, Bool.not_false, Bool.and_self, if_true, SB.step, CAct.isReaders, hx, Cons.step]
    rw [hc, hgo]
    rfl
  have e : s.exec (counter (-1) 1) (cCfg none (-1) 1) oAgain = some { s with sb := s1.setBuf 0 { x with cons := c' } } := by
    rw [oAgain, ObjSB.exec_append, e1]; exact e2
  obtain ⟨bs, hbs, hbs2⟩ := ObjSB.exec_user _ _ e
  have hr' : SB.init.exec (cCfg none (-1) 1) (as ++ bs) = some (s1.setBuf 0 { x with cons := c' }) := by rw [SB.exec_append, hr]; exact hbs
  refine ⟨_, e, ⟨as ++ bs, hr'⟩, h0, by rw [← hs1]; simp [SB.setBuf, SB.setThr], by rw [← hs1]; exact h2, by rw [← hs1]; exact h3, ?_⟩
  obtain ⟨c2, ys, hv2, -, hor⟩ := SB.loop_stays_exec 0 0 rfl rfl hr c hv hin
    ((hbs2 0 0).2.2 fun a ha => by simp [oAgain, cNone] at ha; rcases ha with h | h <;> subst h <;> rfl) hbs
  refine ⟨c2, hv2, hor.resolve_right fun h => ?_⟩
  obtain ⟨x2, hx2, hc2⟩ := Option.map_eq_some_iff.1 hv2
  have hevt : x2.evt = 0 := (SB.good hr').inv.evt 0 x2 hx2
  have : c2.stopped = s1.flag 0 := by rw [← hc2, hevt]; rfl
  rw [this, ← hs1] at h
  have h3' : (((((s.sb.setThr 0 .cap).setThr 0 .reading).setThr 0 .sleeping).say (.read 0 none)).setThr 0 .check).flag 0 = false := h3
  rw [h3'] at h
  simp at h

theorem run_on : ∃ r : Run (ObjSB.step (counter (-1) 1) (cCfg none (-1) 1)) (ObjSB.init new : S), ∀ i, r.act i = lassoAct oBegin oAgain i := by
  refine lasso_run oBegin oAgain (by simp [oAgain]) Idling ?_ ?_
  · have h : ∃ s : S, (ObjSB.init new).exec (counter (-1) 1) (cCfg none (-1) 1) oBegin = some s ∧ s.st.iter = some 1 ∧ s.sb.thr 0 = .check ∧
        s.sb.stopEvent = some 0 ∧ s.sb.flag 0 = false ∧ ∃ c, s.sb.view 0 = some c ∧ SB.InLoop (c.pc 0) := ⟨_, rfl, rfl, rfl, rfl, rfl, _, rfl, trivial⟩
    obtain ⟨s, h0, h1, h2, h3, h4, h5⟩ := h
    obtain ⟨bs, hbs, -⟩ := ObjSB.exec_user _ _ h0
    exact ⟨s, by rw [foldlM_exec]; exact h0, ⟨bs, hbs⟩, h1, h2, h3, h4, h5⟩
  · intro s h
    rw [foldlM_exec]
    exact idling_on s h

/-- Is the choice one `OneUser 0 0` allows?  (a sufficient check) -/
def oneOk : A → Bool
  | .other (.rd r (.callIter t)) => r == 0 && t == 0
  | .other (.rd r (.go t)) => r == 0 && t == 0
  | .other .start => true
  | .other .startGo => true
  | .other (.thr _) => true
  | .other _ => false
  | _ => true

/-- Check of `OneUser` for all choices of a list. -/
theorem one_of_check {as : List A} (h : as.all oneOk = true) (a : SBAct Int (List Char) Info) (ha : .other a ∈ as) : SB.OneUser 0 0 a := by
  have := List.all_eq_true.1 h _ ha
  unfold oneOk at this
  split at this <;> rename_i he <;> first
    | (injection he with he; subst he; intro _; trivial)
    | (injection he with he; subst he; trivial)
    | (simp at this; done)
    | exact (he a rfl).elim

/-- Check that no choice of a list is consumer 0 leaving its loop. -/
def stayOk : A → Bool
  | .other a => !SB.isLeave 0 0 a
  | _ => true

theorem stay_of_check {as : List A} (h : as.all stayOk = true) (a : SBAct Int (List Char) Info) (ha : .other a ∈ as) : SB.isLeave 0 0 a = false := by
  have := List.all_eq_true.1 h _ ha
  simpa [stayOk] using this

/-- Meets `C134_counter`: a stream over `SimpleCounterString(-1, 1)` that is never stopped. -/
theorem C134_counter_meets : ∃ (r : Run (ObjSB.step (counter (-1) 1) (cCfg none (-1) 1)) (ObjSB.init new : S)) (c : Cons Int (List Char)),
    (∀ k, r.act k = .other .start → ∀ t, ((r.st k).sb.thr t).idle = true) ∧ (∀ k a, r.act k = .other a → SB.OneUser 0 0 a) ∧ (∀ k a, r.act k = .other a → SB.isLeave 0 0 a = false) ∧
    r.Fair (fun s => Ev.launched 0 ∈ s.sb.log ∧ ∀ ok, Ev.closed 0 ok ∉ s.sb.log) (·.ofThread 0) ∧
    r.Fair (fun s => ∃ c, s.sb.view 0 = some c ∧ SB.InLoop (c.pc 0)) (·.isGo 0 0) ∧
    Ev.launched 0 ∈ (r.st 10).sb.log ∧ (r.st 10).sb.view 0 = some c ∧ SB.InLoop (c.pc 0) := by
  obtain ⟨r, hr⟩ := run_on
  have hex : ∀ n, n ≤ 20 → (ObjSB.init new : S).exec (counter (-1) 1) (cCfg none (-1) 1) (oBegin.take n) = some (r.st n) := by
    intro n h
    have := ObjSB.exec_seg r 0 n
    rwa [r.zero, Nat.zero_add, lasso_seg hr n h] at this
  have h10 : ∃ s : S, (ObjSB.init new).exec (counter (-1) 1) (cCfg none (-1) 1) (oBegin.take 10) = some s ∧ Ev.launched 0 ∈ s.sb.log ∧
      ∃ c, s.sb.view 0 = some c ∧ SB.InLoop (c.pc 0) := ⟨_, rfl, List.mem_of_getElem? (i := 2) rfl, _, rfl, trivial⟩
  obtain ⟨s, h1, h2, c, h3⟩ := h10
  rw [hex 10 (by omega)] at h1
  injection h1 with h1
  subst h1
  refine ⟨r, c, ?_, ?_, ?_, ?_, ?_, h2, h3⟩
  · intro k hk t
    by_cases h0 : k = 0
    · subst h0; rw [r.zero]; rfl
    · exfalso
      rw [hr] at hk
      rcases lasso_mem (p := oBegin) (cyc := oAgain) (by simp [oAgain]) k with ⟨h, -⟩ | ⟨-, h⟩
      · have : ∀ j, j < 20 → j ≠ 0 → (match oBegin[j]! with | .other .start => false | _ => true) = true := by decide
        have h' := this k h h0
        rw [lassoAct, if_pos h] at hk
        rw [hk] at h'
        simp at h'
      · rw [hk] at h
        simp [oAgain, cNone] at h
  · intro k a hk
    rw [hr] at hk
    refine one_of_check (as := oBegin ++ oAgain) rfl a ?_
    rcases lasso_mem (p := oBegin) (cyc := oAgain) (by simp [oAgain]) k with ⟨-, h⟩ | ⟨-, h⟩ <;> rw [hk] at h <;> simp [h]
  · intro k a hk
    rw [hr] at hk
    refine stay_of_check (as := oBegin ++ oAgain) rfl a ?_
    rcases lasso_mem (p := oBegin) (cyc := oAgain) (by simp [oAgain]) k with ⟨-, h⟩ | ⟨-, h⟩ <;> rw [hk] at h <;> simp [h]
  · intro k _
    obtain ⟨j, h1, h2⟩ := lasso_again hr 0 (by decide) k
    exact ⟨j, h1, by rw [h2]; rfl⟩
  · intro k _
    obtain ⟨j, h1, h2⟩ := lasso_again hr 4 (by decide) k
    exact ⟨j, h1, by rw [h2]; rfl⟩

end Counter
end S2P
