import Verif.Props.FairDrop
import Verif.Props.FairWitness
import Verif.Props.DropWitness
/-
Infinite executions that meet the hypotheses of C167.
-/
namespace S2P
open Spec

namespace SB
section
variable {K V I : Type} [LinearOrder K] [BEq V] [ReflBEq V] {cfg : SBCfg K V}

theorem dropped_step {s s' : SB K V I} {a : SBAct K V I} (hs : s.step cfg a = some s') (ha : ∀ c, a ≠ .dropGo c) (b : Nat) :
    droppedFrom b s'.log = droppedFrom b s.log := by
  have hst := step_to hs
  clear hs
  cases hst
  case drop c k b x hc hx => exact absurd rfl (ha c)
  all_goals
    try dsimp only [say, setThr, setBuf, setEvent, setNext, setDrop, setInfo, newSess, running]
    try simp only [droppedFrom_append]
    try simp [droppedFrom]

theorem data_read_step {s s' : SB K V I} {a : SBAct K V I} (hs : s.step cfg a = some s') (ha : ∀ t v, a ≠ .readOk t (some v)) (b : Nat) :
    dataRead b s'.log = dataRead b s.log := by
  have hst := step_to hs
  clear hs
  cases hst
  case readSome t v h => exact absurd rfl (ha t v)
  all_goals
    try dsimp only [say, setThr, setBuf, setEvent, setNext, setDrop, setInfo, newSess, running]
    try simp [dataRead]

end

/-- `maxlen=1`, `auto_drop=False`; a `for` loop begins; item 1 is stored, the buffer is full, the loop gets 1, and drops it; then the same with item 2. -/
def dBegin : List A := wStart 7 ++ [.rd 0 (.callIter 0)] ++ wItemM 0 1 ++ wFull ++ [.rd 0 (.go 0)] ++ wDrop ++ [.rd 0 (.go 0)] ++
  wItemM 0 2 ++ [.rd 0 (.go 0)] ++ wDrop
/-- The thread finds room, the source gives `None`, the loop does one step. -/
def dAgain : List A := [.thr 0, .thr 0, .thr 0, .readOk 0 none, .thr 0] ++ [.rd 0 (.go 0)]

structure DIdling (s : S) : Prop where
  reach : ∃ as, SB.init.exec (mkCfg (some 1) false) as = some s
  thr : s.thr 0 = .check
  evt : s.stopEvent = some 0
  src : s.sourceBuffer = some 0
  flag : s.flag 0 = false
  empty : s.items 0 = []
  loop : ∃ c, s.view 0 = some c ∧ InLoop (c.pc 0)

theorem d_on (s : S) (h : DIdling s) : ∃ s', s.exec (mkCfg (some 1) false) dAgain = some s' ∧ DIdling s' := by
  obtain ⟨⟨as, hr⟩, h1, h2, h2', h3, h4, c, hv, hin⟩ := h
  obtain ⟨x, hx, hc⟩ := Option.map_eq_some_iff.1 hv
  have hlen : x.cons.ch.buf.len < 1 := by
    have : (s.items 0).length < 1 := by rw [h4]; simp
    simp only [items, hx] at this
    exact this
  obtain ⟨s1, e1, t1, t2, t3, t4, t5, t6⟩ : ∃ s1, s.exec (mkCfg (some 1) false) [.thr 0, .thr 0, .thr 0, .readOk 0 none, .thr 0] = some s1 ∧ s1.thr 0 = .check ∧
      s1.stopEvent = some 0 ∧ s1.sourceBuffer = some 0 ∧ s1.flag = s.flag ∧ s1.buf = s.buf ∧ s1.thr = (s1.thr) := by
    simp [exec, step, thrGo, h1, h2, h2', h3, setThr, say, mkCfg, hx, hlen]
  have hv1 : s1.view 0 = some c := by rw [view, t4, t5]; exact hv
  have hr1 : SB.init.exec (mkCfg (some 1) false) (as ++ [.thr 0, .thr 0, .thr 0, .readOk 0 none, .thr 0]) = some s1 := by rw [exec_append, hr]; exact e1
  obtain ⟨c', hgo⟩ := go_some hin
  have hx1 : s1.buf 0 = some x := by rw [t5]; exact hx
  have hc1 : ({ x.cons with stopped := s1.flag x.evt } : Cons Nat Nat) = c := by rw [t4]; exact hc
  have hs2 : s1.step (mkCfg (some 1) false) (.rd 0 (.go 0)) = some (s1.setBuf 0 { x with cons := c' }) := by
    simp only [step, CAct.isReaders, if_true, hx1, Cons.step]
    rw [hc1, hgo]
  have e2 : s1.exec (mkCfg (some 1) false) [.rd 0 (.go 0)] = some (s1.setBuf 0 { x with cons := c' }) := by
    simp only [exec, hs2]
  have e : s.exec (mkCfg (some 1) false) dAgain = some (s1.setBuf 0 { x with cons := c' }) := by
    rw [dAgain, exec_append, e1]; exact e2
  have hr2 : SB.init.exec (mkCfg (some 1) false) (as ++ dAgain) = some (s1.setBuf 0 { x with cons := c' }) := by rw [exec_append, hr]; exact e
  have hempty1 : s1.items 0 = [] := by
    have : s1.items 0 = s.items 0 := by simp only [items, t5]
    rw [this, h4]
  refine ⟨_, e, ⟨as ++ dAgain, hr2⟩, t1, t2, t3, by change s1.flag 0 = false; rw [t4]; exact h3, ?_, ?_⟩
  · cases data_step (good hr1).inv (good hr1).bufs hs2 0 with
    | same k1 => rw [k1, hempty1]
    | stored t v k0 k0' => rw [show (s1.setBuf 0 { x with cons := c' }).thr t = s1.thr t from rfl, k0] at k0'; simp at k0'
    | dropped k ha hb k1 => rw [k1, hempty1]; simp
  obtain ⟨c2, ys, hv2, -, hor⟩ := loop_stays_exec 0 0 rfl rfl hr c hv hin (stay_of_check rfl) e
  refine ⟨c2, hv2, hor.resolve_right fun h => ?_⟩
  obtain ⟨x2, hx2, hc2⟩ := Option.map_eq_some_iff.1 hv2
  have hevt : x2.evt = 0 := (good hr2).inv.evt 0 x2 hx2
  have : c2.stopped = s1.flag 0 := by rw [← hc2, hevt]; rfl
  rw [this, t4, h3] at h
  simp at h

theorem d_run : ∃ r : Forever Nat (mkCfg (some 1) false), ∀ i, r.act i = lassoAct dBegin dAgain i := by
  refine lasso_run dBegin dAgain (by simp [dAgain]) DIdling ?_ ?_
  · have h : ∃ s : S, SB.init.exec (mkCfg (some 1) false) dBegin = some s ∧ s.thr 0 = .check ∧ s.stopEvent = some 0 ∧ s.sourceBuffer = some 0 ∧ s.flag 0 = false ∧
        s.items 0 = [] ∧ ∃ c, s.view 0 = some c ∧ InLoop (c.pc 0) := ⟨_, rfl, rfl, rfl, rfl, rfl, rfl, _, rfl, trivial⟩
    obtain ⟨s, h0, h1, h2, h2', h3, h4, h5⟩ := h
    exact ⟨s, by rw [foldlM_exec]; exact h0, ⟨dBegin, h0⟩, h1, h2, h2', h3, h4, h5⟩
  · intro s h
    rw [foldlM_exec]
    exact d_on s h

/-- Meets C167: a stream that is never stopped, with room for one item. When the loop begins nothing is stored yet; two items are stored, received, dropped. -/
theorem C167_meets : ∃ (r : Forever Nat (mkCfg (some 1) false)) (c c' : Cons Nat Nat), (∀ j, OneUser 0 0 (r.act j)) ∧ r.Settled ∧
    (∀ j, (dataRead 0 (r.st j).log).Pairwise (fun v w => v < w)) ∧ r.NeverAhead 0 0 ∧ r.DropsAll 0 0 ∧ r.FairThread 0 ∧ r.FairLoop 0 0 ∧
    (∀ j, isLeave 0 0 (r.act j) = false) ∧ Ev.launched 0 ∈ (r.st 16).log ∧ (r.st 16).view 0 = some c ∧ InLoop (c.pc 0) ∧ unreadOf c.ch 0 = [1] ∧
    (r.st 16).items 0 = [1] ∧ (r.st 33).view 0 = some c' ∧ received c' 0 = [1, 2] ∧ droppedFrom 0 (r.st 33).log = [1, 2] := by
  obtain ⟨r, hr⟩ := d_run
  have h16 : ∃ s : S, SB.init.exec (mkCfg (some 1) false) (dBegin.take 16) = some s ∧ Ev.launched 0 ∈ s.log ∧
      ∃ c, s.view 0 = some c ∧ InLoop (c.pc 0) ∧ unreadOf c.ch 0 = [1] ∧ s.items 0 = [1] :=
    ⟨_, rfl, List.mem_of_getElem? (i := 2) rfl, _, rfl, trivial, rfl, rfl⟩
  obtain ⟨s, h1, hl, c, hv, hin, hun, hit⟩ := h16
  rw [lasso_st hr 16 (by decide)] at h1
  injection h1 with h1
  subst h1
  have h33 : ∃ s : S, SB.init.exec (mkCfg (some 1) false) (dBegin.take 33) = some s ∧
      ∃ c, s.view 0 = some c ∧ InLoop (c.pc 0) ∧ received c 0 = [1, 2] ∧ droppedFrom 0 s.log = [1, 2] ∧ dataRead 0 s.log = [1, 2] :=
    ⟨_, rfl, _, rfl, trivial, rfl, rfl, rfl⟩
  obtain ⟨s, h1, c', hv', hin', hrec, hdrp, hdat⟩ := h33
  rw [lasso_st hr 33 (by decide)] at h1
  injection h1 with h1
  subst h1
  have hstay : ∀ j, isLeave 0 0 (r.act j) = false := lasso_all (by simp [dAgain]) hr (stay_of_check rfl)
  have hone : ∀ j, OneUser 0 0 (r.act j) := lasso_all (by simp [dAgain]) hr (oneUser_of_check rfl)
  have hset : r.Settled := lasso_settled (by simp [dAgain]) hr (settled_of_check rfl) (by simp [dAgain])
  have hcyc : ∀ n, r.act (33 + n) ∈ dAgain := by
    intro n
    rw [hr]
    rcases lasso_mem (p := dBegin) (cyc := dAgain) (by simp [dAgain]) (33 + n) with ⟨h, -⟩ | ⟨-, h⟩
    · exact absurd h (by simp [show dBegin.length = 33 from rfl])
    · exact h
  have hafter : ∀ n, droppedFrom 0 (r.st (33 + n)).log = [1, 2] ∧ dataRead 0 (r.st (33 + n)).log = [1, 2] := by
    intro n
    induction n with
    | zero => exact ⟨hdrp, hdat⟩
    | succ n ih =>
      have hc := hcyc n
      rw [← Nat.add_assoc, dropped_step (r.next (33 + n)) (fun c e => by rw [e] at hc; simp [dAgain] at hc),
        data_read_step (r.next (33 + n)) (fun t v e => by rw [e] at hc; simp [dAgain] at hc)]
      exact ih
  have hrec' : ∀ n c2, (r.st (33 + n)).view 0 = some c2 → 2 ≤ (received c2 0).length := by
    intro n c2 h2
    obtain ⟨c3, ys, k1, k2, -⟩ := Forever.loop_stays (r := r) 0 0 33 n rfl rfl c' hv' hin' (fun j _ => hstay j)
    rw [h2] at k1; injection k1 with k1; subst k1
    have : (received c2 0) = received c' 0 ++ ys.flatMap CEvt.items := by simp only [received, k2, List.flatMap_append]
    rw [this, hrec]; simp
  have hdr : r.NeverAhead 0 0 := by
    intro j c2 h2
    by_cases hj : j ≤ 33
    · exact drop_of_check (cfg := mkCfg (some 1) false) (b := 0) (i := 0) (as := dBegin) rfl (dBegin.take j) (dBegin.drop j) _ _ (by simp)
        (lasso_st hr j (show j ≤ 33 from hj)) h2
    · obtain ⟨n, rfl⟩ := Nat.exists_eq_add_of_le (show 33 ≤ j by omega)
      rw [(hafter n).1]
      exact hrec' n c2 h2
  have hinc : ∀ j, (dataRead 0 (r.st j).log).Pairwise (fun v w => v < w) := by
    intro j
    by_cases hj : j ≤ 33
    · have : (dataRead 0 (r.st j).log) <+: dataRead 0 (r.st 33).log := by
        obtain ⟨l, hl⟩ := Forever.log_mono r hj
        exact ⟨dataRead 0 l, by rw [← hl]; simp [dataRead]⟩
      rw [hdat] at this
      exact (by decide : [1, 2].Pairwise (fun v w : Nat => v < w)).sublist this.sublist
    · obtain ⟨n, rfl⟩ := Nat.exists_eq_add_of_le (show 33 ≤ j by omega)
      rw [(hafter n).2]
      decide
  refine ⟨r, c, c', hone, hset, hinc, hdr, ?_, ?_, ?_, hstay, hl, hv, hin, hun, hit, hv', hrec, hdrp⟩
  · intro k c2 h2
    refine ⟨33 + k, by omega, .inl ?_⟩
    have k1 := congrArg List.length (Forever.everything (r := r) rfl 0 0 rfl hone hset hinc hdr k c2 h2).1
    have k2 := congrArg List.length (C40_stored_in_order_partial (Forever.exec_to r k) (Forever.settled_to hset k) 0).1
    have k3 : (dataRead 0 (r.st k).log).length ≤ 2 := by
      obtain ⟨l, hl⟩ := Forever.log_mono r (show k ≤ 33 + k by omega)
      have := (hafter k).2
      rw [← hl] at this
      have := congrArg List.length this
      simp only [dataRead, List.filterMap_append, List.length_append, List.length_cons, List.length_nil] at this ⊢
      omega
    rw [(hafter k).1]
    simp only [List.length_append, List.length_cons, List.length_nil] at k1 k2 ⊢
    omega
  · intro k _
    obtain ⟨j, h1, h2⟩ := lasso_again hr 0 (by decide) k
    exact ⟨j, h1, by rw [h2]; rfl⟩
  · intro k _
    obtain ⟨j, h1, h2⟩ := lasso_again hr 5 (by decide) k
    exact ⟨j, h1, by rw [h2]; rfl⟩

/-- One item is stored, the buffer is full. -/
def uBegin : List A := wStart 7 ++ [.rd 0 (.callIter 0)] ++ wItemM 0 1
/-- The thread finds the buffer full, the loop does one step. -/
def uAgain : List A := [.thr 0, .thr 0, .thr 0, .thr 0] ++ [.rd 0 (.go 0)]

structure UIdling (l : List (Ev Nat Nat)) (s : S) : Prop where
  reach : ∃ as, SB.init.exec (mkCfg (some 1) false) as = some s
  thr : s.thr 0 = .check
  evt : s.stopEvent = some 0
  src : s.sourceBuffer = some 0
  flag : s.flag 0 = false
  full : 0 < (s.items 0).length
  log : s.log = l
  nodrop : ∀ c, s.drops c = none
  loop : ∃ c, s.view 0 = some c ∧ InLoop (c.pc 0)

theorem u_on (l : List (Ev Nat Nat)) (s : S) (h : UIdling l s) : ∃ s', s.exec (mkCfg (some 1) false) uAgain = some s' ∧ UIdling l s' := by
  obtain ⟨⟨as, hr⟩, h1, h2, h2', h3, h4, hlog, h5, c, hv, hin⟩ := h
  obtain ⟨x, hx, hc⟩ := Option.map_eq_some_iff.1 hv
  have hlen : ¬ x.cons.ch.buf.len < 1 := by
    have : ¬ (s.items 0).length < 1 := by omega
    simp only [items, hx] at this
    exact this
  obtain ⟨s1, e1, t1, t2, t3, t4, t5, t6, t7⟩ : ∃ s1, s.exec (mkCfg (some 1) false) [.thr 0, .thr 0, .thr 0, .thr 0] = some s1 ∧ s1.thr 0 = .check ∧
      s1.stopEvent = some 0 ∧ s1.sourceBuffer = some 0 ∧ s1.flag = s.flag ∧ s1.buf = s.buf ∧ s1.drops = s.drops ∧ s1.log = s.log := by
    simp [exec, step, thrGo, h1, h2, h2', h3, setThr, mkCfg, hx, hlen]
  have hr1 : SB.init.exec (mkCfg (some 1) false) (as ++ [.thr 0, .thr 0, .thr 0, .thr 0]) = some s1 := by rw [exec_append, hr]; exact e1
  obtain ⟨c', hgo⟩ := go_some hin
  have hx1 : s1.buf 0 = some x := by rw [t5]; exact hx
  have hc1 : ({ x.cons with stopped := s1.flag x.evt } : Cons Nat Nat) = c := by rw [t4]; exact hc
  have hs2 : s1.step (mkCfg (some 1) false) (.rd 0 (.go 0)) = some (s1.setBuf 0 { x with cons := c' }) := by
    simp only [step, CAct.isReaders, if_true, hx1, Cons.step]
    rw [hc1, hgo]
  have e2 : s1.exec (mkCfg (some 1) false) [.rd 0 (.go 0)] = some (s1.setBuf 0 { x with cons := c' }) := by
    simp only [exec, hs2]
  have e : s.exec (mkCfg (some 1) false) uAgain = some (s1.setBuf 0 { x with cons := c' }) := by
    rw [uAgain, exec_append, e1]; exact e2
  have hr2 : SB.init.exec (mkCfg (some 1) false) (as ++ uAgain) = some (s1.setBuf 0 { x with cons := c' }) := by rw [exec_append, hr]; exact e
  have hitems1 : s1.items 0 = s.items 0 := by simp only [items, t5]
  refine ⟨_, e, ⟨as ++ uAgain, hr2⟩, t1, t2, t3, by change s1.flag 0 = false; rw [t4]; exact h3, ?_, t7.trans hlog, fun c => by change s1.drops c = none; rw [t6]; exact h5 c, ?_⟩
  · cases data_step (good hr1).inv (good hr1).bufs hs2 0 with
    | same k1 => rw [k1, hitems1]; exact h4
    | stored t v k0 k0' => rw [show (s1.setBuf 0 { x with cons := c' }).thr t = s1.thr t from rfl, k0] at k0'; simp at k0'
    | dropped k ha hb k1 => obtain ⟨c, n, hb⟩ := hb; rw [t6, h5] at hb; simp at hb
  obtain ⟨c2, ys, hv2, -, hor⟩ := loop_stays_exec 0 0 rfl rfl hr c hv hin (stay_of_check rfl) e
  refine ⟨c2, hv2, hor.resolve_right fun h => ?_⟩
  obtain ⟨x2, hx2, hc2⟩ := Option.map_eq_some_iff.1 hv2
  have hevt : x2.evt = 0 := (good hr2).inv.evt 0 x2 hx2
  have : c2.stopped = s1.flag 0 := by rw [← hc2, hevt]; rfl
  rw [this, t4, h3] at h
  simp at h

theorem u_run : ∃ (r : Forever Nat (mkCfg (some 1) false)) (s : S), SB.init.exec (mkCfg (some 1) false) uBegin = some s ∧
    (∀ i, r.act i = lassoAct uBegin uAgain i) ∧ ∀ q, (r.st (16 + q * 5)).log = s.log := by
  have h : ∃ s : S, SB.init.exec (mkCfg (some 1) false) uBegin = some s ∧ s.thr 0 = .check ∧ s.stopEvent = some 0 ∧ s.sourceBuffer = some 0 ∧ s.flag 0 = false ∧
      s.items 0 = [1] ∧ (∀ c, s.drops c = none) ∧ ∃ c, s.view 0 = some c ∧ InLoop (c.pc 0) := ⟨_, rfl, rfl, rfl, rfl, rfl, rfl, fun _ => rfl, _, rfl, trivial⟩
  obtain ⟨s, h0, h1, h2, h2', h3, h4, h4', h5⟩ := h
  obtain ⟨r, hr, hP⟩ := lasso_run_inv uBegin uAgain (by simp [uAgain]) (UIdling s.log)
    ⟨s, by rw [foldlM_exec]; exact h0, ⟨uBegin, h0⟩, h1, h2, h2', h3, by rw [h4]; simp, rfl, h4', h5⟩ (by
      intro s1 h
      rw [foldlM_exec]
      exact u_on _ s1 h)
  exact ⟨r, s, h0, hr, fun q => (hP q).log⟩

/-- **C167** the dropping is needed: nobody drops, the buffer has room for one item. The thread and the loop get their turns for ever, nothing is stopped, and the
source is read just once. -/
theorem C167_drops_needed : ∃ (r : Forever Nat (mkCfg (some 1) false)), (∀ j, OneUser 0 0 (r.act j)) ∧ r.Settled ∧ r.NeverAhead 0 0 ∧ r.FairThread 0 ∧ r.FairLoop 0 0 ∧
    (∀ j, isLeave 0 0 (r.act j) = false) ∧ Ev.launched 0 ∈ (r.st 16).log ∧ (∃ c, (r.st 16).view 0 = some c ∧ InLoop (c.pc 0)) ∧
    ∀ n, (r.st (16 + n)).log.countP (isReadBy 0) = 1 ∧ Ev.eventSet 0 ∉ (r.st (16 + n)).log := by
  obtain ⟨r, s0, h0, hr, hlog⟩ := u_run
  have h16 : ∃ s : S, SB.init.exec (mkCfg (some 1) false) uBegin = some s ∧ Ev.launched 0 ∈ s.log ∧
      (∃ c, s.view 0 = some c ∧ InLoop (c.pc 0)) ∧ s.log.countP (isReadBy 0) = 1 ∧ Ev.eventSet 0 ∉ s.log ∧ droppedFrom 0 s.log = [] :=
    ⟨_, rfl, List.mem_of_getElem? (i := 2) rfl, ⟨_, rfl, trivial⟩, rfl, by decide +kernel, rfl⟩
  obtain ⟨s, h1, hl, hc, hrd, hev, hdp⟩ := h16
  rw [h0] at h1
  injection h1 with h1
  subst h1
  have hst : r.st 16 = s0 := by
    have := lasso_st hr 16 (by decide)
    rw [show uBegin.take 16 = uBegin from rfl, h0] at this
    exact (Option.some.inj this).symm
  have hconst : ∀ n, (r.st (16 + n)).log = s0.log := by
    intro n
    have k1 := Forever.log_mono r (show 16 ≤ 16 + n by omega)
    have k2 := Forever.log_mono r (show 16 + n ≤ 16 + n * 5 by omega)
    rw [hlog] at k2
    rw [hst] at k1
    exact k2.eq_of_length_le k1.length_le
  refine ⟨r, lasso_all (by simp [uAgain]) hr (oneUser_of_check rfl), lasso_settled (by simp [uAgain]) hr (settled_of_check rfl) (by simp [uAgain]), ?_, ?_, ?_,
    lasso_all (by simp [uAgain]) hr (stay_of_check rfl), by rw [hst]; exact hl, by rw [hst]; exact hc, fun n => by rw [hconst]; exact ⟨hrd, hev⟩⟩
  · intro j c _
    obtain ⟨l, hl⟩ := Forever.log_mono r (show j ≤ 16 + j by omega)
    rw [hconst] at hl
    have : droppedFrom 0 (r.st j).log = [] := by
      rw [← hl, droppedFrom_append] at hdp
      exact (List.append_eq_nil_iff.1 hdp).1
    rw [this]; simp
  · intro k _
    obtain ⟨j, h1, h2⟩ := lasso_again hr 0 (by decide) k
    exact ⟨j, h1, by rw [h2]; rfl⟩
  · intro k _
    obtain ⟨j, h1, h2⟩ := lasso_again hr 4 (by decide) k
    exact ⟨j, h1, by rw [h2]; rfl⟩

end SB
end S2P
