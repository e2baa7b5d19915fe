import Verif.Props.FairDropWitness
/-
An infinite execution that meets the hypotheses of `C167_counter`.
-/
namespace S2P
open Spec
namespace Counter

/-- `maxlen=1`, `auto_drop=False`. -/
def dCfg : SBCfg Int (List Char) := { cCfg (some 1) (-1) 1 with autoDrop := false }

theorem dFits : ObjSB.Fits (counter (-1) 1) dCfg := cFits (some 1) (-1) 1

/-- Thread 0 finds room, reads and stores. -/
def dItem : List A := [.other (.thr 0), .other (.thr 0), .other (.thr 0), .read 0, .other (.thr 0), .store 0]
def dDrop : List A := [.other (.drop 0 1), .other (.dropGo 0)]
def dGo : A := .other (.rd 0 (.go 0))
/-- A loop is begun; each string is stored, given to the loop, dropped. -/
def dBegin : List A := cStart ++ [.other (.rd 0 (.callIter 0))] ++ dItem ++ [dGo] ++ dDrop ++ [dGo] ++ dItem ++ [dGo] ++ dDrop
/-- The thread finds room, `read` gives `None`, the loop does one step. -/
def dAgain : List A := [.other (.thr 0), .other (.thr 0), .other (.thr 0), .read 0, .other (.thr 0)] ++ [dGo]

structure DIdling (s : S) : Prop where
  reach : ∃ as, SB.init.exec dCfg as = some s.sb
  iter : s.st.iter = some 1
  thr : s.sb.thr 0 = .check
  evt : s.sb.stopEvent = some 0
  src : s.sb.sourceBuffer = some 0
  flag : s.sb.flag 0 = false
  empty : s.sb.items 0 = []
  drp : droppedFrom 0 s.sb.log = [['s', '-', '1'], ['s', '0']]
  dat : dataRead 0 s.sb.log = [['s', '-', '1'], ['s', '0']]
  loop : ∃ c, s.sb.view 0 = some c ∧ SB.InLoop (c.pc 0)

theorem d_on (s : S) (h : DIdling s) : ∃ s', s.exec (counter (-1) 1) dCfg dAgain = some s' ∧ DIdling s' := by
  obtain ⟨⟨as, hr⟩, h0, h1, h2, h2', h3, h4, h5, h6, c, hv, hin⟩ := h
  obtain ⟨x, hx, hc⟩ := Option.map_eq_some_iff.1 hv
  have hlen : x.cons.ch.buf.len < 1 := by
    have : (s.sb.items 0).length < 1 := by rw [h4]; simp
    simp only [SB.items, hx] at this
    exact this
  obtain ⟨s1, e1, t1, t2, t3, t4, t5, t6, t7⟩ : ∃ s1 : S, s.exec (counter (-1) 1) dCfg [.other (.thr 0), .other (.thr 0), .other (.thr 0), .read 0, .other (.thr 0)] = some s1 ∧
      s1.sb.thr 0 = .check ∧ s1.sb.stopEvent = some 0 ∧ s1.sb.sourceBuffer = some 0 ∧ s1.sb.flag = s.sb.flag ∧ s1.sb.buf = s.sb.buf ∧ s1.st.iter = some 1 ∧
      s1.sb.log = s.sb.log ++ [.read 0 none] := by
    simp [ObjSB.exec, ObjSB.step, ObjSB.act, SBAct.notSource, SB.stores, SB.step, SB.thrGo, h1, h2, h2', h3, SB.setThr, SB.say, dCfg, cCfg, counter, read, h0, hx, hlen]
  have hv1 : s1.sb.view 0 = some c := by rw [SB.view, t4, t5]; exact hv
  obtain ⟨c', hgo⟩ := go_some hin
  have hx1 : s1.sb.buf 0 = some x := by rw [t5]; exact hx
  have hc1 : ({ x.cons with stopped := s1.sb.flag x.evt } : Cons Int (List Char)) = c := by rw [t4]; exact hc
  have hs2 : s1.sb.step dCfg (.rd 0 (.go 0)) = some (s1.sb.setBuf 0 { x with cons := c' }) := by
    simp only [SB.step, CAct.isReaders, if_true, hx1, Cons.step]
    rw [hc1, hgo]
  have e2 : s1.exec (counter (-1) 1) dCfg [dGo] = some { s1 with sb := s1.sb.setBuf 0 { x with cons := c' } } := by
    simp only [dGo, ObjSB.exec, ObjSB.step, ObjSB.act, SBAct.notSource, SB.stores, Bool.not_false, Bool.and_self, if_true, hs2]
    rfl
  have e : s.exec (counter (-1) 1) dCfg dAgain = some { s1 with sb := s1.sb.setBuf 0 { x with cons := c' } } := by
    rw [dAgain, ObjSB.exec_append, e1]; exact e2
  obtain ⟨bs1, hbs1, -⟩ := ObjSB.exec_user _ _ e1
  obtain ⟨bs, hbs, hbs2⟩ := ObjSB.exec_user _ _ e
  have hr1 : SB.init.exec dCfg (as ++ bs1) = some s1.sb := by rw [SB.exec_append, hr]; exact hbs1
  have hr2 : SB.init.exec dCfg (as ++ bs) = some (s1.sb.setBuf 0 { x with cons := c' }) := by rw [SB.exec_append, hr]; exact hbs
  have hempty1 : s1.sb.items 0 = [] := by
    have : s1.sb.items 0 = s.sb.items 0 := by simp only [SB.items, t5]
    rw [this, h4]
  refine ⟨_, e, ⟨as ++ bs, hr2⟩, t6, t1, t2, t3, by change s1.sb.flag 0 = false; rw [t4]; exact h3, ?_, ?_, ?_, ?_⟩
  · cases SB.data_step (SB.good hr1).inv (SB.good hr1).bufs hs2 0 with
    | same k1 => exact k1.trans hempty1
    | stored t v k0 k0' => rw [show (s1.sb.setBuf 0 { x with cons := c' }).thr t = s1.sb.thr t from rfl, k0] at k0'; simp at k0'
    | dropped k ha hb k1 => refine k1.trans ?_; rw [hempty1]; simp
  · change droppedFrom 0 s1.sb.log = _
    rw [t7, droppedFrom_append, h5]; rfl
  · change dataRead 0 s1.sb.log = _
    rw [t7]; simp only [dataRead, List.filterMap_append] at *; rw [h6]; rfl
  obtain ⟨c2, ys, hv2, -, hor⟩ := SB.loop_stays_exec 0 0 rfl rfl hr c hv hin
    ((hbs2 0 0).2.2 fun a ha => stay_of_check (as := dAgain) rfl a ha) hbs
  refine ⟨c2, hv2, hor.resolve_right fun h => ?_⟩
  obtain ⟨x2, hx2, hc2⟩ := Option.map_eq_some_iff.1 hv2
  have hevt : x2.evt = 0 := (SB.good hr2).inv.evt 0 x2 hx2
  have : c2.stopped = s1.sb.flag 0 := by rw [← hc2, hevt]; rfl
  rw [this, t4, h3] at h
  simp at h

/-- Consumer 0 has received at least what was dropped (if there is a buffer 0). -/
def aheadOk (s : S) : Bool := match s.sb.view 0 with
  | some c => decide ((droppedFrom 0 s.sb.log).length ≤ (received c 0).length)
  | none => true

theorem d_run : ∃ r : Run (ObjSB.step (counter (-1) 1) dCfg) (ObjSB.init new : S), (∀ i, r.act i = lassoAct dBegin dAgain i) ∧ ∀ q, DIdling (r.st (29 + q * 6)) := by
  refine lasso_run_inv dBegin dAgain (by simp [dAgain]) DIdling ?_ ?_
  · have h : ∃ s : S, (ObjSB.init new).exec (counter (-1) 1) dCfg dBegin = some s ∧ s.st.iter = some 1 ∧ s.sb.thr 0 = .check ∧
        s.sb.stopEvent = some 0 ∧ s.sb.sourceBuffer = some 0 ∧ s.sb.flag 0 = false ∧ s.sb.items 0 = [] ∧
        droppedFrom 0 s.sb.log = [['s', '-', '1'], ['s', '0']] ∧ dataRead 0 s.sb.log = [['s', '-', '1'], ['s', '0']] ∧
        ∃ c, s.sb.view 0 = some c ∧ SB.InLoop (c.pc 0) := ⟨_, rfl, rfl, rfl, rfl, rfl, rfl, rfl, rfl, rfl, _, rfl, trivial⟩
    obtain ⟨s, h0, h1⟩ := h
    obtain ⟨bs, hbs, -⟩ := ObjSB.exec_user _ _ h0
    obtain ⟨h1, h2, h3, h4, h5, h6, h7, h8, h9⟩ := h1
    exact ⟨s, by rw [foldlM_exec]; exact h0, ⟨bs, hbs⟩, h1, h2, h3, h4, h5, h6, h7, h8, h9⟩
  · intro s h
    rw [foldlM_exec]
    exact d_on s h

/-- Meets `C167_counter`: a stream over `SimpleCounterString(-1, 1)` with room for one item, that is never stopped. Both strings are received and dropped. -/
theorem C167_counter_meets : ∃ (r : Run (ObjSB.step (counter (-1) 1) dCfg) (ObjSB.init new : S)) (c c' : Cons Int (List Char)),
    ObjSB.Fits (counter (-1) 1) dCfg ∧ dCfg.maxlen = some 1 ∧ dCfg.autoDrop = false ∧
    (∀ k, r.act k = .other .start → ∀ t, ((r.st k).sb.thr t).idle = true) ∧ (∀ k a, r.act k = .other a → SB.OneUser 0 0 a) ∧
    (∀ j c, (r.st j).sb.view 0 = some c → (droppedFrom 0 (r.st j).sb.log).length ≤ (received c 0).length) ∧
    (∀ k c, (r.st k).sb.view 0 = some c → ∃ j, k ≤ j ∧ ((received c 0).length ≤ (droppedFrom 0 (r.st j).sb.log).length ∨
      ∃ c', (r.st j).sb.view 0 = some c' ∧ c'.stopped = true)) ∧
    (∀ k a, r.act k = .other a → SB.isLeave 0 0 a = false) ∧
    r.Fair (fun s => Ev.launched 0 ∈ s.sb.log ∧ ∀ ok, Ev.closed 0 ok ∉ s.sb.log) (·.ofThread 0) ∧
    r.Fair (fun s => ∃ c, s.sb.view 0 = some c ∧ SB.InLoop (c.pc 0)) (·.isGo 0 0) ∧
    Ev.launched 0 ∈ (r.st 10).sb.log ∧ (r.st 10).sb.view 0 = some c ∧ SB.InLoop (c.pc 0) ∧ received c 0 = [] ∧
    (r.st 29).sb.view 0 = some c' ∧ received c' 0 = [['s', '-', '1'], ['s', '0']] := by
  obtain ⟨r, hr, hidle⟩ := d_run
  have hex : ∀ n, n ≤ 29 → (ObjSB.init new : S).exec (counter (-1) 1) dCfg (dBegin.take n) = some (r.st n) := by
    intro n h
    have := ObjSB.exec_seg r 0 n
    rwa [r.zero, Nat.zero_add, lasso_seg hr n h] at this
  have h10 : ∃ s : S, (ObjSB.init new).exec (counter (-1) 1) dCfg (dBegin.take 10) = some s ∧ Ev.launched 0 ∈ s.sb.log ∧
      ∃ c, s.sb.view 0 = some c ∧ SB.InLoop (c.pc 0) ∧ received c 0 = [] := ⟨_, rfl, List.mem_of_getElem? (i := 2) rfl, _, rfl, trivial, rfl⟩
  obtain ⟨s, h1, h2, c, h3, h4, h5⟩ := h10
  rw [hex 10 (by omega)] at h1
  injection h1 with h1
  subst h1
  have h29 : ∃ s : S, (ObjSB.init new).exec (counter (-1) 1) dCfg (dBegin.take 29) = some s ∧
      ∃ c, s.sb.view 0 = some c ∧ received c 0 = [['s', '-', '1'], ['s', '0']] ∧ SB.InLoop (c.pc 0) := ⟨_, rfl, _, rfl, rfl, trivial⟩
  obtain ⟨s, h1, c', hv', hrec, hin'⟩ := h29
  rw [hex 29 (by omega)] at h1
  injection h1 with h1
  subst h1
  have hcalm : ∀ k, r.act k = .other .start → ∀ t, ((r.st k).sb.thr t).idle = true := by
    intro k hk t
    by_cases h0 : k = 0
    · subst h0; rw [r.zero]; rfl
    · exfalso
      rw [hr] at hk
      rcases lasso_mem (p := dBegin) (cyc := dAgain) (by simp [dAgain]) k with ⟨h, -⟩ | ⟨-, h⟩
      · have : ∀ j, j < 29 → j ≠ 0 → (match dBegin[j]! with | .other .start => false | _ => true) = true := by decide
        have h' := this k h h0
        rw [lassoAct, if_pos h] at hk
        rw [hk] at h'
        simp at h'
      · rw [hk] at h
        simp [dAgain, dGo] at h
  have hall : ∀ {P : A → Bool}, (dBegin ++ dAgain).all P = true → ∀ k, P (r.act k) = true := by
    intro P hP k
    rw [hr]
    refine List.all_eq_true.1 hP _ ?_
    rcases lasso_mem (p := dBegin) (cyc := dAgain) (by simp [dAgain]) k with ⟨-, h⟩ | ⟨-, h⟩ <;> simp [h]
  have hone : ∀ k a, r.act k = .other a → SB.OneUser 0 0 a := by
    intro k a hk
    have := hall (P := fun x => oneOk x || (match x with | .other (.drop _ _) => true | .other (.dropGo _) => true | _ => false)) rfl k
    rw [Bool.or_eq_true] at this
    rcases this with h | h
    · exact one_of_check (as := [r.act k]) (by simpa using h) a (by simp [hk])
    · rw [hk] at h
      split at h <;> first | (rename_i he; injection he with he; subst he; trivial) | (simp at h)
  have hstay : ∀ k a, r.act k = .other a → SB.isLeave 0 0 a = false := by
    intro k a hk
    have := hall (P := stayOk) rfl k
    rw [hk] at this
    simpa [stayOk] using this
  obtain ⟨q, hq⟩ := ObjSB.run_below r
  have hset : q.Settled := fun n e hw t => by
    have h := ObjSB.run_settled r hcalm n _ ((hq n).2.2.2 e) rfl
    rw [(hq n).1] at hw ⊢
    rcases h hw t with h | h | h <;> rw [h] <;> rfl
  have hone' : ∀ j, SB.OneUser 0 0 (q.act j) := fun j => ((hq j).2.2.1 0 0).2.1 fun a e => hone j a e
  have hmono : ∀ {j k}, j ≤ k → (r.st j).sb.log <+: (r.st k).sb.log := by
    intro j k h
    have := SB.Forever.log_mono q h
    rwa [(hq j).1, (hq k).1] at this
  have hafter : ∀ n, droppedFrom 0 (r.st (29 + n)).sb.log = [['s', '-', '1'], ['s', '0']] := by
    intro n
    obtain ⟨l1, e1⟩ := hmono (show 29 ≤ 29 + n by omega)
    obtain ⟨l2, e2⟩ := hmono (show 29 + n ≤ 29 + n * 6 by omega)
    have k1 := (hidle 0).drp
    have k2 := (hidle n).drp
    rw [Nat.zero_mul, Nat.add_zero] at k1
    rw [← e2, droppedFrom_append, ← e1, droppedFrom_append, k1, List.append_assoc] at k2
    have k3 : droppedFrom 0 l1 = [] := by
      have := congrArg List.length k2
      simp at this
      exact this.1
    rw [← e1, droppedFrom_append, k1, k3, List.append_nil]
  have hrec' : ∀ n c2, (r.st (29 + n)).sb.view 0 = some c2 → 2 ≤ (received c2 0).length := by
    intro n c2 h2
    obtain ⟨c3, ys, k1, k2, -⟩ := SB.Forever.loop_stays (r := q) 0 0 29 n rfl rfl c' (by rw [(hq 29).1]; exact hv') hin'
      (fun j _ => ((hq j).2.2.1 0 0).2.2 fun a e => hstay j a e)
    rw [(hq (29 + n)).1, h2] at k1; injection k1 with k1; subst k1
    have : (received c2 0) = received c' 0 ++ ys.flatMap CEvt.items := by simp only [received, k2, List.flatMap_append]
    rw [this, hrec]; simp
  have hdr : ∀ j c, (r.st j).sb.view 0 = some c → (droppedFrom 0 (r.st j).sb.log).length ≤ (received c 0).length := by
    intro j c2 h2
    by_cases hj : j ≤ 29
    · have hck : ∀ j, j < 30 → (match (ObjSB.init new : S).exec (counter (-1) 1) dCfg (dBegin.take j) with | some s => aheadOk s | none => true) = true := by
        decide +kernel
      have := hck j (by omega)
      rw [hex j hj] at this
      simp only [aheadOk, h2, decide_eq_true_eq] at this
      exact this
    · obtain ⟨n, rfl⟩ := Nat.exists_eq_add_of_le (show 29 ≤ j by omega)
      rw [hafter n]
      exact hrec' n c2 h2
  have hinc : ∀ j, (dataRead 0 (q.st j).log).Pairwise (fun v w => dCfg.key v < dCfg.key w) := by
    intro j
    have he := ObjSB.exec_seg r 0 j
    have hc := ObjSB.calm_seg r hcalm 0 j
    rw [r.zero, Nat.zero_add] at he
    rw [r.zero] at hc
    rw [(hq j).1]
    exact orderly.rising.inc dFits (ObjSB.acc he (ObjSB.calm_settled he hc)) 0
  refine ⟨r, c, c', dFits, rfl, rfl, hcalm, hone, hdr, ?_, hstay, ?_, ?_, h2, h3, h4, h5, hv', hrec⟩
  · intro k c2 h2
    refine ⟨29 + k, by omega, .inl ?_⟩
    have k1 := congrArg List.length (SB.Forever.everything (r := q) rfl 0 0 rfl hone' hset hinc
      (fun j c h => by rw [(hq j).1] at h ⊢; exact hdr j c h) k c2 (by rw [(hq k).1]; exact h2)).1
    have k2 := congrArg List.length (SB.C40_stored_in_order_partial (SB.Forever.exec_to q k) (SB.Forever.settled_to hset k) 0).1
    have k3 : (dataRead 0 (q.st k).log).length ≤ 2 := by
      obtain ⟨l, hl⟩ := hmono (show k ≤ 29 + k * 6 by omega)
      have := (hidle k).dat
      rw [← hl] at this
      have := congrArg List.length this
      rw [(hq k).1]
      simp only [dataRead, List.filterMap_append, List.length_append, List.length_cons, List.length_nil] at this ⊢
      omega
    rw [hafter k]
    simp only [List.length_append, List.length_cons, List.length_nil] at k1 k2 ⊢
    omega
  · intro k _
    obtain ⟨j, h1, h2⟩ := lasso_again hr 0 (by decide) k
    exact ⟨j, h1, by rw [h2]; rfl⟩
  · intro k _
    obtain ⟨j, h1, h2⟩ := lasso_again hr 5 (by decide) k
    exact ⟨j, h1, by rw [h2]; rfl⟩

end Counter
end S2P
