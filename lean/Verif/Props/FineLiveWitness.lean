import Verif.Props.FineLive
import Verif.Props.FineWitness
import Verif.Props.RWLiveWitness
/-
C164: an infinite execution that meets its hypotheses.
-/
namespace S2P
open Spec

namespace FSB
variable {K V I : Type} [LinearOrder K] [BEq V] {cfg : SBCfg K V} {n : Nat} {r : Forever I n cfg}

theorem hist_mono (b : Nat) {k j : Nat} (h : k ≤ j) : ((r.st k).lm b).hist <+: ((r.st j).lm b).hist := by
  induction h with
  | refl => exact List.prefix_refl _
  | @step j _ ih =>
    refine ih.trans ?_
    rcases lm_sim (r.next j) b with ⟨w, -, h2⟩ | ⟨-, h2 | ⟨w, c, h2, -⟩⟩
    · obtain ⟨l, e⟩ := LM.step_hist h2; exact ⟨l, e.symm⟩
    · rw [Nat.succ_eq_add_one, h2]; exact List.prefix_refl _
    · obtain ⟨l, e⟩ := LM.step_hist h2; exact ⟨l, e.symm⟩

theorem nonOverlapping_prefix {on : ChOp K V → Prop} {l l' : List (HEv (ChOp K V) (Py (Ret V)))} (h : l <+: l') (hl : NonOverlapping on l') : NonOverlapping on l := by
  obtain ⟨t, rfl⟩ := h
  rintro h1 h2 h3 a c b c' rfl
  exact hl h1 h2 (h3 ++ t) a c b c' (by simp)

end FSB

namespace FineW
open SB

instance : Inhabited FA := ⟨.sb .isRunning⟩

/-- Session 0 is started and 1 stored; a `for` loop begins, gets 1, waits; `stop()`; the thread closes the source; the loop reads again and ends. -/
def lStop : List FA := sb (wStart 7) ++ sb (wItem 0 1) ++ low 0 (.thr 0) 13 ++ sb [.rd 0 (.callIter 0), .rd 0 (.go 0)] ++ low 0 (.cons 0) 17 ++ sb (wStop 0) ++
  sb [.rd 0 (.go 0), .rd 0 (.go 0)] ++ low 0 (.cons 0) 16 ++ sb [.rd 0 (.go 0)]

theorem foldlM_exec (cfg : SBCfg Nat Nat) (as : List FA) : ∀ s : FSB Nat Nat Nat, as.foldlM (FSB.step cfg) s = s.exec cfg as := by
  induction as with
  | nil => intro s; rfl
  | cons a as ih =>
    intro s
    rw [List.foldlM_cons, FSB.exec]
    cases h : s.step cfg a with
    | none => rfl
    | some s' => exact ih s'

/-- `lStop`, and then somebody asks `is_running` for ever. -/
theorem run_stop : ∃ r : FSB.Forever Nat 8 cfg1, ∀ i, r.act i = lassoAct lStop [.sb .isRunning] i := by
  refine lasso_run lStop [.sb .isRunning] (by simp) (fun s => s.sb.start = none) ?_ ?_
  · have h : ∃ s, (s0 cfg1).exec cfg1 lStop = some s ∧ s.sb.start = none := ⟨_, rfl, rfl⟩
    rw [foldlM_exec]
    exact h
  · intro s h
    refine ⟨{ s with sb := s.sb.say (.isRunning s.sb.running) }, ?_, h⟩
    rw [foldlM_exec]
    simp only [FSB.exec, FSB.step, FSB.plain, SB.step, h, if_true, Option.map]

theorem exec_to {cfg : SBCfg Nat Nat} (r : FSB.Forever Nat 8 cfg) (m : Nat) : (s0 cfg).exec cfg (r.seg 0 m) = some (r.st m) := by
  have := r.fold 0 m
  rw [foldlM_exec, r.zero, Nat.zero_add] at this
  exact this

/-- Check at every step. -/
def allAt (cfg : SBCfg Nat Nat) (f : FSB Nat Nat Nat → FA → Bool) : FSB Nat Nat Nat → List FA → Bool
  | _, [] => true
  | s, x :: xs => f s x && match s.step cfg x with | some s' => allAt cfg f s' xs | none => true

theorem allAt_sound {cfg : SBCfg Nat Nat} {f : FSB Nat Nat Nat → FA → Bool} {r : FSB.Forever Nat 8 cfg} (xs : List FA) (k : Nat) (h : allAt cfg f (r.st k) xs = true)
    (e : r.seg k xs.length = xs) (j : Nat) (hj : j < xs.length) : f (r.st (k + j)) (r.act (k + j)) = true := by
  induction xs generalizing k j with
  | nil => cases hj
  | cons x xs ih =>
    have e' : r.act k = x ∧ r.seg (k + 1) xs.length = xs := by
      have : r.seg k (xs.length + 1) = [r.act k] ++ r.seg (k + 1) xs.length := by
        rw [Nat.add_comm, Run.seg_add]; simp [Run.seg]
      rw [List.length_cons, this] at e
      simpa using e
    simp only [allAt, Bool.and_eq_true] at h
    cases j with
    | zero => rw [Nat.add_zero, e'.1]; exact h.1
    | succ j =>
      have h2 := h.2
      rw [← e'.1, r.next k] at h2
      have := ih (k + 1) h2 e'.2 j (by simpa using hj)
      rw [show k + (j + 1) = k + 1 + j by omega]; exact this

/-- Quiet looks, settled restarts, one user, nobody leaves, no direct calls, no drops. -/
def fine (s : FSB Nat Nat Nat) (x : FA) : Bool :=
  (match s.looksAt x with | some b => (s.lm b).m.th.all fun t => t.pc != .wCS | none => true) &&
  (match x with
    | .sb a => oneUserOk 0 0 a && !isLeave 0 0 a && (match a with
      | .startGo => (match s.sb.start with | some .wipe => (List.range s.sb.n).all (fun t => (s.sb.thr t).idle) | _ => true)
      | .drop _ _ => false
      | _ => true)
    | .low _ _ => true
    | .direct _ _ _ => false)

theorem lStop_len : lStop.length = 70 := rfl

/-- Meets `C164_stop_closes`, `C164_loop_ends`, `C164_pauses`, `C164_loop_gets_all`, `C164_reads_on`, `C164_served`; with calls of the consumer and of the thread in progress. -/
theorem C164_meets : ∃ (r : FSB.Forever Nat 8 cfg1) (c c' : Cons Nat Nat), FSB.Live r ∧ FSB.Settled r ∧ (∀ k c m, r.act k ≠ .sb (.drop c m)) ∧ FSB.FairThread r 0 ∧
    FSB.FairLoop r 0 0 ∧ (∀ j, FSB.OneUser 0 0 (r.act j)) ∧ (∀ j a, r.act j = .sb a → isLeave 0 0 a = false) ∧
    Ev.launched 0 ∈ (r.st 47).sb.log ∧ Ev.eventSet 0 ∈ (r.st 47).sb.log ∧ (r.st 47).sb.view 0 = some c ∧ InLoop (c.pc 0) ∧
    (((r.st 55).lm 0).pend (Who.cons 0).num).isSome = true ∧ (((r.st 20).lm 0).pend (Who.thr 0).num).isSome = true ∧
    r.WeakFair (fun s => ∃ c, s.sb.view 0 = some c ∧ Waits (c.pc 0)) (FSB.turnFor 0 0) ∧ (r.st 28).sb.view 0 = some c' ∧ Waits (c'.pc 0) ∧ (r.st 28).Quiet 0 ∧
    unreadOf ⟨((r.st 28).lm 0).m.data, ((r.st 28).lm 0).readers⟩ 0 = [1] := by
  obtain ⟨r, hr⟩ := run_stop
  have hst : ∀ m, m ≤ 70 → (s0 cfg1).exec cfg1 (lStop.take m) = some (r.st m) := by
    intro m hm
    rw [← lasso_seg hr m hm]; exact exec_to r m
  have hend : ∀ m, ∀ b, (r.st (70 + m)).lm b = (r.st 70).lm b ∧ (r.st (70 + m)).sb.buf b = (r.st 70).sb.buf b := by
    intro m b
    induction m with
    | zero => exact ⟨rfl, rfl⟩
    | succ m ih =>
      have hs := r.next (70 + m)
      have : r.act (70 + m) = .sb .isRunning := by
        rw [hr]
        rcases lasso_mem (p := lStop) (cyc := [FAct.sb SBAct.isRunning]) (by simp) (70 + m) with ⟨h, -⟩ | ⟨-, h⟩
        · exact absurd h (by simp [lStop_len])
        · simpa using h
      rw [this] at hs
      simp only [FSB.step] at hs
      obtain ⟨y, hy, e⟩ := FSB.plain_some hs
      simp only [SB.step] at hy
      split at hy
      · injection hy with hy
        subst hy
        rw [← Nat.add_assoc, e]
        exact ih
      · simp at hy
  have hcyc : ∀ k, 70 ≤ k → r.act k = .sb .isRunning := by
    intro k hk
    rw [hr]
    rcases lasso_mem (p := lStop) (cyc := [FAct.sb SBAct.isRunning]) (by simp) k with ⟨h, -⟩ | ⟨-, h⟩
    · rw [lStop_len] at h; omega
    · simpa using h
  have hfine : ∀ k, k < 70 → fine (r.st k) (r.act k) = true := by
    intro k hk
    have := allAt_sound (f := fine) (r := r) lStop 0 (by rw [r.zero]; rfl) (by rw [lasso_seg hr _ (Nat.le_refl _), List.take_length]) k hk
    rwa [Nat.zero_add] at this
  have h70 : ∃ s, (s0 cfg1).exec cfg1 (lStop.take 70) = some s ∧ (∀ b c, NonOverlapping (LM.onReader c) (s.lm b).hist) ∧
      (s.lm 0).m.th.length = 8 ∧ ((List.range 8).all fun i => ((s.lm 0).step (.go i)).isNone) = true ∧ (∀ k, (s.lm (k + 1)) = LM.init 8 cfg1.key cfg1.keyNone cfg1.maxlen cfg1.rdCfg) ∧
      ∃ c, s.sb.view 0 = some c ∧ c.pc 0 = .idle := ⟨_, rfl, nonOverlapping rfl fun _ => rfl, rfl, rfl, fun _ => rfl, _, rfl, rfl⟩
  obtain ⟨s, h1, hX, hth, hno, hinit, c70, hv70, hpc70⟩ := h70
  rw [hst 70 (by omega)] at h1
  injection h1 with h1
  subst h1
  have hlive : FSB.Live r := by
    refine ⟨?_, ?_, ?_, ?_⟩
    · intro b w hen
      exfalso
      obtain ⟨j, hj, h⟩ := hen 70
      obtain ⟨m, rfl⟩ := Nat.exists_eq_add_of_le hj
      simp only [FSB.step, FSB.use, (hend m b).1] at h
      have : ((r.st 70).lm b).step (.go w.num) = none := by
        cases b with
        | succ b => rw [hinit b]; rfl
        | zero =>
          by_cases hw : w.num < 8
          · have := List.all_eq_true.1 hno w.num (by simpa using hw)
            simpa using this
          · have : ((r.st 70).lm 0).m.th[w.num]? = none := List.getElem?_eq_none (by omega)
            simp only [LM.step, this]
            split <;> simp_all
      rw [this] at h
      simp at h
    · intro k b c
      rcases Nat.le_total k 70 with hk | hk
      · exact FSB.nonOverlapping_prefix (FSB.hist_mono b hk) (hX b c)
      · obtain ⟨m, rfl⟩ := Nat.exists_eq_add_of_le hk
        rw [(hend m b).1]; exact hX b c
    · intro k b hb
      by_cases hk : k < 70
      · have := hfine k hk
        simp only [fine, hb, Bool.and_eq_true, List.all_eq_true] at this
        intro t ht
        simpa using this.1 t ht
      · rw [hcyc k (by omega)] at hb; simp [FSB.looksAt] at hb
    · intro k b c op e
      by_cases hk : k < 70
      · have := hfine k hk
        simp [fine, e] at this
      · rw [hcyc k (by omega)] at e; cases e
  have h47 : ∃ s, (s0 cfg1).exec cfg1 (lStop.take 47) = some s ∧ Ev.launched 0 ∈ s.sb.log ∧ Ev.eventSet 0 ∈ s.sb.log ∧
      ∃ c, s.sb.view 0 = some c ∧ InLoop (c.pc 0) :=
    ⟨_, rfl, List.mem_of_getElem? (i := 2) rfl, List.mem_of_getElem? (i := 5) rfl, _, rfl, trivial⟩
  obtain ⟨s, h1, h2, h3, c, h4, h5⟩ := h47
  rw [hst 47 (by omega)] at h1
  injection h1 with h1
  subst h1
  have h50 : ∃ s, (s0 cfg1).exec cfg1 (lStop.take 50) = some s ∧ Ev.closed 0 true ∈ s.sb.log := ⟨_, rfl, List.mem_of_getElem? (i := 7) rfl⟩
  obtain ⟨s, h1, hcl⟩ := h50
  rw [hst 50 (by omega)] at h1
  injection h1 with h1
  subst h1
  have h55 : ∃ s, (s0 cfg1).exec cfg1 (lStop.take 55) = some s ∧ ((s.lm 0).pend (Who.cons 0).num).isSome = true := ⟨_, rfl, rfl⟩
  obtain ⟨s, h1, hp55⟩ := h55
  rw [hst 55 (by omega)] at h1
  injection h1 with h1
  subst h1
  have h20 : ∃ s, (s0 cfg1).exec cfg1 (lStop.take 20) = some s ∧ ((s.lm 0).pend (Who.thr 0).num).isSome = true := ⟨_, rfl, rfl⟩
  obtain ⟨s, h1, hp20⟩ := h20
  rw [hst 20 (by omega)] at h1
  injection h1 with h1
  subst h1
  have h28 : ∃ s, (s0 cfg1).exec cfg1 (lStop.take 28) = some s ∧ (∃ c, s.sb.view 0 = some c ∧ Waits (c.pc 0)) ∧ ((s.lm 0).m.th.all fun t => t.pc != .wCS) = true ∧
      unreadOf ⟨(s.lm 0).m.data, (s.lm 0).readers⟩ 0 = [1] := ⟨_, rfl, ⟨_, rfl, trivial⟩, rfl, rfl⟩
  obtain ⟨s, h1, ⟨c', hv28, hw28⟩, hq28, hu28⟩ := h28
  rw [hst 28 (by omega)] at h1
  injection h1 with h1
  subst h1
  have hsb : ∀ k a, r.act k = .sb a → a = .isRunning ∨ (k < 70 ∧ fine (r.st k) (.sb a) = true) := by
    intro k a e
    by_cases hk : k < 70
    · exact .inr ⟨hk, by rw [← e]; exact hfine k hk⟩
    · rw [hcyc k (by omega)] at e; injection e with e; exact .inl e.symm
  have hidle : ∀ m c, (r.st (70 + m)).sb.view 0 = some c → c.pc 0 = .idle := by
    intro m c' hv'
    obtain ⟨x, hx, rfl⟩ := Option.map_eq_some_iff.1 hv'
    obtain ⟨x', hx', rfl⟩ := Option.map_eq_some_iff.1 hv70
    rw [(hend m 0).2, hx'] at hx
    injection hx with hx; subst hx
    exact hpc70
  refine ⟨r, c, c', hlive, ?_, ?_, ?_, ?_, ?_, ?_, h2, h3, h4, h5, hp55, hp20, ?_, hv28, hw28, fun t ht => by simpa using List.all_eq_true.1 hq28 t ht, hu28⟩
  · intro k a e ha hw t
    subst ha
    rcases hsb k _ e with h | ⟨-, h⟩
    · cases h
    · simp only [fine, hw, Bool.and_eq_true, List.all_eq_true, List.mem_range] at h
      by_cases ht : t < (r.st k).sb.n
      · exact h.2.2 t ht
      · obtain ⟨O, hF⟩ := hlive.finv k
        rw [hF.inv.noThr t (by omega)]; rfl
  · intro k c m e
    rcases hsb k _ e with h | ⟨-, h⟩
    · cases h
    · simp [fine] at h
  · intro k ha
    by_cases h : k ≤ 49
    · exact ⟨49, h, by rw [hr]; rfl⟩
    · refine absurd ((SB.Paused.log_mono hlive.sb (show 50 ≤ k by omega)).subset hcl) ((ha k (Nat.le_refl k)).2 true)
  · intro k ha
    by_cases h : k ≤ 69
    · exact ⟨69, h, by rw [hr]; rfl⟩
    · obtain ⟨m, rfl⟩ := Nat.exists_eq_add_of_le (show 70 ≤ k by omega)
      obtain ⟨c', hv', hin⟩ := ha (70 + m) (Nat.le_refl _)
      rw [hidle m c' hv'] at hin
      exact hin.elim
  · intro j
    cases hx : r.act j with
    | low => trivial
    | direct b c op =>
      exfalso
      by_cases hk : j < 70
      · have := hfine j hk
        simp [fine, hx] at this
      · rw [hcyc j (by omega)] at hx; cases hx
    | sb a =>
      rcases hsb j a hx with rfl | ⟨-, h⟩
      · trivial
      · simp only [fine, Bool.and_eq_true] at h
        exact oneUser_of_check (as := [a]) (by simpa using h.2.1.1) a (by simp)
  · intro j a e
    rcases hsb j a e with rfl | ⟨-, h⟩
    · rfl
    · simp only [fine, Bool.and_eq_true] at h
      simpa using h.2.1.2
  · intro k ha
    by_cases h : k ≤ 69
    · exact ⟨69, h, by rw [hr]; rfl⟩
    · obtain ⟨m, rfl⟩ := Nat.exists_eq_add_of_le (show 70 ≤ k by omega)
      obtain ⟨c', hv', hin⟩ := ha (70 + m) (Nat.le_refl _)
      rw [hidle m c' hv'] at hin
      exact hin.elim

end FineW
end S2P
