import Verif.Props.Fair2
import Verif.Props.FairWitness
import Verif.Props.JoinWitness
import Verif.Props.IterWitness
import Verif.Props.SourcePathWitness
/-
Infinite executions that meet the hypotheses of C154.
-/
namespace S2P
open Spec

section
variable {σ α : Type} {step : σ → α → Option σ} {s0 : σ}

/-- `p`, then the choice `a` for ever; `P` holds all the time after `p`. -/
theorem lasso_idle [Inhabited α] (p : List α) (a : α) (P : σ → Prop) (h0 : ∃ s, p.foldlM step s0 = some s ∧ P s) (hP : ∀ s, P s → ∃ s', step s a = some s' ∧ P s') :
    ∃ r : Run step s0, (∀ i, r.act i = lassoAct p [a] i) ∧ (∀ j, p.length ≤ j → P (r.st j) ∧ r.act j = a) ∧ ∀ n, n ≤ p.length → (p.take n).foldlM step s0 = some (r.st n) := by
  obtain ⟨r, hr⟩ := lasso_run p [a] (by simp) P h0 (fun s h => by
    obtain ⟨s', h1, h2⟩ := hP s h
    exact ⟨s', by simp [h1], h2⟩)
  have htake : ∀ n, n ≤ p.length → (p.take n).foldlM step s0 = some (r.st n) := by
    intro n
    induction n with
    | zero => intro _; simp [r.zero]
    | succ n ih =>
      intro h
      rw [List.take_succ_eq_append_getElem (by omega), List.foldlM_append, ih (by omega)]
      have hn := r.next n
      rw [hr, lassoAct, if_pos (by omega), getElem!_pos p n (by omega)] at hn
      simp [hn]
  have hact : ∀ j, p.length ≤ j → r.act j = a := by
    intro j hj
    rw [hr]
    rcases lasso_mem (p := p) (cyc := [a]) (by simp) j with ⟨h, -⟩ | ⟨-, h⟩
    · omega
    · simpa using h
  refine ⟨r, hr, fun j hj => ⟨?_, hact j hj⟩, htake⟩
  obtain ⟨n, rfl⟩ := Nat.exists_eq_add_of_le hj
  clear hj
  induction n with
  | zero =>
    obtain ⟨s, h1, h2⟩ := h0
    have := htake p.length (by omega)
    rw [List.take_length, h1] at this
    injection this with this
    rw [Nat.add_zero, ← this]; exact h2
  | succ n ih =>
    obtain ⟨s', h1, h2⟩ := hP _ ih
    have := r.next (p.length + n)
    rw [hact _ (by omega), h1] at this
    injection this with this
    rw [← Nat.add_assoc, ← this]; exact h2

theorem lasso_every [Inhabited α] {p : List α} {a : α} {r : Run step s0} (hr : ∀ i, r.act i = lassoAct p [a] i) {Q : α → Prop} (hQ : ∀ x ∈ p ++ [a], Q x) (k : Nat) : Q (r.act k) := by
  rw [hr]
  refine hQ _ ?_
  rcases lasso_mem (p := p) (cyc := [a]) (by simp) k with ⟨-, h⟩ | ⟨-, h⟩ <;> simp at h ⊢ <;> simp [h]

end

namespace JSB
instance : Inhabited (JAct Nat Nat Nat) := ⟨.sb .isRunning⟩

theorem foldlM_exec (cfg : SBCfg Nat Nat) (as : List (JAct Nat Nat Nat)) : ∀ s : J, as.foldlM (JSB.step cfg) s = s.exec cfg as := by
  induction as with
  | nil => intro s; rfl
  | cons a as ih =>
    intro s
    rw [List.foldlM_cons, exec]
    cases h : s.step cfg a with
    | none => rfl
    | some s' => exact ih s'

/-- Start, two items, `stop()` while the thread is inside `read()`; caller 0 waits in `join()`; the thread stores 3 and ends; `join()` returns; a loop begins, drains 1, 2, 3,
and ends. -/
def jAll : List (JAct Nat Nat Nat) :=
  lift (SB.wStart 7 ++ SB.wItem 0 1 ++ SB.wItem 0 2 ++ [.thr 0, .thr 0, .stop, .stopEnd]) ++ [.look 0] ++
  lift [.readOk 0 (some 3), .thr 0, .thr 0, .thr 0, .thr 0, .close 0 true] ++ [.wait 0] ++ lift (.rd 0 (.callIter 0) :: List.replicate 8 (.rd 0 (.go 0)))

/-- Meets `C154_join_returns` and `C154_drain`. -/
theorem C154_meets : ∃ (r : Run (JSB.step (SB.mkCfg none true)) (JSB.init : J)) (c : Cons Nat Nat), (∀ k, (r.st k).CarefulAt (r.act k)) ∧
    r.Fair (fun s => Ev.launched 0 ∈ s.sb.log ∧ ∀ ok, Ev.closed 0 ok ∉ s.sb.log) (JActOf 0) ∧
    r.Fair (fun s => s.waits 0 = some 0 ∧ s.sb.thr 0 = .done) (JWait 0) ∧
    r.Fair (fun s => ∃ c, s.sb.view 0 = some c ∧ SB.InLoop (c.pc 0)) (JGo 0 0) ∧
    Ev.launched 0 ∈ (r.st 24).sb.log ∧ Ev.eventSet 0 ∈ (r.st 24).sb.log ∧ (r.st 24).waits 0 = some 0 ∧
    (∀ j a, r.act j = .sb a → SB.OneUser 0 0 a) ∧ (∀ j a, r.act j = .sb a → SB.isLeave 0 0 a = false) ∧
    JEv.joined 0 ∈ (r.st 32).joins ∧ (r.st 32).sb.view 0 = some c ∧ BetweenReads (c.pc 0) ∧ unreadOf c.ch 0 = [1, 2, 3] := by
  obtain ⟨r, hr, hidle, htake⟩ := lasso_idle (step := JSB.step (SB.mkCfg none true)) (s0 := (JSB.init : J)) jAll (.sb .isRunning)
    (fun s => s.sb.start = none ∧ Ev.closed 0 true ∈ s.sb.log ∧ s.waits 0 = none ∧ ∃ c, s.sb.view 0 = some c ∧ c.pc 0 = .idle) (by
      have h : ∃ s : J, JSB.init.exec (SB.mkCfg none true) jAll = some s ∧ s.sb.start = none ∧ Ev.closed 0 true ∈ s.sb.log ∧ s.waits 0 = none ∧
          ∃ c, s.sb.view 0 = some c ∧ c.pc 0 = .idle := ⟨_, rfl, rfl, List.mem_of_getElem? (i := 11) rfl, rfl, _, rfl, rfl⟩
      rw [foldlM_exec]; exact h) (by
      rintro s ⟨h1, h2, h3, h4⟩
      refine ⟨{ s with sb := s.sb.say (.isRunning s.sb.running) }, by simp [step, SB.step, h1], h1, by simp [SB.say, h2], h3, h4⟩)
  have hst : ∀ n, n ≤ 40 → (JSB.init : J).exec (SB.mkCfg none true) (jAll.take n) = some (r.st n) := fun n h => by
    rw [← foldlM_exec]; exact htake n h
  have h24 : ∃ s : J, JSB.init.exec (SB.mkCfg none true) (jAll.take 24) = some s ∧ Ev.launched 0 ∈ s.sb.log ∧ Ev.eventSet 0 ∈ s.sb.log ∧ s.waits 0 = some 0 :=
    ⟨_, rfl, List.mem_of_getElem? (i := 2) rfl, List.mem_of_getElem? (i := 7) rfl, rfl⟩
  obtain ⟨s, h1, h2, h3, h4⟩ := h24
  rw [hst 24 (by omega)] at h1; injection h1 with h1; subst h1
  have h32 : ∃ s : J, JSB.init.exec (SB.mkCfg none true) (jAll.take 32) = some s ∧ JEv.joined 0 ∈ s.joins ∧ ∃ c, s.sb.view 0 = some c ∧ BetweenReads (c.pc 0) ∧
      unreadOf c.ch 0 = [1, 2, 3] := ⟨_, rfl, List.mem_of_getElem? (i := 0) rfl, _, rfl, trivial, rfl⟩
  obtain ⟨s, h1, g1, c, g2, g3, g4⟩ := h32
  rw [hst 32 (by omega)] at h1; injection h1 with h1; subst h1
  have hcl : ∀ k, 30 ≤ k → Ev.closed 0 true ∈ (r.st k).sb.log := by
    have h30 : ∃ s : J, JSB.init.exec (SB.mkCfg none true) (jAll.take 30) = some s ∧ Ev.closed 0 true ∈ s.sb.log := ⟨_, rfl, List.mem_of_getElem? (i := 11) rfl⟩
    obtain ⟨s, e1, e2⟩ := h30
    rw [hst 30 (by omega)] at e1; injection e1 with e1; subst e1
    exact fun k hk => (log_mono r hk).subset e2
  refine ⟨r, c, ?_, ?_, ?_, ?_, h2, h3, h4, ?_, ?_, g1, g2, g3, g4⟩
  · intro k
    by_cases hk : k < jAll.length
    · have hc : (JSB.init : J).Careful (SB.mkCfg none true) jAll := careful_of_check _ _ rfl
      have : ∀ (xs ys : List (JAct Nat Nat Nat)) (s s' : J), s.Careful (SB.mkCfg none true) (xs ++ ys) → s.exec (SB.mkCfg none true) xs = some s' → s'.Careful (SB.mkCfg none true) ys := by
        intro xs
        induction xs with
        | nil => intro ys s s' h he; simp only [exec, Option.some.injEq] at he; subst he; exact h
        | cons x xs ih =>
          intro ys s s' h he
          simp only [exec] at he
          split at he
          · exact ih ys _ _ (h.2 _ ‹_›) he
          · cases he
      have h1 : jAll = jAll.take k ++ (jAll[k] :: jAll.drop (k + 1)) := by rw [List.getElem_cons_drop, List.take_append_drop]
      rw [h1] at hc
      have := (this _ _ _ _ hc (hst k (by have : jAll.length = 40 := rfl; omega))).1
      rw [hr, lassoAct, if_pos hk, getElem!_pos jAll k hk]
      exact this
    · rw [(hidle k (by omega)).2]; intro h; cases h
  · rintro k ⟨-, hk⟩
    by_cases h : k ≤ 29
    · exact ⟨29, h, by rw [hr]; rfl⟩
    · exact absurd (hcl k (by omega)) (hk true)
  · rintro k ⟨hk, -⟩
    by_cases h : k ≤ 30
    · exact ⟨30, h, by rw [hr]; rfl⟩
    · by_cases h' : 40 ≤ k
      · rw [(hidle k h').1.2.2.1] at hk; cases hk
      · exfalso
        have : ∀ n : Fin 40, 31 ≤ n.1 → ∃ s : J, JSB.init.exec (SB.mkCfg none true) (jAll.take n.1) = some s ∧ s.waits 0 = none := by
          intro n hn
          rcases n with ⟨n, hn'⟩
          have : n = 31 ∨ n = 32 ∨ n = 33 ∨ n = 34 ∨ n = 35 ∨ n = 36 ∨ n = 37 ∨ n = 38 ∨ n = 39 := by simp at hn; omega
          rcases this with rfl | rfl | rfl | rfl | rfl | rfl | rfl | rfl | rfl <;> exact ⟨_, rfl, rfl⟩
        obtain ⟨s, e1, e2⟩ := this ⟨k, by omega⟩ (by simp; omega)
        rw [hst k (by omega)] at e1; injection e1 with e1; subst e1
        rw [e2] at hk; cases hk
  · rintro k ⟨c, hv, hin⟩
    by_cases h : k ≤ 39
    · exact ⟨39, h, by rw [hr]; rfl⟩
    · obtain ⟨-, -, -, c', e1, e2⟩ := (hidle k (show 40 ≤ k by omega)).1
      rw [hv] at e1; injection e1 with e1; subst e1
      rw [e2] at hin; exact hin.elim
  · intro j a hj
    have := lasso_every hr (Q := fun x => ∀ a, x = .sb a → SB.OneUser 0 0 a) (fun x hx a hxa => by
      subst hxa
      refine SB.oneUser_of_check (as := sbActs (jAll ++ [.sb .isRunning])) rfl a ?_
      have key : ∀ xs : List (JAct Nat Nat Nat), .sb a ∈ xs → a ∈ sbActs xs := by
        intro xs
        induction xs with
        | nil => simp
        | cons x xs ih => cases x <;> simp [sbActs] <;> grind
      exact key _ hx) j
    exact this a hj
  · intro j a hj
    have := lasso_every hr (Q := fun x => ∀ a, x = .sb a → SB.isLeave 0 0 a = false) (fun x hx a hxa => by
      subst hxa
      refine SB.stay_of_check (as := sbActs (jAll ++ [.sb .isRunning])) rfl a ?_
      have key : ∀ xs : List (JAct Nat Nat Nat), .sb a ∈ xs → a ∈ sbActs xs := by
        intro xs
        induction xs with
        | nil => simp
        | cons x xs ih => cases x <;> simp [sbActs] <;> grind
      exact key _ hx) j
    exact this a hj

end JSB

namespace Src
namespace Witness
instance : Inhabited (SrcAct Nat Nat Nat) := ⟨.configure (none, true)⟩

theorem foldlM_exec (cfg : SrcCfg Nat Nat) (as : List (SrcAct Nat Nat Nat)) : ∀ s : Src Nat Nat Nat, as.foldlM (Src.step cfg) s = s.exec cfg as := by
  induction as with
  | nil => intro s; rfl
  | cons a as ih =>
    intro s
    rw [List.foldlM_cons, exec]
    cases h : s.step cfg a with
    | none => rfl
    | some s' => exact ih s'

/-- Two readers, a loop over the first; it gets 1 and waits; the readers are closed; the thread stores 2 and ends; the loop gets 2 and ends. -/
def sAll : List (SrcAct Nat Nat Nat) := [.configure (none, true)] ++ wOpen ++ wMore ++ wIt 1 ++ [.bg (.rd 0 (.callIter 0)), .bg (.rd 0 (.go 0)), .close 1] ++
  [.bg (.thr 0), .bg (.thr 0), .bg (.readOk 0 (some 2)), .close 0, .closeGo] ++ wEnd ++ List.replicate 5 (.bg (.rd 0 (.go 0)))

/-- Meets `C154_last_close` and `C154_loops_end`. -/
theorem C154_meets : ∃ (r : Run (Src.step wcfg) (Src.init : Src Nat Nat Nat)) (x : SB Nat Nat Nat) (c : Cons Nat Nat), SrcEv.stopped ∈ (r.st 27).log ∧
    r.Fair (fun s => ∃ c x, s.sb = some (c, x) ∧ Ev.launched 0 ∈ x.log ∧ ∀ ok, Ev.closed 0 ok ∉ x.log) BgOf ∧
    r.Fair (fun s => ∃ m x c, s.sb = some (m, x) ∧ x.view 0 = some c ∧ SB.InLoop (c.pc 0)) (BgGo 0) ∧
    (∀ j a, r.act j = .bg a → SB.OneUser 0 0 a) ∧ (∀ j a, r.act j = .bg a → SB.isLeave 0 0 a = false) ∧
    (r.st 27).sb = some ((none, true), x) ∧ x.view 0 = some c ∧ SB.InLoop (c.pc 0) ∧ received c 0 = [1] ∧ (∀ ok, Ev.closed 0 ok ∉ x.log) := by
  obtain ⟨r, hr, hidle, htake⟩ := lasso_idle (step := Src.step wcfg) (s0 := (Src.init : Src Nat Nat Nat)) sAll (.configure (none, true))
    (fun s => s.pc = .idle ∧ ∃ x, s.sb = some ((none, true), x) ∧ Ev.closed 0 true ∈ x.log ∧ ∃ c, x.view 0 = some c ∧ c.pc 0 = .idle) (by
      have h : ∃ s : Src Nat Nat Nat, Src.init.exec wcfg sAll = some s ∧ s.pc = .idle ∧ ∃ x, s.sb = some ((none, true), x) ∧ Ev.closed 0 true ∈ x.log ∧
          ∃ c, x.view 0 = some c ∧ c.pc 0 = .idle := ⟨_, rfl, rfl, _, rfl, List.mem_of_getElem? (i := 9) rfl, _, rfl, rfl⟩
      rw [foldlM_exec]; exact h) (by
      rintro s ⟨h1, x, h2, h3⟩
      exact ⟨s.say (.configured (none, true) (.error .valueError)), by simp [step, h1, h2], h1, x, h2, h3⟩)
  have hst : ∀ n, n ≤ 37 → (Src.init : Src Nat Nat Nat).exec wcfg (sAll.take n) = some (r.st n) := fun n h => by
    rw [← foldlM_exec]; exact htake n h
  have h27 : ∃ s : Src Nat Nat Nat, Src.init.exec wcfg (sAll.take 27) = some s ∧ SrcEv.stopped ∈ s.log ∧ ∃ x, s.sb = some ((none, true), x) ∧
      ∃ c, x.view 0 = some c ∧ SB.InLoop (c.pc 0) ∧ received c 0 = [1] ∧ x.log.all (fun | .closed _ _ => false | _ => true) = true :=
    ⟨_, rfl, List.mem_of_getElem? (i := 6) rfl, _, rfl, _, rfl, trivial, rfl, rfl⟩
  obtain ⟨s, h1, g1, x, g2, c, g3, g4, g5, g6⟩ := h27
  rw [hst 27 (by omega)] at h1; injection h1 with h1; subst h1
  have hcl : ∀ k, 32 ≤ k → ∀ m x, (r.st k).sb = some (m, x) → Ev.closed 0 true ∈ x.log := by
    have h32 : ∃ s : Src Nat Nat Nat, Src.init.exec wcfg (sAll.take 32) = some s ∧ ∃ m x, s.sb = some (m, x) ∧ Ev.closed 0 true ∈ x.log :=
      ⟨_, rfl, _, _, rfl, List.mem_of_getElem? (i := 9) rfl⟩
    obtain ⟨s, e1, m, x, e2, e3⟩ := h32
    rw [hst 32 (by omega)] at e1; injection e1 with e1; subst e1
    intro k hk m' x' hx'
    obtain ⟨n, rfl⟩ := Nat.exists_eq_add_of_le hk
    obtain ⟨as, bs, y, -, k2, k3, -⟩ := path_seg r 32 n e2
    rw [hx'] at k3; cases k3
    exact SB.exec_ind (P := fun t : SB Nat Nat Nat => Ev.closed 0 true ∈ t.log) (fun t a t' ht hs => (SB.Paused.log_step hs).subset ht) e3 k2
  refine ⟨r, x, c, g1, ?_, ?_, ?_, ?_, g2, g3, g4, g5, fun ok h => ?_⟩
  · rintro k ⟨m, y, hy, -, hk⟩
    by_cases h : k ≤ 31
    · exact ⟨31, h, by rw [hr]; rfl⟩
    · exact absurd (hcl k (by omega) m y hy) (hk true)
  · rintro k ⟨m, y, c, hy, hv, hin⟩
    by_cases h : k ≤ 36
    · exact ⟨36, h, by rw [hr]; rfl⟩
    · obtain ⟨-, y', e1, -, c', e2, e3⟩ := (hidle k (show 37 ≤ k by omega)).1
      rw [hy] at e1; cases e1
      rw [hv] at e2; injection e2 with e2; subst e2
      rw [e3] at hin; exact hin.elim
  · intro j a hj
    exact lasso_every hr (Q := fun x => ∀ a, x = .bg a → SB.OneUser 0 0 a) (fun x hx a hxa =>
      SB.oneUser_of_check (as := bgActs (sAll ++ [.configure (none, true)])) rfl a (List.mem_filterMap.2 ⟨_, hxa ▸ hx, rfl⟩)) j a hj
  · intro j a hj
    exact lasso_every hr (Q := fun x => ∀ a, x = .bg a → SB.isLeave 0 0 a = false) (fun x hx a hxa =>
      SB.stay_of_check (as := bgActs (sAll ++ [.configure (none, true)])) rfl a (List.mem_filterMap.2 ⟨_, hxa ▸ hx, rfl⟩)) j a hj
  · simpa using List.all_eq_true.1 g6 _ h

end Witness
end Src

namespace GSB
instance : Inhabited GA := ⟨.sb .isRunning⟩

theorem foldlM_exec (cfg : SBCfg Nat Nat) (as : List GA) : ∀ s : GS, as.foldlM (GSB.step cfg) s = s.exec cfg as := by
  induction as with
  | nil => intro s; rfl
  | cons a as ih =>
    intro s
    rw [List.foldlM_cons, exec]
    cases h : s.step cfg a with
    | none => rfl
    | some s' => exact ih s'

/-- Of three stored items the loop over the stream buffer has got one; it gets the others; `stop()`, the source is closed; the loop ends. -/
def gAll : List GA := wIn ++ later 0 ++ later 0 ++ rest (SB.wStop 0) ++ .next 0 :: (List.replicate 2 (.go 0))

/-- Meets `C154_iter_gets_all` (at 30: 1 of 1, 2, 3 was handed out) and `C154_iter_ends` (at 35: `stop()` has been called). -/
theorem C154_meets : ∃ r : Run (GSB.step (SB.mkCfg none true)) (GSB.init : GS), (∀ k x, r.act k = .sb x → (r.st k).sb.SettledAt x) ∧
    (SB.mkCfg none true).rdCfg (genRd 0) = Cfg.default ∧ r.Fair (fun s => s.InUse 0 0) (GAct.isGo 0) ∧ (∀ j, (r.act j).isClose 0 = false) ∧
    (r.st 30).InUse 0 0 ∧ handed 0 (r.st 30).res = [1] ∧ storedIn 0 (r.st 30).sb.log = [1, 2, 3] ∧
    r.Fair (fun s => Ev.launched 0 ∈ s.sb.log ∧ ∀ ok, Ev.closed 0 ok ∉ s.sb.log) (fun | .sb a => a.ofThread 0 | _ => false) ∧
    (r.st 35).InUse 0 0 ∧ Ev.launched 0 ∈ (r.st 35).sb.log ∧ Ev.eventSet 0 ∈ (r.st 35).sb.log := by
  obtain ⟨r, hr, hidle, htake⟩ := lasso_idle (step := GSB.step (SB.mkCfg none true)) (s0 := (GSB.init : GS)) gAll (.sb .isRunning)
    (fun s => s.sb.start = none ∧ Ev.closed 0 true ∈ s.sb.log ∧ s.gens 0 = .over (some 0)) (by
      have h : ∃ s : GS, GSB.init.exec (SB.mkCfg none true) gAll = some s ∧ s.sb.start = none ∧ Ev.closed 0 true ∈ s.sb.log ∧ s.gens 0 = .over (some 0) :=
        ⟨_, rfl, rfl, List.mem_of_getElem? (i := 12) rfl, rfl⟩
      rw [foldlM_exec]; exact h) (by
      rintro s ⟨h1, h2, h3⟩
      refine ⟨{ s with sb := s.sb.say (.isRunning s.sb.running) }, by simp [step, SBAct.isOther, SB.step, h1], h1, by simp [SB.say, h2], h3⟩)
  have hst : ∀ n, n ≤ 42 → (GSB.init : GS).exec (SB.mkCfg none true) (gAll.take n) = some (r.st n) := fun n h => by
    rw [← foldlM_exec]; exact htake n h
  have h30 : ∃ s : GS, GSB.init.exec (SB.mkCfg none true) (gAll.take 30) = some s ∧ s.gens 0 = .at 0 ∧ handed 0 s.res = [1] ∧ storedIn 0 s.sb.log = [1, 2, 3] :=
    ⟨_, rfl, rfl, rfl, rfl⟩
  obtain ⟨s, h1, g1, g2, g3⟩ := h30
  rw [hst 30 (by omega)] at h1; injection h1 with h1; subst h1
  have h35 : ∃ s : GS, GSB.init.exec (SB.mkCfg none true) (gAll.take 35) = some s ∧ s.gens 0 = .at 0 ∧ Ev.launched 0 ∈ s.sb.log ∧ Ev.eventSet 0 ∈ s.sb.log :=
    ⟨_, rfl, rfl, List.mem_of_getElem? (i := 2) rfl, List.mem_of_getElem? (i := 10) rfl⟩
  obtain ⟨s, h1, f1, f2, f3⟩ := h35
  rw [hst 35 (by omega)] at h1; injection h1 with h1; subst h1
  have hcl : ∀ k, 38 ≤ k → Ev.closed 0 true ∈ (r.st k).sb.log := by
    have h38 : ∃ s : GS, GSB.init.exec (SB.mkCfg none true) (gAll.take 38) = some s ∧ Ev.closed 0 true ∈ s.sb.log := ⟨_, rfl, List.mem_of_getElem? (i := 12) rfl⟩
    obtain ⟨s, e1, e2⟩ := h38
    rw [hst 38 (by omega)] at e1; injection e1 with e1; subst e1
    intro k hk
    obtain ⟨n, rfl⟩ := Nat.exists_eq_add_of_le hk
    obtain ⟨bs, k1, -⟩ := thread_path 0 (exec_seg r 38 n)
    exact SB.exec_ind (P := fun t : SB Nat Nat Nat => Ev.closed 0 true ∈ t.log) (fun t a t' ht hs => (SB.Paused.log_step hs).subset ht) e2 k1
  refine ⟨r, ?_, rfl, ?_, lasso_every hr (noClose_of_check rfl), .inr g1, g2, g3, ?_, .inr f1, f2, f3⟩
  · intro k x hx
    by_cases hk : k < gAll.length
    · have hc : (GSB.init : GS).Settled (SB.mkCfg none true) gAll := settled_of_check SB.Inv.init rfl
      have h1 : gAll = gAll.take k ++ (gAll[k] :: gAll.drop (k + 1)) := by rw [List.getElem_cons_drop, List.take_append_drop]
      rw [h1] at hc
      have := (hc.split (hst k (by have : gAll.length = 42 := rfl; omega))).2.1
      rw [hr, lassoAct, if_pos hk, getElem!_pos gAll k hk] at hx
      exact this x hx
    · rw [(hidle k (by omega)).2] at hx
      cases hx
      intro h; cases h
  · rintro k hk
    by_cases h : k ≤ 41
    · exact ⟨41, h, by rw [hr]; rfl⟩
    · have := (hidle k (show 42 ≤ k by omega)).1.2.2
      rcases hk with h | h <;> rw [this] at h <;> cases h
  · rintro k ⟨-, hk⟩
    by_cases h : k ≤ 37
    · exact ⟨37, h, by rw [hr]; rfl⟩
    · exact absurd (hcl k (by omega)) (hk true)

end GSB
end S2P
