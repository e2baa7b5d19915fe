import Verif.Props.Fair
import Verif.Props.Drain
import Verif.Props.SourcePath
import Verif.Props.IterBuffer
/-
C154: infinite executions under a fair scheduler, for the rest of the API: `join()` returns, a loop begun after `join()` drains, the last close of a reader
closes a `StreamSource` and ends the loops over its readers, loops over a stream buffer itself.
-/
namespace S2P
open Spec
variable {K V I : Type}

namespace JSB
variable [LinearOrder K] [BEq V] {cfg : SBCfg K V} {r : Run (JSB.step cfg) (JSB.init : JSB K V I)}

theorem exec_seg (r : Run (JSB.step cfg) (JSB.init : JSB K V I)) (k n : Nat) : (r.st k).exec cfg (r.seg k n) = some (r.st (k + n)) := by
  induction n with
  | zero => simp [Run.seg, exec]
  | succ n ih => rw [Run.seg_succ, exec_append, ih]; simp only [Option.bind, exec, r.next, Nat.add_assoc]

theorem exec_to (r : Run (JSB.step cfg) (JSB.init : JSB K V I)) (n : Nat) : (JSB.init : JSB K V I).exec cfg (r.seg 0 n) = some (r.st n) := by
  have := exec_seg r 0 n
  rwa [r.zero, Nat.zero_add] at this

theorem careful_seg (h : ∀ k, (r.st k).CarefulAt (r.act k)) (k n : Nat) : (r.st k).Careful cfg (r.seg k n) := by
  induction n generalizing k with
  | zero => trivial
  | succ n ih =>
    rw [Nat.add_comm, Run.seg_add]
    have : r.seg k 1 = [r.act k] := by simp [Run.seg]
    rw [this]
    refine ⟨h k, fun s' hs' => ?_⟩
    rw [r.next] at hs'
    injection hs' with hs'
    subst hs'
    exact ih (k + 1)

theorem careful_to (h : ∀ k, (r.st k).CarefulAt (r.act k)) (k n : Nat) : (JSB.init : JSB K V I).Careful cfg (r.seg 0 k ++ r.seg k n) := by
  have := careful_seg h 0 (k + n)
  rwa [r.zero, Run.seg_add, Nat.zero_add] at this

theorem log_mono (r : Run (JSB.step cfg) (JSB.init : JSB K V I)) {k j : Nat} (h : k ≤ j) : (r.st k).sb.log <+: (r.st j).sb.log := by
  obtain ⟨n, rfl⟩ := Nat.exists_eq_add_of_le h
  exact SB.exec_ind (P := fun t : SB K V I => (r.st k).sb.log <+: t.log) (fun t a t' ht hs => ht.trans (SB.Paused.log_step hs)) (List.prefix_refl _)
    (exec_sb (exec_seg r k n))

/-- The steps of the thread of session `t`. -/
def JActOf (t : Nat) : JAct K V I → Bool
  | .sb a => a.ofThread t
  | _ => false

/-- The statements of the loop over reader `i` of session `b`. -/
def JGo (b i : Nat) : JAct K V I → Bool
  | .sb a => SB.isGo b i a
  | _ => false

/-- Caller `c` wakes up in `join()`. -/
def JWait (c : Nat) : JAct K V I → Bool
  | .wait c' => c' = c
  | _ => false

omit [LinearOrder K] [BEq V] in
theorem count_sb {p : SBAct K V I → Bool} {q : JAct K V I → Bool} (h : ∀ a, q (.sb a) = p a) (h1 : ∀ c, q (.look c) = false) (h2 : ∀ c, q (.wait c) = false)
    (xs : List (JAct K V I)) : (sbActs xs).countP p = xs.countP q := by
  induction xs with
  | nil => rfl
  | cons x xs ih => cases x <;> simp [sbActs, List.countP_cons, ih, h, h1, h2]

/-- **C154** every `start()` comes after the `join()` of the earlier sessions: once the stop event of a session is set (by `stop()`, or because its thread died), a caller
waiting for it in `join()` returns from it, sooner or later. -/
theorem C154_join_returns (hcare : ∀ k, (r.st k).CarefulAt (r.act k)) (c t k : Nat)
    (hf : r.Fair (fun s => Ev.launched t ∈ s.sb.log ∧ ∀ ok, Ev.closed t ok ∉ s.sb.log) (JActOf t))
    (hw : r.Fair (fun s => s.waits c = some t ∧ s.sb.thr t = .done) (JWait c))
    (hl : Ev.launched t ∈ (r.st k).sb.log) (he : Ev.eventSet t ∈ (r.st k).sb.log) (hc : (r.st k).waits c = some t) :
    ∃ j, k ≤ j ∧ r.act j = .wait c ∧ (r.st (j + 1)).joins = (r.st j).joins ++ [.joined t] := by
  by_contra hno
  simp only [not_exists, not_and] at hno
  have hgood := fun j => SB.good (exec_sb (exec_to r j))
  have hl' : ∀ j, k ≤ j → Ev.launched t ∈ (r.st j).sb.log := fun j hj => (log_mono r hj).subset hl
  have hfresh : ∀ j, k ≤ j → (r.st j).sb.thr t ≠ .fresh := fun j hj h => by
    have := (hgood j).log.launched t (hl' j hj)
    rw [h] at this; simp at this
  have hret : ∀ j, k ≤ j → (r.st j).waits c = some t → r.act j ≠ .wait c := by
    intro j hj hwj hact
    have hs := r.next j
    rw [hact] at hs
    rcases step_join hs with ⟨a, h, -⟩ | ⟨-, -, ⟨-, c', t', h, -⟩ | ⟨-, h⟩ | ⟨c', t', h1, h2, ⟨-, h⟩ | ⟨h, -⟩⟩⟩
    · cases h
    · cases h
    · have := hs
      simp only [step, hwj] at this
      split at this
      · exact hfresh j hj ‹_›
      · injection this with this
        exact hno j hj hact (by rw [← this])
      · cases this
    · cases h1; rw [hwj] at h2; cases h2; exact hfresh j hj h
    · cases h1; rw [hwj] at h2; cases h2; exact hno j hj hact h
  have hwait : ∀ j, k ≤ j → (r.st j).waits c = some t := by
    intro j hj
    obtain ⟨n, rfl⟩ := Nat.exists_eq_add_of_le hj
    clear hj
    induction n with
    | zero => exact hc
    | succ n ih =>
      have hs := r.next (k + n)
      have hr := hret (k + n) (by omega) ih
      rw [← Nat.add_assoc]
      cases hact : r.act (k + n) with
      | sb a =>
        rw [hact] at hs
        simp only [step, Option.map_eq_some_iff] at hs
        obtain ⟨y, -, hy⟩ := hs
        rw [← hy]; exact ih
      | look c' =>
        rw [hact] at hs
        simp only [step] at hs
        split at hs
        · split at hs <;> (injection hs with hs; rw [← hs])
          · exact ih
          · simp only [setWait]; grind
        · cases hs
      | wait c' =>
        rw [hact] at hs
        have hcc : c' ≠ c := fun h => hr (by rw [hact, h])
        simp only [step] at hs
        split at hs
        · cases hs
        · split at hs
          · injection hs with hs; rw [← hs]; simp only [setWait]; grind
          · injection hs with hs; rw [← hs]; simp only [setWait]; grind
          · cases hs
  obtain ⟨k1, ok, hk1, hcl⟩ : ∃ j ok, k ≤ j ∧ Ev.closed t ok ∈ (r.st j).sb.log := by
    by_contra hno2
    simp only [not_exists, not_and] at hno2
    obtain ⟨m, hm⟩ := r.many hf k (fun j hj => ⟨hl' j hj, fun ok h => hno2 j ok hj h⟩) 9
    have := (C89_stop_join_returns (exec_to r k) (exec_seg r k m) (careful_to hcare k m) t he).1.1
    rw [count_sb (p := fun x => x.ofThread t) (q := JActOf t) (fun _ => rfl) (fun _ => rfl) (fun _ => rfl)] at this
    omega
  obtain ⟨j, hj, hact⟩ := hw k1 ⟨hwait k1 hk1, (hgood k1).log.closed t ok hcl⟩
  refine hret j (by omega) (hwait j (by omega)) ?_
  revert hact
  cases r.act j <;> simp [JWait]

/-- **C154** after `join()` has returned for a session (`auto_drop=True`, any bound; every `start()` after the `join()` of the earlier sessions), a `for` loop over one of its
readers gives its body exactly what is unread, in order, and ends, sooner or later. -/
theorem C154_drain [ReflBEq V] (hcare : ∀ k, (r.st k).CarefulAt (r.act k)) (hd : cfg.autoDrop = true) (b i k : Nat) (hpk : (cfg.rdCfg i).peek = false)
    (hstr : (cfg.rdCfg i).strict = false) (hj : JEv.joined b ∈ (r.st k).joins)
    (hf : r.Fair (fun s => ∃ c, s.sb.view b = some c ∧ SB.InLoop (c.pc i)) (JGo b i))
    (hu : ∀ j a, k ≤ j → r.act j = .sb a → SB.OneUser b i a) (hstay : ∀ j a, k ≤ j → r.act j = .sb a → SB.isLeave b i a = false)
    (c : Cons K V) (hv : (r.st k).sb.view b = some c) (hpc : BetweenReads (c.pc i)) :
    ∃ j c' l, k ≤ j ∧ (r.st j).sb.view b = some c' ∧ c.evtsOf i ++ l ++ [.loopDone] <+: c'.evtsOf i ∧ l.flatMap CEvt.items = unreadOf c.ch i := by
  by_contra hno
  simp only [not_exists, not_and] at hno
  have key := fun n => C98_drain_after_join hd b i hpk hstr (exec_to r k) hj (exec_seg r k n) (careful_to hcare k n)
    (fun a ha => by obtain ⟨j, h1, -, h2⟩ := r.mem_seg _ _ _ ha; exact hu j a h1 h2.symm)
    (fun a ha => by obtain ⟨j, h1, -, h2⟩ := r.mem_seg _ _ _ ha; exact hstay j a h1 h2.symm) c hv hpc
  obtain ⟨m, hm⟩ := r.many hf k (fun j hj => by
    obtain ⟨n, rfl⟩ := Nat.exists_eq_add_of_le hj
    obtain ⟨c', l, h1, h2 | h2⟩ := key n
    · exact absurd h2.2 (hno _ c' l hj h1 h2.1)
    · exact ⟨c', h1, h2.2.2.2.1⟩) (2 * (unreadOf c.ch i).length + 3)
  obtain ⟨c', l, h1, h2 | h2⟩ := key m
  · exact absurd h2.2 (hno _ c' l (by omega) h1 h2.1)
  · have := h2.2.2.1
    rw [count_sb (p := SB.isGo b i) (q := JGo b i) (fun _ => rfl) (fun _ => rfl) (fun _ => rfl)] at this
    omega

end JSB

namespace Src
variable [LinearOrder K] [BEq V] [ReflBEq V] {cfg : SrcCfg K V} {r : Run (Src.step cfg) (Src.init : Src K V I)}

/-- The steps of the reading thread. -/
def BgOf : SrcAct K V I → Bool
  | .bg a => a.ofThread 0
  | _ => false

/-- The statements of the loop over reader `i`. -/
def BgGo (i : Nat) : SrcAct K V I → Bool
  | .bg a => SB.isGo 0 i a
  | _ => false

omit [ReflBEq V] in
theorem exec_seg (r : Run (Src.step cfg) (Src.init : Src K V I)) (k n : Nat) : (r.st k).exec cfg (r.seg k n) = some (r.st (k + n)) := by
  induction n with
  | zero => simp [Run.seg, exec]
  | succ n ih => rw [Run.seg_succ, exec_append, ih]; simp only [Option.bind, exec, r.next, Nat.add_assoc]

omit [ReflBEq V] in
theorem exec_to (r : Run (Src.step cfg) (Src.init : Src K V I)) (n : Nat) : (Src.init : Src K V I).exec cfg (r.seg 0 n) = some (r.st n) := by
  have := exec_seg r 0 n
  rwa [r.zero, Nat.zero_add] at this

omit [LinearOrder K] [BEq V] [ReflBEq V] in
theorem count_bg {p : SBAct K V I → Bool} {q : SrcAct K V I → Bool} (h : ∀ a, q (.bg a) = p a) (h' : ∀ x, (∀ a, x ≠ .bg a) → q x = false)
    (xs : List (SrcAct K V I)) : (bgActs xs).countP p = xs.countP q := by
  induction xs with
  | nil => rfl
  | cons x xs ih =>
    cases x
    case bg a => rw [show bgActs (.bg a :: xs) = a :: bgActs xs from rfl, List.countP_cons, List.countP_cons, ih, h]
    all_goals rw [List.countP_cons_of_neg (by rw [h' _ (by simp)]; simp), ← ih]; rfl

/-- **C154** once the last reader of a `StreamSource` has been closed, the source is closed, sooner or later. -/
theorem C154_last_close (k : Nat) (hst : SrcEv.stopped ∈ (r.st k).log)
    (hf : r.Fair (fun s => ∃ c x, s.sb = some (c, x) ∧ Ev.launched 0 ∈ x.log ∧ ∀ ok, Ev.closed 0 ok ∉ x.log) BgOf) :
    ∃ j c x ok, k ≤ j ∧ (r.st j).sb = some (c, x) ∧ Ev.closed 0 ok ∈ x.log := by
  by_contra hno
  simp only [not_exists, not_and] at hno
  obtain ⟨c, x, hx, hl⟩ := launched_of_reader (exec_to r k) (.inl hst)
  have key : ∀ n, ∃ c' x', (r.st (k + n)).sb = some (c', x') ∧ Ev.launched 0 ∈ x'.log ∧ (∀ ok, Ev.closed 0 ok ∉ x'.log) ∧ (r.seg k n).countP BgOf ≤ 8 := by
    intro n
    obtain ⟨c', y, x', h1, h2, ⟨l, h3, -⟩, h4, -⟩ := C101_source_closed (exec_to r k) hst (exec_seg r k n)
    rw [hx] at h1; cases h1
    refine ⟨_, x', h2, by rw [h3]; simp [hl], fun ok h => hno (k + n) _ x' ok (by omega) h2 h, ?_⟩
    rwa [count_bg (p := fun x => x.ofThread 0) (q := BgOf) (fun _ => rfl)] at h4
    intro x hx; cases x <;> first | rfl | exact absurd rfl (hx _)
  obtain ⟨m, hm⟩ := r.many hf k (fun j hj => by
    obtain ⟨n, rfl⟩ := Nat.exists_eq_add_of_le hj
    obtain ⟨c', x', h1, h2, h3, -⟩ := key n
    exact ⟨c', x', h1, h2, h3⟩) 9
  obtain ⟨-, -, -, -, -, h⟩ := key m
  omega

omit [ReflBEq V] in
/-- The execution of the stream buffer between two moments. -/
theorem path_seg (r : Run (Src.step cfg) (Src.init : Src K V I)) (k n : Nat) {c : Option Nat × Bool} {x : SB K V I} (hx : (r.st k).sb = some (c, x)) :
    ∃ as bs x', SB.init.exec (cfg.sb c) as = some x ∧ x.exec (cfg.sb c) bs = some x' ∧ (r.st (k + n)).sb = some (c, x') ∧
      (SB.init : SB K V I).Settled (cfg.sb c) (as ++ bs) ∧ bs.filter (·.isBg) = bgActs (r.seg k n) := by
  obtain ⟨as, h1, h2, -⟩ := path_init (exec_to r k) hx
  obtain ⟨x', bs, k1, k2, k3, k4⟩ := path hx (exec_seg r k n)
  have hall : SB.init.exec (cfg.sb c) (as ++ bs) = some x' := by rw [SB.exec_append, h1]; exact k2
  have hone : JSB.startsIn (as ++ bs) ≤ 1 := by
    have : ∀ l : List (SBAct K V I), JSB.startsIn (l ++ bs) = JSB.startsIn l := by
      intro l
      induction l with
      | nil => exact starts_zero k3
      | cons a l ih => cases a <;> simp only [List.cons_append, JSB.startsIn, ih]
    rw [this]; exact h2
  exact ⟨as, bs, x', h1, k2, k1, JSB.C66_one_start_settled hall hone, k4⟩

/-- **C154** and a `for` loop over any reader of the source that is still going on ends by itself, sooner or later. -/
theorem C154_loops_end (i k : Nat) (hrd : ∀ m, ((cfg.sb m).rdCfg i).peek = false ∧ ((cfg.sb m).rdCfg i).strict = false) (hst : SrcEv.stopped ∈ (r.st k).log)
    (hf : r.Fair (fun s => ∃ c x, s.sb = some (c, x) ∧ Ev.launched 0 ∈ x.log ∧ ∀ ok, Ev.closed 0 ok ∉ x.log) BgOf)
    (hc : r.Fair (fun s => ∃ m x c, s.sb = some (m, x) ∧ x.view 0 = some c ∧ SB.InLoop (c.pc i)) (BgGo i))
    (hu : ∀ j a, k ≤ j → r.act j = .bg a → SB.OneUser 0 i a) (hstay : ∀ j a, k ≤ j → r.act j = .bg a → SB.isLeave 0 i a = false)
    {m : Option Nat × Bool} {x : SB K V I} (hx : (r.st k).sb = some (m, x)) (c : Cons K V) (hv : x.view 0 = some c) (hin : SB.InLoop (c.pc i)) :
    ∃ j x' c' ys, k ≤ j ∧ (r.st j).sb = some (m, x') ∧ x'.view 0 = some c' ∧ c'.evtsOf i = c.evtsOf i ++ ys ∧ .loopDone ∈ ys := by
  by_contra hno
  simp only [not_exists, not_and] at hno
  have hbs : ∀ k' n (bs : List (SBAct K V I)), k ≤ k' → bs.filter (·.isBg) = bgActs (r.seg k' n) → ∀ a ∈ bs, SB.OneUser 0 i a ∧ SB.isLeave 0 i a = false := by
    intro k' n bs hk' hbg a ha
    cases hb : a.isBg with
    | true =>
      have : a ∈ bgActs (r.seg k' n) := by rw [← hbg]; exact List.mem_filter.2 ⟨ha, by simpa using hb⟩
      obtain ⟨y, hy, hya⟩ := List.mem_filterMap.1 this
      cases y <;> simp only [reduceCtorEq, Option.some.injEq] at hya
      subst hya
      obtain ⟨j, h1, -, h2⟩ := r.mem_seg _ _ _ hy
      exact ⟨hu j _ (by omega) h2.symm, hstay j _ (by omega) h2.symm⟩
    | false => cases a <;> first | exact ⟨trivial, rfl⟩ | simp [SBAct.isBg] at hb
  have hin' : ∀ j, k ≤ j → ∃ x' c' ys, (r.st j).sb = some (m, x') ∧ x'.view 0 = some c' ∧ c'.evtsOf i = c.evtsOf i ++ ys ∧ SB.InLoop (c'.pc i) := by
    intro j hj
    obtain ⟨n, rfl⟩ := Nat.exists_eq_add_of_le hj
    obtain ⟨as, bs, x', h1, h2, h3, -, h5⟩ := path_seg r k n hx
    obtain ⟨c', ys, g1, g2, g3⟩ := SB.loop_stays_exec 0 i (hrd m).1 (hrd m).2 h1 c hv hin (fun a ha => (hbs k n bs (by omega) h5 a ha).2) h2
    exact ⟨x', c', ys, h3, g1, g2, g3.resolve_right fun h => hno _ x' c' ys hj h3 g1 g2 h.1⟩
  obtain ⟨k1, m1, y, ok, hk1, hy, hcl⟩ := C154_last_close k hst hf
  obtain ⟨x1, c1, ys, hx1, hv1, hys, hin1⟩ := hin' k1 hk1
  rw [hy] at hx1; cases hx1
  obtain ⟨n, hn⟩ := r.many hc k1 (fun j hj => by obtain ⟨x', c', -, h1, h2, -, h3⟩ := hin' j (by omega); exact ⟨_, x', c', h1, h2, h3⟩)
    (2 * (unreadOf c1.ch i).length + 3)
  obtain ⟨as, bs, x2, h1, h2, h3, h4, h5⟩ := path_seg r k1 n hy
  obtain ⟨c2, zs, hv2, hzs, hdone⟩ := SB.C107_loop_ends 0 i (hrd _).1 (hrd _).2 h1 ok hcl h2 h4 (fun a ha => (hbs k1 n bs hk1 h5 a ha).1)
    (fun a ha => (hbs k1 n bs hk1 h5 a ha).2) c1 hv1 hin1
  refine hno (k1 + n) x2 c2 (ys ++ zs) (by omega) h3 hv2 (by rw [hzs, hys, List.append_assoc]) ?_
  have hcount : (r.seg k1 n).countP (BgGo i) ≤ bs.countP (SB.isGo 0 i) := by
    rw [← count_bg (p := SB.isGo 0 i) (q := BgGo i) (fun _ => rfl), ← h5, List.countP_filter]
    · exact List.countP_mono_left fun a _ h => by simp at h; exact h.1
    · intro x hx; cases x <;> first | rfl | exact absurd rfl (hx _)
  have := hdone.resolve_right fun h => by omega
  simp [this]

end Src

namespace GSB
variable [LinearOrder K] [BEq V] [ReflBEq V] {cfg : SBCfg K V} {r : Run (GSB.step cfg) (GSB.init : GSB K V I)}

omit [ReflBEq V] in
theorem exec_seg (r : Run (GSB.step cfg) (GSB.init : GSB K V I)) (k n : Nat) : (r.st k).exec cfg (r.seg k n) = some (r.st (k + n)) := by
  induction n with
  | zero => simp [Run.seg, exec]
  | succ n ih => rw [Run.seg_succ, exec_append, ih]; simp only [Option.bind, exec, r.next, Nat.add_assoc]

omit [ReflBEq V] in
theorem exec_to (r : Run (GSB.step cfg) (GSB.init : GSB K V I)) (n : Nat) : (GSB.init : GSB K V I).exec cfg (r.seg 0 n) = some (r.st n) := by
  have := exec_seg r 0 n
  rwa [r.zero, Nat.zero_add] at this

omit [ReflBEq V] in
/-- The execution of the stream buffer behind an execution, for the steps of a thread. -/
theorem thread_path (t : Nat) {as : List (GAct K V I)} {s s' : GSB K V I} (he : s.exec cfg as = some s') :
    ∃ bs, s.sb.exec cfg bs = some s'.sb ∧ as.countP (fun | .sb a => a.ofThread t | _ => false) ≤ bs.countP (·.ofThread t) ∧
      (s.Settled cfg as → s.sb.Settled cfg bs) := by
  induction as generalizing s with
  | nil => simp only [exec, Option.some.injEq] at he; subst he; exact ⟨[], rfl, by simp, fun _ => trivial⟩
  | cons a as ih =>
    simp only [exec] at he
    split at he
    swap
    · cases he
    rename_i u hu
    obtain ⟨bs, h1, h2, h3⟩ := ih he
    rw [List.countP_cons]
    cases a with
    | sb x =>
      have hu' := hu
      simp only [step] at hu'
      split at hu'
      swap
      · cases hu'
      obtain ⟨y, hy, rfl⟩ := Option.map_eq_some_iff.1 hu'
      refine ⟨x :: bs, by simp only [SB.exec, hy]; exact h1, by rw [List.countP_cons]; simp only []; omega, fun hS => ⟨hS.1 x rfl, fun z hz => ?_⟩⟩
      rw [hy] at hz; injection hz with hz; subst hz
      exact h3 (hS.2 _ hu)
    | _ =>
      rcases step_act 0 hu with ⟨h, -⟩ | ⟨x, hx, hst, -⟩
      · exact ⟨bs, by rw [← h]; exact h1, by simpa using h2, fun hS => by rw [← h]; exact h3 (hS.2 _ hu)⟩
      · refine ⟨x :: bs, by simp only [SB.exec, hx]; exact h1, by rw [List.countP_cons]; simp only [Bool.false_eq_true, if_false]; omega,
          fun hS => ⟨act_settled hS.1 hu hx hst, fun z hz => ?_⟩⟩
        rw [hx] at hz; injection hz with hz; subst hz
        exact h3 (hS.2 _ hu)

/-- The iterator is in use: it has begun and has not ended. -/
def InUse (s : GSB K V I) (g b : Nat) : Prop := s.gens g = .within b ∨ s.gens g = .at b

/-- **C154** unbounded buffer: a loop over the stream buffer itself is given everything that has been stored, sooner or later, in order; or the session is stopped first. -/
theorem C154_iter_gets_all (hm : cfg.maxlen = none) (hda : cfg.autoDrop = true) (g b k : Nat) (hd : cfg.rdCfg (genRd g) = Cfg.default)
    (hf : r.Fair (fun s => s.InUse g b) (GAct.isGo g)) (hn : ∀ j, k ≤ j → (r.act j).isClose g = false) (hg : (r.st k).InUse g b) :
    ∃ j c, k ≤ j ∧ (r.st j).sb.view b = some c ∧ (c.stopped = true ∨ storedIn b (r.st k).sb.log <+: handed g (r.st j).res) := by
  by_contra hno
  simp only [not_exists, not_and, not_or] at hno
  have hpk : (cfg.rdCfg (genRd g)).peek = false := by rw [hd]; rfl
  have hstr : (cfg.rdCfg (genRd g)).strict = false := by rw [hd]; rfl
  have hclose : ∀ n, ∀ a ∈ r.seg k n, a.isClose g = false := fun n a ha => by obtain ⟨j, h, -, rfl⟩ := r.mem_seg _ _ _ ha; exact hn j h
  obtain ⟨c, hv, -⟩ := C152_unbounded g b hm hda hd (exec_to r k) (by rcases hg with h | h <;> rw [h] <;> rfl)
  obtain ⟨p1, p2, -⟩ := pc_in g b hd (exec_to r k) c hv
  have hin := inLoop _ (hg.imp p1 p2)
  have key : ∀ n, (r.st (k + n)).InUse g b ∧ ∀ c', (r.st (k + n)).sb.view b = some c' → c'.stopped = false := by
    intro n
    have hns : ∀ c', (r.st (k + n)).sb.view b = some c' → c'.stopped = false := fun c' h => by simpa using (hno _ c' (by omega) h).1
    refine ⟨?_, hns⟩
    obtain ⟨xs, hxs, -⟩ := exec_sb g (exec_to r k)
    obtain ⟨ys, hys, -, hyl, -, hyg, -⟩ := stretch g b (hclose n) (exec_seg r k n) (by unfold InUse at hg; tauto)
    obtain ⟨c', zs, hv', -, hor⟩ := SB.loop_stays_exec b (genRd g) hpk hstr hxs c hv hin hyl hys
    have hin' : SB.InLoop (c'.pc (genRd g)) := hor.resolve_right fun h => by have := hns c' hv'; rw [this] at h; simp at h
    rcases hyg with h | h | h
    · exact .inl h
    · exact .inr h
    · rw [(pc_in g b hd (exec_to r (k + n)) c' hv').2.2.2 h] at hin'; exact hin'.elim
  obtain ⟨m, hk⟩ := r.many hf k (fun j hj => by obtain ⟨n, rfl⟩ := Nat.exists_eq_add_of_le hj; exact (key n).1) (2 * (unreadOf c.ch (genRd g)).length + 2)
  have hfin := C152_gets_all g b hm hda hd (exec_to r k) hg (exec_seg r k m) (hclose m) c hv (key m).2 hk
  obtain ⟨c', hv', -⟩ := C152_unbounded g b hm hda hd (exec_to r (k + m)) (by rcases (key m).1 with h | h <;> rw [h] <;> rfl)
  exact (hno (k + m) c' (by omega) hv').2 hfin

/-- **C154** after the session is stopped (or its thread has died; `start()` being called only when no earlier thread is alive), a loop over the stream buffer itself ends, sooner or
later. Any settings. -/
theorem C154_iter_ends (hset : ∀ k x, r.act k = .sb x → (r.st k).sb.SettledAt x) (g b k : Nat) (hd : cfg.rdCfg (genRd g) = Cfg.default)
    (hf : r.Fair (fun s => s.InUse g b) (GAct.isGo g)) (hn : ∀ j, k ≤ j → (r.act j).isClose g = false) (hg : (r.st k).InUse g b)
    (ht : r.Fair (fun s => Ev.launched b ∈ s.sb.log ∧ ∀ ok, Ev.closed b ok ∉ s.sb.log) fun | .sb a => a.ofThread b | _ => false)
    (hl : Ev.launched b ∈ (r.st k).sb.log) (hs : Ev.eventSet b ∈ (r.st k).sb.log) :
    ∃ j, k ≤ j ∧ (r.st j).gens g = .over (some b) ∧ .stop ∈ outsOf g (r.st j).res := by
  have hclose : ∀ k' n, k ≤ k' → ∀ a ∈ r.seg k' n, a.isClose g = false := fun k' n hk a ha => by
    obtain ⟨j, h, -, rfl⟩ := r.mem_seg _ _ _ ha; exact hn j (by omega)
  have hsettled : ∀ k n, (r.st k).Settled cfg (r.seg k n) := by
    intro k n
    induction n generalizing k with
    | zero => trivial
    | succ n ih =>
      rw [Nat.add_comm, Run.seg_add]
      have : r.seg k 1 = [r.act k] := by simp [Run.seg]
      rw [this]
      refine ⟨hset k, fun s' hs' => ?_⟩
      rw [r.next] at hs'
      injection hs' with hs'
      subst hs'
      exact ih (k + 1)
  obtain ⟨k1, ok, hk1, hcl⟩ : ∃ j ok, k ≤ j ∧ Ev.closed b ok ∈ (r.st j).sb.log := by
    by_contra hno
    simp only [not_exists, not_and] at hno
    obtain ⟨xs, hxs, -, hxset⟩ := exec_sb g (exec_to r k)
    have hx0 := hxset (by have := hsettled 0 k; rwa [r.zero] at this)
    have hlog : ∀ n, Ev.launched b ∈ (r.st (k + n)).sb.log := by
      intro n
      obtain ⟨bs, h1, -⟩ := thread_path b (exec_seg r k n)
      exact SB.exec_ind (P := fun t : SB K V I => Ev.launched b ∈ t.log) (fun t a t' ht hs => SB.launched_mono hs ht) hl h1
    obtain ⟨m, hm⟩ := r.many ht k (fun j hj => ⟨by obtain ⟨n, rfl⟩ := Nat.exists_eq_add_of_le hj; exact hlog n, fun ok h => hno j ok hj h⟩) 9
    obtain ⟨bs, h1, h2, h3⟩ := thread_path b (exec_seg r k m)
    have := (SB.C77_stop_prompt_partial _ _ hxs h1 (h3 (hsettled k m)) hx0 b hs).1
    have := h2
    simp only [] at this
    omega
  obtain ⟨n, rfl⟩ := Nat.exists_eq_add_of_le hk1
  have hpk : (cfg.rdCfg (genRd g)).peek = false := by rw [hd]; rfl
  have hstr : (cfg.rdCfg (genRd g)).strict = false := by rw [hd]; rfl
  have hview : ∀ j, ((r.st j).gens g).session = some b → ∃ c, (r.st j).sb.view b = some c := fun j h => by
    obtain ⟨c, h, -⟩ := handed_received g b hd (exec_to r j) h; exact ⟨c, h⟩
  obtain ⟨c, hv⟩ := hview k (by rcases hg with h | h <;> rw [h] <;> rfl)
  obtain ⟨p1, p2, -⟩ := pc_in g b hd (exec_to r k) c hv
  have hin := inLoop _ (hg.imp p1 p2)
  have key : ∀ n, (r.st (k + n)).InUse g b ∨ ((r.st (k + n)).gens g = .over (some b) ∧ .stop ∈ outsOf g (r.st (k + n)).res) := by
    intro n
    obtain ⟨xs, hxs, -⟩ := exec_sb g (exec_to r k)
    obtain ⟨ys, hys, -, hyl, -, hyg, -⟩ := stretch g b (hclose k n (by omega)) (exec_seg r k n) (by unfold InUse at hg; tauto)
    obtain ⟨c', zs, hv', hev, hor⟩ := SB.loop_stays_exec b (genRd g) hpk hstr hxs c hv hin hyl hys
    rcases hyg with h | h | h
    · exact .inl (.inl h)
    · exact .inl (.inr h)
    · right
      have hz : CEvt.loopDone ∈ zs := (hor.resolve_left fun h' => by
        rw [(pc_in g b hd (exec_to r (k + n)) c' hv').2.2.2 h] at h'; exact h'.elim).1
      obtain ⟨vs, f, m, hfit⟩ := fit g hd (exec_to r (k + n))
      obtain ⟨c2, t, hv2, k1, k2, -⟩ := hfit.sess b (by rw [h]; rfl)
      rw [hv'] at hv2; injection hv2 with hv2; subst hv2
      have hin : CEvt.loopDone ∈ c'.evtsOf (genRd g) := by rw [hev]; simp [hz]
      rw [k1] at hin
      simp only [List.mem_append, List.mem_map, reduceCtorEq, and_false, exists_false, false_or] at hin
      rcases k2 with rfl | ⟨-, -, k4⟩
      · cases hin
      · refine ⟨h, ?_⟩
        rw [hfit.outs]
        simp only [List.mem_append, List.mem_replicate]
        exact .inr ⟨by omega, by trivial⟩
  rcases key n with hk | hk
  swap
  · exact ⟨k + n, by omega, hk⟩
  by_contra hno
  simp only [not_exists] at hno
  obtain ⟨c1, hv1⟩ := hview (k + n) (by rcases hk with h | h <;> rw [h] <;> rfl)
  obtain ⟨m, hm⟩ := r.many hf (k + n) (fun j hj => by
    obtain ⟨d, rfl⟩ := Nat.exists_eq_add_of_le hj
    rw [Nat.add_assoc]
    exact (key (n + d)).resolve_right fun h => hno (k + (n + d)) ⟨by omega, h⟩) (2 * (unreadOf c1.ch (genRd g)).length + 3)
  rcases C152_ends g b hd (exec_to r (k + n)) hk (exec_seg r (k + n) m) (hclose (k + n) m (by omega)) ok hcl
    (by have := hsettled 0 (k + n + m); rwa [r.zero, Run.seg_add, Nat.zero_add] at this) c1 hv1 with h | h
  · exact hno (k + n + m) ⟨by omega, h⟩
  · omega

end GSB
end S2P
