import Verif.Proofs.SourceThreads
import Verif.Props.StreamSource
/-
C69: threads opening and closing readers of one StreamSource at the same time.
-/
namespace S2P
open Spec
variable {K V I : Type} [LT K] [DecidableLT K] [BEq V]
namespace MSrc
variable {cfg : SrcCfg K V} {as : List (MAct K V I)} {s s' : MSrc K V I}

/-! ### Calls that do not overlap -/

theorem At.log {t : Nat} {p : MPC} {q : Src K V I} (h : At s q t p) : q.log = s.log := by
  cases p <;> simp only [At] at h <;> exact h.1.log

/-- C69, calls that do not overlap: what is observed is what one thread making the same calls would observe (Model/StreamSource.lean), whichever
threads make them. -/
theorem C69_one_at_a_time_partial (he : MSrc.init.exec cfg as = some s) (hx : NonOverlapping (fun _ => True) s.hist) :
    ∃ (as' : List (SrcAct K V I)) (q : Src K V I), Src.init.exec cfg as' = some q ∧ q.log = s.log := by
  obtain ⟨as', q, h1, ⟨t, -, h2⟩, -⟩ := sim_exec sim_init hinv_init hold_init hx he
  exact ⟨as', q, h1, h2.log⟩

theorem log_step {a : MAct K V I} (hs : s.step cfg a = some s') : ∃ l, s'.log = s.log ++ l ∧ ∀ r f, SrcEv.assigned r f ∉ l := by
  cases a with
  | call t c =>
    simp only [step] at hs
    repeat' split at hs
    all_goals first | cases hs | skip
    all_goals exact ⟨[], (List.append_nil _).symm, by simp⟩
  | go t =>
    simp only [step, go] at hs
    repeat' split at hs
    all_goals first | cases hs | skip
    all_goals first
      | exact ⟨[], (List.append_nil _).symm, by simp⟩
      | exact ⟨[_], rfl, by simp⟩
      | exact ⟨[_, _], by simp only [say, setThr, setBuf, List.append_assoc]; rfl, by simp⟩
  | bg b a =>
    simp only [step] at hs
    repeat' split at hs
    all_goals first | cases hs | skip
    · simp only [endStart]
      repeat' split
      · exact ⟨[], (List.append_nil _).symm, by simp⟩
      · exact ⟨[], (List.append_nil _).symm, by simp⟩
      · exact ⟨[_], rfl, by simp⟩
    · exact ⟨[], (List.append_nil _).symm, by simp⟩

theorem exec_ind {P : MSrc K V I → Prop} (hstep : ∀ s a s', P s → s.step cfg a = some s' → P s') :
    ∀ (as : List (MAct K V I)) (s s' : MSrc K V I), P s → s.exec cfg as = some s' → P s' := by
  intro as
  induction as with
  | nil => intro s s' h he; cases he; exact h
  | cons a as ih =>
    intro s s' h he
    simp only [exec] at he
    split at he
    · rename_i s1 h1; exact ih s1 s' (hstep _ _ _ h h1) he
    · cases he

theorem not_assigned (he : MSrc.init.exec cfg as = some s) (r : Nat) (f : Bool) : SrcEv.assigned r f ∉ s.log := by
  refine exec_ind (P := fun s => ∀ r f, SrcEv.assigned r f ∉ s.log) (fun s a s' h hs => ?_) as init s (by simp [init]) he r f
  obtain ⟨l, e, hl⟩ := log_step hs
  intro r f
  rw [e]
  simp [h r f, hl r f]

/-- C69, calls that do not overlap: `close()` of a reader does not raise, and the stream is stopped in it exactly if no other reader is open. -/
theorem C69_stops_with_last_close_partial (he : MSrc.init.exec cfg as = some s) (hx : NonOverlapping (fun _ => True) s.hist) (hc : closedOnce s.log)
    {pre post : List SrcEv} {r : Nat} {out : Py Unit} (hl : s.log = pre ++ .closed r out :: post) (hr : fromSource pre r) :
    out = .ok () ∧ ((∃ post', post = .stopped :: post') ↔ ∀ r', ¬ isOpenReader (pre ++ [.closed r out]) r') := by
  obtain ⟨as', q, h1, h2⟩ := C69_one_at_a_time_partial he hx
  rw [← h2] at hc hl
  exact Src.C45_stops_with_last_close_partial h1 hc (fun r f => by rw [h2]; exact not_assigned he r f) hl hr

/-- C69, calls that do not overlap: the source stops the stream only in the `close()` of its last open reader. -/
theorem C69_stops_only_on_last_close_partial (he : MSrc.init.exec cfg as = some s) (hx : NonOverlapping (fun _ => True) s.hist) (hc : closedOnce s.log)
    {pre post : List SrcEv} (hl : s.log = pre ++ .stopped :: post) :
    (∃ pre' r, pre = pre' ++ [.closed r (.ok ())] ∧ fromSource pre' r) ∧ ∀ r, ¬ isOpenReader pre r := by
  obtain ⟨as', q, h1, h2⟩ := C69_one_at_a_time_partial he hx
  rw [← h2] at hc hl
  exact Src.C45_stops_only_on_last_close_partial h1 hc (fun r f => by rw [h2]; exact not_assigned he r f) hl

/-! ### After a first reader was opened -/

/-- A stream buffer was made and started, and nobody is about to make or start another one. -/
structure Steady (s : MSrc K V I) (x : SB K V I) : Prop where
  slot : s.slot = some 0
  n : s.nbufs = 1
  buf : ∃ c, s.bufs 0 = some (c, x)
  fresh : ∀ b, 0 < b → s.bufs b = none
  start : x.start = none
  src : x.sourceBuffer = some 0
  ev : x.stopEvent = some 0
  one : x.One
  hold : ∀ b, s.holder b = none
  pc : ∀ t, match s.thr t with
    | .mk | .callStart | .conf2 _ | .waitStart _ | .starting _ => False
    | .making b | .stopping b _ => b = 0
    | .inc1 r | .inc2 r _ | .attach r => s.home r = (0, 0) ∧ r < s.made
    | _ => True

/-- What is observed in such a state. -/
def Fine : SrcEv → Prop
  | .openError _ | .bufferMade _ => False
  | .opened _ b _ => b = 0
  | .closed _ out => out = .ok ()
  | _ => True

theorem Steady.setThr {x : SB K V I} (h : Steady s x) {t : Nat} {p : MPC} (hp : match p with
    | .mk | .callStart | .conf2 _ | .waitStart _ | .starting _ => False
    | .making b | .stopping b _ => b = 0
    | .inc1 r | .inc2 r _ | .attach r => s.home r = (0, 0) ∧ r < s.made
    | _ => True) : Steady (s.setThr t p) x := by
  refine ⟨h.1, h.2, h.3, h.4, h.5, h.6, h.7, h.8, h.9, fun t' => ?_⟩
  simp only [MSrc.setThr]
  by_cases e : t' = t
  · simp only [e, if_true]; exact hp
  · simp only [if_neg e]; exact h.pc t'

theorem Steady.of {x : SB K V I} (h : Steady s x) (h1 : s'.slot = s.slot) (h2 : s'.nbufs = s.nbufs) (h3 : s'.bufs = s.bufs)
    (h4 : s'.holder = s.holder) (h5 : s'.thr = s.thr) (h6 : s'.home = s.home) (h7 : s'.made = s.made) : Steady s' x := by
  refine ⟨by rw [h1]; exact h.1, by rw [h2]; exact h.2, by rw [h3]; exact h.3, by rw [h3]; exact h.4, h.5, h.6, h.7, h.8, by rw [h4]; exact h.9, fun t => ?_⟩
  rw [h5, h6, h7]; exact h.pc t

theorem Steady.setBuf {x x' : SB K V I} (h : Steady s x) {c : Option Nat × Bool} {a : SBAct K V I} (ha : a ≠ .start) (hs : x.step (cfg.sb c) a = some x') :
    Steady (s.setBuf 0 (c, x')) x' := by
  obtain ⟨k1, k2, k3⟩ := SB.step_idle ha hs h.start
  refine ⟨h.1, h.2, ⟨c, by simp [MSrc.setBuf]⟩, fun b hb => ?_, k1, by rw [k2]; exact h.src, by rw [k3]; exact h.ev, h.one.step ha hs, h.hold, h.pc⟩
  simp only [MSrc.setBuf]
  rw [if_neg (by omega)]
  exact h.fresh b hb

theorem steady_step {x : SB K V I} (h : Steady s x) {a : MAct K V I} (hs : s.step cfg a = some s') :
    ∃ x' l, Steady s' x' ∧ s'.log = s.log ++ l ∧ ∀ e ∈ l, Fine e := by
  obtain ⟨c0, hb0⟩ := h.buf
  have inv : ∀ t c p, (match p with | .conf1 _ | .ensure | .dec1 _ => True | _ => False) →
      ∃ x' l, Steady (s.inv t c p) x' ∧ (s.inv t c p).log = s.log ++ l ∧ ∀ e ∈ l, Fine e := by
    intro t c p hp
    refine ⟨x, [], Steady.of (s := s.setThr t p) (h.setThr ?_) rfl rfl rfl rfl rfl rfl rfl, (List.append_nil _).symm, by simp⟩
    cases p <;> simp_all
  have set : ∀ t p, (match p with
    | .mk | .callStart | .conf2 _ | .waitStart _ | .starting _ => False
    | .making b | .stopping b _ => b = 0
    | .inc1 r | .inc2 r _ | .attach r => s.home r = (0, 0) ∧ r < s.made
    | _ => True) → ∃ x' l, Steady (s.setThr t p) x' ∧ (s.setThr t p).log = s.log ++ l ∧ ∀ e ∈ l, Fine e :=
    fun t p hp => ⟨x, [], h.setThr hp, (List.append_nil _).symm, by simp⟩
  have ret : ∀ (s1 : MSrc K V I) (x1 : SB K V I) t, Steady s1 x1 → Steady (s1.ret t) x1 := fun s1 x1 t h1 =>
    Steady.of (s := s1.setThr t .idle) (h1.setThr trivial) rfl rfl rfl rfl rfl rfl rfl
  cases a with
  | call t c =>
    simp only [step] at hs
    repeat' split at hs
    all_goals first | cases hs | skip
    all_goals exact inv _ _ _ trivial
  | go t =>
    have hpc := h.pc t
    simp only [step, go] at hs
    split at hs
    · cases hs
    · rename_i c hp -- conf1
      rw [h.slot] at hs; cases hs
      exact ⟨x, [_], ret _ x t (h.of rfl rfl rfl rfl rfl rfl rfl), rfl, by simp [Fine]⟩
    · rename_i c hp; rw [hp] at hpc; exact hpc.elim -- conf2
    · rename_i hp -- ensure
      rw [h.slot] at hs; cases hs
      exact set _ _ trivial
    · rename_i hp; rw [hp] at hpc; exact hpc.elim -- mk
    · rename_i hp; rw [hp] at hpc; exact hpc.elim -- callStart
    · rename_i b hp; rw [hp] at hpc; exact hpc.elim -- waitStart
    · cases hs -- starting
    · rename_i hp -- look
      rw [h.slot] at hs; cases hs
      exact set _ _ rfl
    · rename_i b hp -- making
      rw [hp] at hpc
      obtain rfl : b = 0 := hpc
      rw [hb0] at hs
      dsimp only at hs
      rw [if_pos h.start, h.src] at hs
      cases hs
      refine ⟨x, [], Steady.setThr ?_ ?_, (List.append_nil _).symm, by simp⟩
      · refine ⟨h.1, h.2, h.3, h.4, h.5, h.6, h.7, h.8, h.9, fun t' => ?_⟩
        have h' := h.pc t'
        dsimp only
        generalize s.thr t' = p at h'
        cases p <;> first | exact h' | skip
        all_goals
          obtain ⟨j1, j2⟩ := h'
          dsimp only
          rw [if_neg (by omega)]
          exact ⟨j1, by omega⟩
      · simp
    · rename_i r hp -- inc1
      rw [hp] at hpc; cases hs
      exact set _ _ hpc
    · rename_i r n hp -- inc2
      rw [hp] at hpc; cases hs
      refine ⟨x, [], Steady.setThr ?_ ?_, (List.append_nil _).symm, by simp⟩
      exacts [h.of rfl rfl rfl rfl rfl rfl rfl, hpc]
    · rename_i r hp -- attach
      rw [hp] at hpc
      obtain ⟨j1, j2⟩ := hpc
      rw [j1] at hs
      dsimp only at hs
      rw [hb0] at hs; cases hs
      exact ⟨x, [_], ret _ x t (h.of rfl rfl rfl rfl rfl rfl rfl), rfl, by simp [Fine]⟩
    · cases hs; exact set _ _ trivial -- dec1
    · cases hs -- dec2
      refine ⟨x, [], Steady.setThr ?_ ?_, (List.append_nil _).symm, by simp⟩
      exacts [h.of rfl rfl rfl rfl rfl rfl rfl, trivial]
    · split at hs -- test
      · cases hs; exact set _ _ trivial
      · cases hs; exact ⟨x, [_], ret _ x t (h.of rfl rfl rfl rfl rfl rfl rfl), rfl, by simp [Fine]⟩
    · rename_i r hp -- exit
      rw [h.slot] at hs
      dsimp only at hs
      rw [hb0] at hs
      dsimp only at hs
      split at hs
      · cases hs
      · rename_i x' hx'
        rw [h.ev] at hs
        cases hs
        refine ⟨x', [.closed r (.ok ()), .stopped], Steady.setThr ?_ ?_, ?_, ?_⟩
        · exact Steady.of (h.setBuf (cfg := cfg) (by simp) hx') rfl rfl rfl rfl rfl rfl rfl
        · rfl
        · simp only [say, MSrc.setThr, MSrc.setBuf, List.append_assoc]; rfl
        · simp [Fine]
    · rename_i b r hp -- stopping
      rw [hp] at hpc
      obtain rfl : b = 0 := hpc
      rw [hb0] at hs
      dsimp only at hs
      split at hs
      · cases hs
      · rename_i x' hx'
        cases hs
        exact ⟨x', [], ret _ x' t (h.setBuf (cfg := cfg) (by simp) hx'), (List.append_nil _).symm, by simp⟩
  | bg b a =>
    simp only [step] at hs
    split at hs
    case isFalse => cases hs
    rename_i hbg
    have hst : a ≠ .start := by rintro rfl; simp [SBAct.isBg] at hbg
    split at hs
    · cases hs
    · rename_i c y hb
      have : b = 0 := by
        by_contra hb'
        rw [h.fresh b (by omega)] at hb; cases hb
      subst this
      rw [hb0] at hb; cases hb
      split at hs
      · cases hs
      · split at hs
        · cases hs
        · rename_i x' hx'
          rw [if_neg (fun hc => hc.1 h.start)] at hs
          cases hs
          exact ⟨x', [], h.setBuf (cfg := cfg) hst hx', (List.append_nil _).symm, by simp⟩

theorem steady_exec {x : SB K V I} (h : Steady s x) (he : s.exec cfg as = some s') :
    ∃ x' l, Steady s' x' ∧ s'.log = s.log ++ l ∧ ∀ e ∈ l, Fine e := by
  refine exec_ind (P := fun s' => ∃ x' l, Steady s' x' ∧ s'.log = s.log ++ l ∧ ∀ e ∈ l, Fine e) (fun s1 a s2 hP hs => ?_) as s s'
    ⟨x, [], h, (List.append_nil _).symm, by simp⟩ he
  obtain ⟨x1, l1, h1, h2, h3⟩ := hP
  obtain ⟨x2, l2, h4, h5, h6⟩ := steady_step h1 hs
  refine ⟨x2, l1 ++ l2, h4, by rw [h5, h2, List.append_assoc], fun e he => ?_⟩
  rcases List.mem_append.1 he with he | he
  · exact h3 e he
  · exact h6 e he

/-- C69, threads that come after a first reader was opened: once calls made one at a time have opened a reader and returned, any number of threads
may open and close readers at the same time without failing. No further stream buffer is made, the source is not opened again, and
every new reader reads the session of the first one. -/
theorem C69_first_alone_partial {as1 as2 : List (MAct K V I)} {s1 s2 : MSrc K V I} (h1 : MSrc.init.exec cfg as1 = some s1)
    (hx : NonOverlapping (fun _ => True) s1.hist) (hq : ∀ id c, HEv.inv id c ∈ s1.hist → HEv.ret id () ∈ s1.hist)
    {r b : Nat} {lv : Bool} (ho : SrcEv.opened r b lv ∈ s1.log) (h2 : s1.exec cfg as2 = some s2) :
    (∃ new, s2.log = s1.log ++ new ∧ (∀ e, SrcEv.openError e ∉ new) ∧ (∀ c, SrcEv.bufferMade c ∉ new) ∧
      (∀ r' b' lv', SrcEv.opened r' b' lv' ∈ new → b' = b) ∧ ∀ r' out, SrcEv.closed r' out ∈ new → out = .ok ()) ∧
    ∃ c x, s2.slot = some 0 ∧ s2.bufs 0 = some (c, x) ∧ (∀ b', 0 < b' → s2.bufs b' = none) ∧ x.log.countP isOpen ≤ 1 := by
  obtain ⟨as', q, k1, ⟨t, hT, hA⟩, hH⟩ := sim_exec sim_init hinv_init hold_init hx h1
  have idle : ∀ t', s1.thr t' = .idle := by
    intro t'
    by_contra hne
    obtain ⟨⟨c, hc⟩, hr⟩ := hH.pend t' hne
    exact hr (hq _ _ hc)
  rw [idle t] at hA
  obtain ⟨hB, hm, -⟩ := hA
  obtain ⟨hg, hg2, hcnt⟩ := Src.good_exec k1
  have hlog : q.log = s1.log := hB.log
  rw [← hlog] at ho
  have hm0 : 0 < q.made := lt_of_le_of_lt (Nat.zero_le _) (hcnt.openLt r (Src.mem_openedL.2 ⟨_, _, ho⟩))
  have hb0 : b = 0 := by
    obtain ⟨pre, post, hl⟩ := List.append_of_mem ho
    obtain ⟨s1', c1, x1, as2', ⟨as1', j1⟩, j2, j3, j4, j5, j6, j7⟩ := Src.opened_origin k1 hl
    exact Src.sb_zero j1 j3 (by simp [j4]) j5
  have hsb : q.sb ≠ none := fun e => by have := (hg.noSb e).2; omega
  obtain ⟨c, x, i1, i2, i3⟩ := hB.slot hsb
  have hst := hg.idle c x i3 (by rw [hB.pc]; simp)
  have hn : s1.nbufs = 1 := (hB.buf i2).2.2.2
  have hS : Steady s1 x := by
    refine ⟨i1, hn, ⟨c, i2⟩, fun b hb => hB.fresh b (by omega), hst, hg.src c x i3 hm0, hg.stopEvent i3 (by rw [hB.pc]; simp), hg.one c x i3, fun b' => ?_, fun t' => ?_⟩
    · cases hh : s1.holder b' with
      | none => rfl
      | some t' =>
        have := exec_ind (P := Hold) (fun s a s' h hs => hold_step h hs) as1 init s1 hold_init h1 b' t' hh
        rw [idle t'] at this; cases this
    · rw [idle t']; trivial
  obtain ⟨x', l, hS', hl, hF⟩ := steady_exec hS h2
  refine ⟨⟨l, hl, fun e he => hF _ he, fun c he => hF _ he, fun r' b' lv' he => ?_, fun r' out he => hF _ he⟩, ?_⟩
  · rw [hb0]; exact hF _ he
  · obtain ⟨c', hb'⟩ := hS'.buf
    exact ⟨c', x', hS'.slot, hb', hS'.fresh, hS'.one.open1⟩

end MSrc
end S2P
