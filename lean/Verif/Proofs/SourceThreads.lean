import Verif.Model.SourceThreads
import Verif.Proofs.SourceInv
/-
Calls that do not overlap: `MSrc` behaves as the one-thread model `Src`.
-/
namespace S2P
open Spec
variable {K V I : Type} [LT K] [DecidableLT K] [BEq V]
namespace MSrc
variable {cfg : SrcCfg K V} {s s' : MSrc K V I} {q : Src K V I}

/-! ### Calls and threads -/

/-- What the history says about the threads. -/
structure HInv (s : MSrc K V I) : Prop where
  pend : ∀ t, s.thr t ≠ .idle → (∃ c, HEv.inv (s.call t) c ∈ s.hist) ∧ HEv.ret (s.call t) () ∉ s.hist
  diff : ∀ t t', s.thr t ≠ .idle → s.thr t' ≠ .idle → s.call t = s.call t' → t = t'
  lt : ∀ e ∈ s.hist, match e with | HEv.inv a _ => a < s.calls | HEv.ret a _ => a < s.calls

theorem HInv.of (h : HInv s) (hh : s'.hist = s.hist) (hc : s'.call = s.call) (hn : s'.calls = s.calls)
    (ht : ∀ t, s'.thr t ≠ .idle → s.thr t ≠ .idle) : HInv s' := by
  refine ⟨fun t h1 => ?_, fun t t' h1 h2 => ?_, ?_⟩
  · rw [hh, hc]; exact h.pend t (ht t h1)
  · rw [hc]; exact h.diff t t' (ht t h1) (ht t' h2)
  · rw [hh, hn]; exact h.lt

theorem HInv.ret (h : HInv s) {t : Nat} (ht : s.thr t ≠ .idle) : HInv (s.ret t) := by
  obtain ⟨⟨c, hc⟩, hr⟩ := h.pend t ht
  refine ⟨fun t' h1 => ?_, fun t1 t2 h1 h2 => ?_, fun e he => ?_⟩
  · simp only [MSrc.ret, setThr] at h1 ⊢
    by_cases e : t' = t
    · simp [e] at h1
    · rw [if_neg e] at h1
      obtain ⟨⟨c', hc'⟩, hr'⟩ := h.pend t' h1
      refine ⟨⟨c', by simp [hc']⟩, ?_⟩
      simp only [List.mem_append, List.mem_singleton, HEv.ret.injEq, and_true, not_or]
      exact ⟨hr', fun e' => e (h.diff _ _ h1 ht e')⟩
  · simp only [MSrc.ret, setThr] at h1 h2 ⊢
    by_cases e1 : t1 = t
    · simp [e1] at h1
    · by_cases e2 : t2 = t
      · simp [e2] at h2
      · rw [if_neg e1] at h1; rw [if_neg e2] at h2
        exact h.diff _ _ h1 h2
  · simp only [MSrc.ret, setThr, List.mem_append, List.mem_singleton] at he ⊢
    rcases he with he | rfl
    · exact h.lt e he
    · exact h.lt _ hc

theorem HInv.inv (h : HInv s) {t : Nat} (c : MCall) (p : MPC) : HInv (s.inv t c p) := by
  have hlt : ∀ t', s.thr t' ≠ .idle → s.call t' < s.calls := fun t' h1 => by
    obtain ⟨⟨c, hc⟩, -⟩ := h.pend t' h1
    exact h.lt _ hc
  refine ⟨fun t' h1 => ?_, fun t1 t2 h1 h2 => ?_, fun e he => ?_⟩
  · simp only [MSrc.inv, setThr] at h1 ⊢
    by_cases e : t' = t
    · simp only [e, if_true]
      refine ⟨⟨c, by simp⟩, ?_⟩
      simp only [List.mem_append, List.mem_singleton, reduceCtorEq, or_false]
      intro hm
      have := h.lt _ hm
      simp at this
    · rw [if_neg e] at h1 ⊢
      obtain ⟨⟨c', hc'⟩, hr'⟩ := h.pend t' h1
      exact ⟨⟨c', by simp [hc']⟩, by simp [hr']⟩
  · simp only [MSrc.inv, setThr] at h1 h2 ⊢
    by_cases e1 : t1 = t
    · by_cases e2 : t2 = t
      · intro; rw [e1, e2]
      · rw [if_neg e2] at h2
        simp only [e1, if_true, if_neg e2]
        intro e; exact absurd (hlt _ h2) (by omega)
    · rw [if_neg e1] at h1
      by_cases e2 : t2 = t
      · simp only [e2, if_true, if_neg e1]
        intro e; exact absurd (hlt _ h1) (by omega)
      · rw [if_neg e2] at h2
        simp only [if_neg e1, if_neg e2]
        exact h.diff _ _ h1 h2
  · simp only [MSrc.inv, setThr, List.mem_append, List.mem_singleton] at he ⊢
    rcases he with he | rfl
    · have := h.lt e he
      split at this <;> simp_all <;> omega
    · simp

theorem nonOverlapping_prefix {C R : Type} {on : C → Prop} {h l : List (HEv C R)} (hX : NonOverlapping on (h ++ l)) : NonOverlapping on h := by
  intro h1 h2 h3 a c b c' e
  exact hX h1 h2 (h3 ++ l) a c b c' (by rw [e]; simp)

/-- When a call is made that overlaps no other, no thread is in a call. -/
theorem HInv.quiet (h : HInv s) {t : Nat} {c : MCall} {p : MPC} (hX : NonOverlapping (fun _ => True) (s.inv t c p).hist) (t' : Nat) : s.thr t' = .idle := by
  by_contra hne
  obtain ⟨⟨c', hc'⟩, hr⟩ := h.pend t' hne
  obtain ⟨a, b, e⟩ := List.append_of_mem hc'
  obtain ⟨r, hr'⟩ := hX a b [] (s.call t') c' s.calls c (by simp [MSrc.inv, e]) trivial trivial
  exact hr (by rw [e]; simp [hr'])

/-! ### Hypothesis-free facts about one step -/

theorem endStart_hist (b : Nat) (x : SB K V I) : ∃ l, (s.endStart b x).hist = s.hist ++ l := by
  simp only [endStart]
  split
  · exact ⟨[], by simp⟩
  · split
    · exact ⟨[], by simp [setThr, setHolder]⟩
    · exact ⟨[_], rfl⟩

theorem step_hist {a : MAct K V I} (hs : s.step cfg a = some s') : ∃ l, s'.hist = s.hist ++ l := by
  cases a with
  | call t c =>
    simp only [step] at hs
    split at hs
    · split at hs
      · cases hs; exact ⟨_, rfl⟩
      · cases hs; exact ⟨_, rfl⟩
      · split at hs
        · cases hs; exact ⟨_, rfl⟩
        · cases hs
    · cases hs
  | go t =>
    simp only [step, go] at hs
    repeat' split at hs
    all_goals first | cases hs | skip
    all_goals first | exact ⟨[_], rfl⟩ | exact ⟨[], (List.append_nil _).symm⟩
  | bg b a =>
    simp only [step] at hs
    repeat' split at hs
    all_goals first | cases hs | skip
    · exact endStart_hist (s := s.setBuf b _) _ _
    · exact ⟨[], by simp [setBuf]⟩

theorem hinv_endStart (h : HInv s) (b : Nat) (x : SB K V I) (ht : ∀ t, s.holder b = some t → s.thr t ≠ .idle) : HInv (s.endStart b x) := by
  simp only [endStart]
  split
  · exact h
  · rename_i t hh
    split
    · refine h.of rfl rfl rfl fun t' h1 => ?_
      simp only [setThr, setHolder] at h1
      by_cases e : t' = t
      · rw [e]; exact ht t hh
      · simpa [e] using h1
    · refine HInv.ret (s := (s.setHolder b none).say _) (h.of rfl rfl rfl fun _ h => h) ?_
      exact ht t hh

/-- Whoever is recorded to be in `start()` is in `start()`. -/
def Hold (s : MSrc K V I) : Prop := ∀ b t, s.holder b = some t → s.thr t = .starting b

theorem hold_set (h : Hold s) {t : Nat} (p : MPC) (ht : ∀ b, s.thr t ≠ .starting b) : Hold (s.setThr t p) := by
  intro b t' h1
  have h2 := h b t' h1
  simp only [setThr]
  by_cases e : t' = t
  · exact absurd (e ▸ h2) (ht b)
  · rw [if_neg e]; exact h2

theorem hold_endStart (h : Hold s) (b : Nat) (x : SB K V I) : Hold (s.endStart b x) := by
  simp only [endStart]
  split
  · exact h
  · rename_i t hh
    have hb : Hold (s.setHolder b none) ∧ ∀ b' t', (s.setHolder b none).holder b' = some t' → t' ≠ t := by
      constructor
      · intro b' t' h1
        simp only [setHolder] at h1
        split at h1
        · cases h1
        · exact h b' t' h1
      · intro b' t' h1 e
        subst e
        simp only [setHolder] at h1
        split at h1
        · cases h1
        · rename_i hb
          have h2 := h b' t' h1
          have h3 := h b t' hh
          rw [h2] at h3; cases h3; exact hb rfl
    split
    · intro b' t' h1
      have h2 := hb.1 b' t' h1
      have h3 := hb.2 b' t' h1
      simp only [setThr, if_neg h3]; exact h2
    · intro b' t' h1
      have h2 := hb.1 b' t' h1
      have h3 := hb.2 b' t' h1
      simp only [ret, setThr, if_neg h3]; exact h2

theorem hold_step (h : Hold s) {a : MAct K V I} (hs : s.step cfg a = some s') : Hold s' := by
  cases a with
  | call t c =>
    simp only [step] at hs
    split at hs
    · rename_i hi
      have hne : ∀ b, s.thr t ≠ .starting b := fun b => by simp [hi]
      repeat' split at hs
      all_goals first | cases hs | skip
      all_goals exact hold_set h _ hne
    · cases hs
  | go t =>
    simp only [step, go] at hs
    split at hs
    case h_7 b hi =>
      repeat' split at hs
      all_goals first | cases hs | skip
      intro b' t'
      simp only [setThr, setHolder, setBuf]
      by_cases e : b' = b
      · simp only [e, if_true, Option.some.injEq]
        rintro rfl; simp
      · rw [if_neg e]
        intro h1
        have := h b' t' h1
        by_cases e' : t' = t
        · subst e'; rw [hi] at this; cases this
        · rw [if_neg e']; exact this
    case h_8 => cases hs
    all_goals
      rename_i hi
      have hne : ∀ b, s.thr t ≠ .starting b := fun b => by simp [hi]
      repeat' split at hs
      all_goals first | cases hs | skip
      all_goals exact hold_set h _ hne
  | bg b a =>
    simp only [step] at hs
    repeat' split at hs
    all_goals first | cases hs | skip
    · exact hold_endStart (s := s.setBuf b _) h _ _
    · exact h

theorem hinv_set (h : HInv s) {t : Nat} (p : MPC) (ht : s.thr t ≠ .idle) : HInv (s.setThr t p) :=
  h.of rfl rfl rfl fun t' h1 => by
    simp only [setThr] at h1
    by_cases e : t' = t
    · rw [e]; exact ht
    · simpa [e] using h1

theorem hinv_step (h : HInv s) (hh : Hold s) {a : MAct K V I} (hs : s.step cfg a = some s') : HInv s' := by
  cases a with
  | call t c =>
    simp only [step] at hs
    repeat' split at hs
    all_goals first | cases hs | skip
    all_goals exact h.inv _ _
  | go t =>
    simp only [step, go] at hs
    split at hs
    · cases hs
    all_goals
      rename_i hi
      have hne : s.thr t ≠ .idle := by simp [hi]
      repeat' split at hs
      all_goals first | cases hs | skip
      all_goals
        first
        | (refine HInv.ret ?_ ?_; exacts [h.of rfl rfl rfl fun _ h => h, hne])
        | (refine hinv_set ?_ _ ?_; exacts [h.of rfl rfl rfl fun _ h => h, hne])
  | bg b a =>
    simp only [step] at hs
    repeat' split at hs
    all_goals first | cases hs | skip
    · refine hinv_endStart (s := s.setBuf b _) (h.of rfl rfl rfl fun _ h => h) _ _ fun t ht => ?_
      have := hh b t ht
      intro e
      have e' : s.thr t = .idle := e
      rw [this] at e'; cases e'
    · exact h.of rfl rfl rfl fun _ h => h

/-! ### Simulation -/

/-- The two machines agree except for what a call in progress is about to change. -/
structure Base (s : MSrc K V I) (q : Src K V I) (ph : SrcPC) : Prop where
  conf : q.conf = s.conf
  log : q.log = s.log
  onclose : q.onclose = s.onclose
  pc : q.pc = ph
  fresh : ∀ b, s.nbufs ≤ b → s.bufs b = none
  bufs : (s.slot = none ∧ s.nbufs = 0 ∧ q.sb = none) ∨ ∃ cx, s.slot = some 0 ∧ s.nbufs = 1 ∧ s.bufs 0 = some cx ∧ q.sb = some cx
  idle : ph ≠ .starting → ∀ c x, q.sb = some (c, x) → x.start = none

/-- The same between the making of the stream buffer and its start. -/
structure Pre (s : MSrc K V I) (q : Src K V I) : Prop where
  conf : q.conf = s.conf
  log : q.log = s.log
  onclose : q.onclose = s.onclose
  pc : q.pc = .starting
  fresh : ∀ b, s.nbufs ≤ b → s.bufs b = none
  slot : s.slot = some 0
  n : s.nbufs = 1
  bufs : ∃ c, s.bufs 0 = some (c, SB.init) ∧ q.sb = some (c, { SB.init with start := some .chk1 })

/-- The reader being opened. -/
def Opening (s : MSrc K V I) (q : Src K V I) (r : Nat) : Prop :=
  s.made = q.made + 1 ∧ r = q.made ∧ ∃ c x σ, q.sb = some (c, x) ∧ s.home r = (0, σ) ∧ x.sourceBuffer = some σ

/-- Thread `t` is at `p`, all others are idle. -/
def At (s : MSrc K V I) (q : Src K V I) (t : Nat) : MPC → Prop
  | .idle | .conf1 _ | .ensure => Base s q .idle ∧ s.made = q.made ∧ s.openReaders = q.openReaders
  | .conf2 _ | .mk => Base s q .idle ∧ s.made = q.made ∧ s.openReaders = q.openReaders ∧ s.slot = none
  | .callStart => Pre s q ∧ s.made = q.made ∧ s.openReaders = q.openReaders
  | .waitStart b => Pre s q ∧ s.made = q.made ∧ s.openReaders = q.openReaders ∧ b = 0
  | .starting b => Base s q .starting ∧ s.made = q.made ∧ s.openReaders = q.openReaders ∧ b = 0 ∧ s.holder 0 = some t ∧ q.sb ≠ none ∧
      ∀ c x, q.sb = some (c, x) → x.start ≠ none
  | .look => Base s q .making ∧ s.made = q.made ∧ s.openReaders = q.openReaders ∧ q.sb ≠ none
  | .making b => Base s q .making ∧ s.made = q.made ∧ s.openReaders = q.openReaders ∧ b = 0 ∧ q.sb ≠ none
  | .inc1 r => Base s q .making ∧ Opening s q r ∧ s.openReaders = q.openReaders
  | .inc2 r n => Base s q .making ∧ Opening s q r ∧ n = q.openReaders
  | .attach r => Base s q .making ∧ Opening s q r ∧ s.openReaders = q.openReaders + 1
  | .dec1 r => Base s q .idle ∧ s.made = q.made ∧ s.openReaders = q.openReaders ∧ r < q.made ∧ q.onclose r = .handler
  | .dec2 r n => Base s q .idle ∧ s.made = q.made ∧ n = q.openReaders ∧ r < q.made ∧ q.onclose r = .handler
  | .test r => Base s q .idle ∧ s.made = q.made ∧ s.openReaders = q.openReaders - 1 ∧ r < q.made ∧ q.onclose r = .handler
  | .exit r => Base s q .idle ∧ s.made = q.made ∧ s.openReaders = q.openReaders - 1 ∧ r < q.made ∧ q.onclose r = .handler ∧ s.openReaders ≤ 0
  | .stopping b r => Base s q (.stopping r) ∧ s.made = q.made ∧ s.openReaders = q.openReaders ∧ b = 0 ∧ q.sb ≠ none

/-- The simulation relation. -/
def Sim (s : MSrc K V I) (q : Src K V I) : Prop := ∃ t, (∀ t', t' ≠ t → s.thr t' = .idle) ∧ At s q t (s.thr t)

theorem sim_init : Sim (init : MSrc K V I) Src.init :=
  ⟨0, fun _ _ => rfl, ⟨rfl, rfl, rfl, rfl, fun _ _ => rfl, .inl ⟨rfl, rfl, rfl⟩, fun _ _ _ h => by cases h⟩, rfl, rfl⟩

theorem Base.setThr {pc : SrcPC} (h : Base s q pc) (t : Nat) (p : MPC) : Base (s.setThr t p) q pc := ⟨h.1, h.2, h.3, h.4, h.5, h.6, h.7⟩

theorem Base.buf {pc : SrcPC} (h : Base s q pc) {b : Nat} {cx} (hb : s.bufs b = some cx) : b = 0 ∧ q.sb = some cx ∧ s.slot = some 0 ∧ s.nbufs = 1 := by
  have hlt : ¬ s.nbufs ≤ b := fun hle => by rw [h.fresh b hle] at hb; cases hb
  rcases h.bufs with ⟨-, h2, -⟩ | ⟨cx', h1, h2, h3, h4⟩
  · omega
  · have : b = 0 := by omega
    subst this
    rw [h3] at hb; cases hb
    exact ⟨rfl, h4, h1, h2⟩

theorem Base.slot {pc : SrcPC} (h : Base s q pc) (hb : q.sb ≠ Option.none) : ∃ c x, s.slot = some 0 ∧ s.bufs 0 = some (c, x) ∧ q.sb = some (c, x) := by
  rcases h.bufs with ⟨-, -, h3⟩ | ⟨⟨c, x⟩, h1, h2, h3, h4⟩
  · exact absurd h3 hb
  · exact ⟨c, x, h1, h3, h4⟩

theorem Base.setBuf {pc : SrcPC} (h : Base s q pc) {c : Option Nat × Bool} {x x' : SB K V I} (hb : s.bufs 0 = some (c, x))
    (hx : pc ≠ .starting → x'.start = Option.none) : Base (s.setBuf 0 (c, x')) { q with sb := some (c, x') } pc := by
  obtain ⟨-, h2, h3, h4⟩ := h.buf hb
  refine ⟨h.1, h.2, h.3, h.4, fun b hb' => ?_, .inr ⟨(c, x'), h3, h4, by simp [MSrc.setBuf], rfl⟩, fun hp c' x'' e => ?_⟩
  · simp only [MSrc.setBuf] at hb' ⊢
    rw [if_neg (by omega)]
    exact h.fresh b hb'
  · cases e; exact hx hp

theorem Base.say {pc : SrcPC} (h : Base s q pc) (e : SrcEv) : Base (s.say e) (q.say e) pc :=
  ⟨h.1, by simp [MSrc.say, Src.say, h.log], h.3, h.4, h.5, h.6, h.7⟩

theorem Base.ret {pc : SrcPC} (h : Base s q pc) (t : Nat) : Base (s.ret t) q pc := ⟨h.1, h.2, h.3, h.4, h.5, h.6, h.7⟩

theorem Base.toPc {pc : SrcPC} (h : Base s q pc) (pc' : SrcPC) (hp : pc ≠ .starting ∨ pc' = .starting) : Base s { q with pc := pc' } pc' :=
  ⟨h.1, h.2, h.3, rfl, h.5, h.6, fun hn => h.7 (by rcases hp with hp | hp; exact hp; exact absurd hp hn)⟩

theorem at_idle {t : Nat} (h : Base s q .idle) (h1 : s.made = q.made) (h2 : s.openReaders = q.openReaders) : At s q t .idle := ⟨h, h1, h2⟩

/-- A background step that does not end a `start()`. -/
theorem At.bg {t : Nat} {p : MPC} (h : At s q t p) {b : Nat} {c : Option Nat × Bool} {x x' : SB K V I} (hb : s.bufs b = some (c, x))
    (hg : ¬ (x.start = none ∧ x.n = 0)) (hi : x.start = none → x'.start = none ∧ x'.sourceBuffer = x.sourceBuffer) (hne : ¬ (x.start ≠ none ∧ x'.start = none)) :
    b = 0 ∧ q.sb = some (c, x) ∧ At (s.setBuf b (c, x')) { q with sb := some (c, x') } t p := by
  have key : ∀ {pc}, Base s q pc → b = 0 ∧ q.sb = some (c, x) ∧ Base (s.setBuf b (c, x')) { q with sb := some (c, x') } pc := by
    intro pc hB
    obtain ⟨rfl, h2, -, -⟩ := hB.buf hb
    exact ⟨rfl, h2, hB.setBuf hb fun hp => (hi (hB.idle hp c x h2)).1⟩
  have pre : Pre s q → False := by
    intro hP
    obtain ⟨c', h1, h2⟩ := hP.bufs
    have : b = 0 := by
      by_contra hb0
      rw [hP.fresh b (by have := hP.n; omega)] at hb; cases hb
    subst this
    rw [h1] at hb; cases hb
    exact hg ⟨rfl, rfl⟩
  have opn : ∀ {r}, Base s q .making → Opening s q r → Opening (s.setBuf b (c, x')) { q with sb := some (c, x') } r := by
    rintro r hB ⟨h1, h2, c', x'', σ, h3, h4, h5⟩
    obtain ⟨-, h6, -⟩ := hB.buf hb
    rw [h6] at h3; cases h3
    exact ⟨h1, h2, c, x', σ, rfl, h4, by rw [(hi (hB.idle (by simp) c x h6)).2]; exact h5⟩
  cases p <;> simp only [At] at h ⊢
  case callStart => exact (pre h.1).elim
  case waitStart => exact (pre h.1).elim
  case idle | conf1 | ensure => obtain ⟨k1, k2, k3⟩ := key h.1; exact ⟨k1, k2, k3, h.2⟩
  case conf2 | mk =>
    obtain ⟨k1, k2, k3⟩ := key h.1
    exact ⟨k1, k2, k3, h.2⟩
  case starting b' =>
    obtain ⟨k1, k2, k3⟩ := key h.1
    obtain ⟨-, h2, h3, h4, h5, h6, h7⟩ := h
    refine ⟨k1, k2, k3, h2, h3, h4, h5, by simp, fun c' x'' e => ?_⟩
    cases e
    exact fun e => hne ⟨h7 c x k2, e⟩
  case look => obtain ⟨k1, k2, k3⟩ := key h.1; exact ⟨k1, k2, k3, h.2.1, h.2.2.1, by simp⟩
  case making => obtain ⟨k1, k2, k3⟩ := key h.1; exact ⟨k1, k2, k3, h.2.1, h.2.2.1, h.2.2.2.1, by simp⟩
  case inc1 | inc2 | attach => obtain ⟨k1, k2, k3⟩ := key h.1; exact ⟨k1, k2, k3, opn h.1 h.2.1, h.2.2⟩
  case dec1 | dec2 | test | exit => obtain ⟨k1, k2, k3⟩ := key h.1; exact ⟨k1, k2, k3, h.2⟩
  case stopping => obtain ⟨k1, k2, k3⟩ := key h.1; exact ⟨k1, k2, k3, h.2.1, h.2.2.1, h.2.2.2.1, by simp⟩

theorem sim_set {t : Nat} {p : MPC} (hq : ∀ t', t' ≠ t → s.thr t' = .idle) (h : At s q t p) : Sim (s.setThr t p) q := by
  refine ⟨t, fun t' ht => ?_, ?_⟩
  · simp only [setThr, if_neg ht]; exact hq t' ht
  · have : (s.setThr t p).thr t = p := by simp [setThr]
    rw [this]
    cases p <;> simp only [At] at h ⊢
    case callStart | waitStart => exact ⟨⟨h.1.1, h.1.2, h.1.3, h.1.4, h.1.5, h.1.6, h.1.7, h.1.8⟩, h.2⟩
    all_goals exact ⟨⟨h.1.1, h.1.2, h.1.3, h.1.4, h.1.5, h.1.6, h.1.7⟩, h.2⟩

theorem sim_ret {t : Nat} (hq : ∀ t', t' ≠ t → s.thr t' = .idle) (h : Base s q .idle) (h1 : s.made = q.made) (h2 : s.openReaders = q.openReaders) :
    Sim (s.ret t) q := by
  refine ⟨t, fun t' ht => ?_, ?_⟩
  · simp only [ret, setThr, if_neg ht]; exact hq t' ht
  · have : (s.ret t).thr t = .idle := by simp [ret, setThr]
    rw [this]
    exact ⟨h.ret t, h1, h2⟩

theorem sim_retSay {t : Nat} {e : SrcEv} (hq : ∀ t', t' ≠ t → s.thr t' = .idle) (h : Base s q .idle) (h1 : s.made = q.made) (h2 : s.openReaders = q.openReaders) :
    Sim ((s.say e).ret t) (q.say e) := sim_ret (s := s.say e) hq (h.say e) h1 h2

theorem sim_inv {t : Nat} {c : MCall} {p : MPC} (hq : ∀ t', s.thr t' = .idle) (h : At s q t p) : Sim (s.inv t c p) q := by
  obtain ⟨t1, h1, h2⟩ := sim_set (t := t) (p := p) (fun t' _ => hq t') h
  refine ⟨t1, h1, ?_⟩
  have e : (s.inv t c p).thr = (s.setThr t p).thr := rfl
  rw [e]
  generalize (s.setThr t p).thr t1 = p' at h2
  cases p' <;> simp only [At] at h2 ⊢
  case callStart | waitStart => exact ⟨⟨h2.1.1, h2.1.2, h2.1.3, h2.1.4, h2.1.5, h2.1.6, h2.1.7, h2.1.8⟩, h2.2⟩
  all_goals exact ⟨⟨h2.1.1, h2.1.2, h2.1.3, h2.1.4, h2.1.5, h2.1.6, h2.1.7⟩, h2.2⟩

theorem exec_one {a : SrcAct K V I} {q' : Src K V I} (h : q.step cfg a = some q') : q.exec cfg [a] = some q' := by
  simp [Src.exec, h]

theorem sim_go {t : Nat} (hq : ∀ t', t' ≠ t → s.thr t' = .idle) (h : At s q t (s.thr t)) (hs : s.go cfg t = some s') :
    ∃ as' q', q.exec cfg as' = some q' ∧ Sim s' q' := by
  have stay : Sim s' q → ∃ as' q', q.exec cfg as' = some q' ∧ Sim s' q' := fun h => ⟨[], q, rfl, h⟩
  simp only [go] at hs
  split at hs
  · cases hs
  · rename_i c hp -- conf1
    rw [hp] at h
    obtain ⟨hB, h1, h2⟩ := h
    split at hs
    · rename_i b hb
      cases hs
      rcases hB.bufs with ⟨k, -, -⟩ | ⟨⟨c', x⟩, k1, k2, k3, k4⟩
      · rw [k] at hb; cases hb
      · refine ⟨[.configure c], q.say (.configured c (.error .valueError)), exec_one ?_, sim_retSay hq hB h1 h2⟩
        simp [Src.step, hB.pc, k4]
    · rename_i hb
      cases hs
      exact stay (sim_set hq ⟨hB, h1, h2, hb⟩)
  · rename_i c hp -- conf2
    rw [hp] at h
    obtain ⟨hB, h1, h2, h3⟩ := h
    cases hs
    have k4 : q.sb = none := by
      rcases hB.bufs with ⟨-, -, k⟩ | ⟨cx, k1, k2, k3, k4⟩
      · exact k
      · rw [h3] at k1; cases k1
    refine ⟨[.configure c], ({ q with conf := some c }).say (.configured c (.ok ())), exec_one ?_, sim_retSay (s := { s with conf := some c }) (q := { q with conf := some c }) hq ?_ h1 h2⟩
    · simp [Src.step, hB.pc, k4]
    · exact ⟨rfl, hB.2, hB.3, hB.4, hB.5, hB.6, hB.7⟩
  · rename_i hp -- ensure
    rw [hp] at h
    obtain ⟨hB, h1, h2⟩ := h
    cases hs
    rcases hB.bufs with ⟨k, -, -⟩ | ⟨⟨c', x⟩, k1, k2, k3, k4⟩
    · simp only [k]; exact ⟨[], q, rfl, sim_set (p := .mk) hq ⟨hB, h1, h2, k⟩⟩
    · simp only [k1]
      refine ⟨[.openReader], { q with pc := .making }, exec_one ?_, sim_set hq ⟨hB.toPc _ (.inl (by simp)), h1, h2, by simp [k4]⟩⟩
      simp [Src.step, hB.pc, k4]
  · rename_i hp -- mk
    rw [hp] at h
    obtain ⟨hB, h1, h2, h3⟩ := h
    cases hs
    rcases hB.bufs with ⟨-, k2, k3⟩ | ⟨cx, k1, k2, k3, k4⟩
    · let x1 : SB K V I := { SB.init with start := some .chk1 }
      let q1 : Src K V I := ({ q with conf := s.conf, sb := some (s.conf.getD (some 100, true), x1), pc := .starting }).say (.bufferMade (s.conf.getD (some 100, true)))
      refine ⟨[.openReader], q1, exec_one (by simp only [Src.step, hB.pc, k3, if_true, SB.step, SB.init, hB.conf]; rfl), ?_⟩
      let s1 : MSrc K V I := ({ s.setBuf s.nbufs (s.conf.getD (some 100, true), SB.init) with slot := some s.nbufs, nbufs := s.nbufs + 1 }).say
        (.bufferMade (s.conf.getD (some 100, true)))
      refine sim_set (q := q1) (p := .callStart) (s := s1) hq
        ⟨⟨rfl, ?_, hB.3, rfl, fun b hb => ?_, ?_, ?_, ?_⟩, h1, h2⟩
      · simp [q1, s1, MSrc.say, MSrc.setBuf, Src.say, hB.log]
      · simp only [s1, MSrc.say, MSrc.setBuf] at hb ⊢
        rw [if_neg (by omega)]
        exact hB.fresh b (by omega)
      · simp [s1, MSrc.say, k2]
      · simp [s1, MSrc.say, k2]
      · exact ⟨s.conf.getD (some 100, true), by simp [s1, MSrc.say, MSrc.setBuf, k2], rfl⟩
    · rw [h3] at k1; cases k1
  · rename_i hp -- callStart
    rw [hp] at h
    obtain ⟨hP, h1, h2⟩ := h
    rw [hP.slot] at hs
    cases hs
    exact stay (sim_set hq ⟨hP, h1, h2, rfl⟩)
  · rename_i b hp -- waitStart
    rw [hp] at h
    obtain ⟨hP, h1, h2, rfl⟩ := h
    obtain ⟨c, k1, k2⟩ := hP.bufs
    rw [k1] at hs
    simp only [SB.step, SB.init, if_true] at hs
    cases hs
    refine stay (sim_set (s := (s.setBuf 0 (c, _)).setHolder 0 (some t)) hq
      ⟨⟨hP.conf, hP.log, hP.onclose, hP.pc, fun b hb => ?_, .inr ⟨_, hP.slot, hP.n, ?_, k2⟩, ?_⟩, h1, h2, rfl, ?_, ?_, ?_⟩)
    · simp only [MSrc.setBuf, MSrc.setHolder] at hb ⊢
      have := hP.n
      rw [if_neg (by omega)]
      exact hP.fresh b hb
    · simp [MSrc.setBuf, MSrc.setHolder, SB.init]
    · simp
    · simp [MSrc.setHolder]
    · simp [k2]
    · intro c' x' e
      rw [k2] at e; cases e; simp
  · cases hs -- starting
  · rename_i hp -- look
    rw [hp] at h
    obtain ⟨hB, h1, h2, h3⟩ := h
    obtain ⟨c, x, k1, k2, k3⟩ := hB.slot h3
    rw [k1] at hs; cases hs
    exact stay (sim_set hq ⟨hB, h1, h2, rfl, h3⟩)
  · rename_i b hp -- making
    rw [hp] at h
    obtain ⟨hB, h1, h2, rfl, h3⟩ := h
    obtain ⟨c, x, k1, k2, k3⟩ := hB.slot h3
    rw [k2] at hs
    dsimp only at hs
    split at hs
    · split at hs
      · rename_i hb
        cases hs
        refine ⟨[.openGo], ({ q with pc := .idle }).say (.openError .streamNotStarted), exec_one ?_,
          sim_retSay (q := { q with pc := .idle }) hq (hB.toPc _ (.inl (by simp))) h1 h2⟩
        simp [Src.step, hB.pc, k3, hb]
      · rename_i σ hb
        cases hs
        refine stay (sim_set (s := { s with made := s.made + 1, home := fun j => if j = s.made then (0, σ) else s.home j }) hq
          ⟨⟨hB.1, hB.2, hB.3, hB.4, hB.5, hB.6, hB.7⟩, ⟨by simp [h1], h1, c, x, σ, k3, by simp, hb⟩, h2⟩)
    · cases hs
  · rename_i r hp -- inc1
    rw [hp] at h
    cases hs
    exact stay (sim_set hq ⟨h.1, h.2.1, h.2.2⟩)
  · rename_i r n hp -- inc2
    rw [hp] at h
    obtain ⟨hB, hO, hn⟩ := h
    cases hs
    exact stay (sim_set (s := { s with openReaders := n + 1 }) hq ⟨⟨hB.1, hB.2, hB.3, hB.4, hB.5, hB.6, hB.7⟩, hO, by simp [hn]⟩)
  · rename_i r hp -- attach
    rw [hp] at h
    obtain ⟨hB, ⟨hm, rfl, c, x, σ, k1, k2, k3⟩, hn⟩ := h
    obtain ⟨c', x', j1, j2, j3⟩ := hB.slot (by simp [k1])
    rw [k1] at j3; cases j3
    rw [k2] at hs
    dsimp only at hs
    rw [j2] at hs
    cases hs
    let q1 : Src K V I := (({ q with pc := .idle, openReaders := q.openReaders + 1, made := q.made + 1 }).setOnclose q.made .handler).say
      (.opened q.made σ (Src.live x σ))
    refine ⟨[.openGo], q1, exec_one (by simp only [Src.step, hB.pc, k1, k3, q1]), ?_⟩
    refine sim_ret (q := q1) (s := (s.setOnclose q.made .handler).say _) hq (Base.say ?_ _) hm hn
    exact ⟨hB.1, hB.2, by simp [Src.setOnclose, MSrc.setOnclose, hB.onclose], rfl, hB.5, hB.6, fun _ => hB.7 (by simp)⟩
  · rename_i r hp -- dec1
    rw [hp] at h
    cases hs
    exact stay (sim_set hq ⟨h.1, h.2.1, h.2.2.1, h.2.2.2⟩)
  · rename_i r n hp -- dec2
    rw [hp] at h
    obtain ⟨hB, hm, hn, hr⟩ := h
    cases hs
    exact stay (sim_set (s := { s with openReaders := n - 1 }) hq ⟨⟨hB.1, hB.2, hB.3, hB.4, hB.5, hB.6, hB.7⟩, hm, by simp [hn], hr⟩)
  · rename_i r hp -- test
    rw [hp] at h
    obtain ⟨hB, hm, hn, hr1, hr2⟩ := h
    split at hs
    · rename_i hle
      cases hs
      exact stay (sim_set hq ⟨hB, hm, hn, hr1, hr2, hle⟩)
    · rename_i hle
      cases hs
      refine ⟨[.close r], ({ q with openReaders := q.openReaders - 1 }).say (.closed r (.ok ())), exec_one ?_,
        sim_retSay (q := { q with openReaders := q.openReaders - 1 }) hq ⟨hB.1, hB.2, hB.3, hB.4, hB.5, hB.6, hB.7⟩ hm hn⟩
      simp only [Src.step, hB.pc, hr1, hr2, and_self, if_true, Src.readerClosed]
      rw [if_neg (by rw [← hn]; exact hle)]
  · rename_i r hp -- exit
    rw [hp] at h
    obtain ⟨hB, hm, hn, hr1, hr2, hle⟩ := h
    split at hs
    · cases hs
    · rename_i b hb
      split at hs
      · cases hs
      · rename_i c x hx
        obtain ⟨rfl, k2, k3, k4⟩ := hB.buf hx
        split at hs
        · cases hs
        · rename_i x' hx'
          have hi := (SB.step_idle (by simp) hx' (hB.idle (by simp) c x k2)).1
          have hB' := hB.setBuf hx (fun _ => hi)
          split at hs
          · rename_i he
            cases hs
            refine ⟨[.close r], ({ q with openReaders := q.openReaders - 1, sb := some (c, x') }).say (.closed r (.error .attributeError)), exec_one ?_,
              sim_retSay (s := s.setBuf 0 (c, x')) (q := { q with openReaders := q.openReaders - 1, sb := some (c, x') }) hq
                ⟨hB'.1, hB'.2, hB'.3, hB'.4, hB'.5, hB'.6, hB'.7⟩ hm hn⟩
            simp only [Src.step, hB.pc, hr1, hr2, and_self, if_true, Src.readerClosed]
            rw [if_pos (by rw [← hn]; exact hle)]
            simp only [k2, hx', he]
          · rename_i e he
            cases hs
            let q1 : Src K V I := { q with openReaders := q.openReaders - 1, sb := some (c, x'), pc := .stopping r }
            have hB1 : Base (s.setBuf 0 (c, x')) q1 (.stopping r) := ⟨hB'.1, hB'.2, hB'.3, rfl, hB'.5, hB'.6, fun _ => hB'.7 (by simp)⟩
            refine ⟨[.close r], (q1.say (.closed r (.ok ()))).say .stopped, exec_one ?_,
              sim_set (s := ((s.setBuf 0 (c, x')).say _).say _) (q := (q1.say _).say _) hq ⟨(hB1.say _).say _, hm, hn, rfl, by simp [q1, Src.say]⟩⟩
            simp only [Src.step, hB.pc, hr1, hr2, and_self, if_true, Src.readerClosed]
            rw [if_pos (by rw [← hn]; exact hle)]
            simp only [k2, hx', he, q1]
  · rename_i b r hp -- stopping
    rw [hp] at h
    obtain ⟨hB, hm, hn, rfl, h3⟩ := h
    obtain ⟨c, x, k1, k2, k3⟩ := hB.slot h3
    rw [k2] at hs
    dsimp only at hs
    split at hs
    · cases hs
    · rename_i x' hx'
      cases hs
      have hi := (SB.step_idle (by simp) hx' (hB.idle (by simp) c x k3)).1
      have hB' := hB.setBuf k2 (fun _ => hi)
      refine ⟨[.closeGo], { q with sb := some (c, x'), pc := .idle }, exec_one ?_, sim_ret (s := s.setBuf 0 (c, x')) hq
        ⟨hB'.1, hB'.2, hB'.3, rfl, hB'.5, hB'.6, fun _ => hB'.7 (by simp)⟩ hm hn⟩
      simp only [Src.step, hB.pc, k3, hx']

theorem sim_step (hS : Sim s q) (hH : HInv s) {a : MAct K V I} (hX : NonOverlapping (fun _ => True) s'.hist) (hs : s.step cfg a = some s') :
    ∃ as' q', q.exec cfg as' = some q' ∧ Sim s' q' := by
  obtain ⟨t, hq, hA⟩ := hS
  cases a with
  | call t' c =>
    simp only [step] at hs
    split at hs
    · have idle : ∀ c p, s' = s.inv t' c p → (∀ j, s.thr j = .idle) ∧ Base s q .idle ∧ s.made = q.made ∧ s.openReaders = q.openReaders := by
        intro c p e
        have hi := hH.quiet (t := t') (c := c) (p := p) (by rw [← e]; exact hX)
        rw [hi t] at hA
        exact ⟨hi, hA⟩
      split at hs
      · cases hs
        obtain ⟨hi, hB⟩ := idle _ _ rfl
        exact ⟨[], q, rfl, sim_inv hi hB⟩
      · cases hs
        obtain ⟨hi, hB⟩ := idle _ _ rfl
        exact ⟨[], q, rfl, sim_inv hi hB⟩
      · split at hs
        · rename_i r hr
          cases hs
          obtain ⟨hi, hB, h1, h2⟩ := idle _ _ rfl
          exact ⟨[], q, rfl, sim_inv hi ⟨hB, h1, h2, h1 ▸ hr.1, by rw [hB.onclose]; exact hr.2⟩⟩
        · cases hs
    · cases hs
  | go t' =>
    simp only [step] at hs
    by_cases e : t' = t
    · subst e; exact sim_go hq hA hs
    · rw [go, hq t' e] at hs; cases hs
  | bg b a =>
    simp only [step] at hs
    split at hs
    case isFalse => cases hs
    rename_i hbg
    have hst : a ≠ .start := by rintro rfl; simp [SBAct.isBg] at hbg
    split at hs
    · cases hs
    · rename_i c x hb
      split at hs
      · cases hs
      · rename_i hg
        split at hs
        · cases hs
        · rename_i x' hx'
          have hi : x.start = none → x'.start = none ∧ x'.sourceBuffer = x.sourceBuffer := fun h =>
            ⟨(SB.step_idle hst hx' h).1, (SB.step_idle hst hx' h).2.1⟩
          split at hs
          · rename_i hend
            cases hs
            have notIdle : ∀ ph, Base s q ph → ph ≠ .starting → False := fun ph hB hp => by
              obtain ⟨-, k, -⟩ := hB.buf hb
              exact hend.1 (hB.idle hp c x k)
            generalize hp : s.thr t = p at hA
            cases p <;> simp only [At] at hA
            case starting b' =>
              obtain ⟨hB, h1, h2, rfl, h4, h5, h6⟩ := hA
              obtain ⟨rfl, k2, k3, k4⟩ := hB.buf hb
              have hB' := hB.setBuf (x' := x') hb (fun hn => absurd rfl hn)
              have hh : (s.setBuf 0 (c, x')).holder 0 = some t := h4
              simp only [endStart, hh]
              have e1 : q.step cfg (.bg a) = some { q with sb := some (c, x') } := by simp only [Src.step, hbg, if_true, k2, hx']
              split
              · rename_i σ hσ
                refine ⟨[.bg a, .openGo], { q with sb := some (c, x'), pc := .making }, ?_, sim_set (s := (s.setBuf 0 (c, x')).setHolder 0 none) hq
                  ⟨⟨hB'.1, hB'.2, hB'.3, rfl, hB'.5, hB'.6, fun _ c' x'' e => ?_⟩, h1, h2, by simp⟩⟩
                · simp only [Src.exec, e1]
                  simp only [Src.step, hB.pc, hend.2, hσ, if_true]
                · cases e; exact hend.2
              · rename_i hσ
                refine ⟨[.bg a, .openGo], ({ q with sb := some (c, x'), pc := .idle }).say (.openError (.other 0)), ?_,
                  sim_retSay (s := (s.setBuf 0 (c, x')).setHolder 0 none) (q := { q with sb := some (c, x'), pc := .idle }) hq
                    ⟨hB'.1, hB'.2, hB'.3, rfl, hB'.5, hB'.6, fun _ c' x'' e => ?_⟩ h1 h2⟩
                · simp only [Src.exec, e1]
                  simp only [Src.step, hB.pc, hend.2, hσ, if_true]
                · cases e; exact hend.2
            case callStart | waitStart =>
              obtain ⟨c', j1, j2⟩ := hA.1.bufs
              have : b = 0 := by
                by_contra hb0
                rw [hA.1.fresh b (by have := hA.1.n; omega)] at hb; cases hb
              subst this
              rw [j1] at hb; cases hb
              exact absurd rfl hend.1
            all_goals exact (notIdle _ hA.1 (by simp)).elim
          · rename_i hne
            cases hs
            obtain ⟨rfl, k2, k3⟩ := hA.bg hb hg hi hne
            exact ⟨[.bg a], { q with sb := some (c, x') }, exec_one (by simp only [Src.step, hbg, if_true, k2, hx']), t, hq, k3⟩

theorem exec_hist {as : List (MAct K V I)} : ∀ {s : MSrc K V I}, s.exec cfg as = some s' → ∃ l, s'.hist = s.hist ++ l := by
  induction as with
  | nil => intro s h; cases h; exact ⟨[], by simp⟩
  | cons a as ih =>
    intro s h
    simp only [exec] at h
    split at h
    · rename_i s1 h1
      obtain ⟨l1, e1⟩ := step_hist h1
      obtain ⟨l2, e2⟩ := ih h
      exact ⟨l1 ++ l2, by rw [e2, e1, List.append_assoc]⟩
    · cases h

theorem src_exec_append {as bs : List (SrcAct K V I)} : ∀ {q q1 q2 : Src K V I}, q.exec cfg as = some q1 → q1.exec cfg bs = some q2 →
    q.exec cfg (as ++ bs) = some q2 := by
  induction as with
  | nil => intro q q1 q2 h1 h2; cases h1; exact h2
  | cons a as ih =>
    intro q q1 q2 h1 h2
    simp only [Src.exec, List.cons_append] at h1 ⊢
    split at h1
    · exact ih h1 h2
    · cases h1

theorem sim_exec {as : List (MAct K V I)} : ∀ {s : MSrc K V I} {q : Src K V I}, Sim s q → HInv s → Hold s → NonOverlapping (fun _ => True) s'.hist →
    s.exec cfg as = some s' → ∃ as' q', q.exec cfg as' = some q' ∧ Sim s' q' ∧ HInv s' := by
  induction as with
  | nil => intro s q hS hH _ _ h; cases h; exact ⟨[], q, rfl, hS, hH⟩
  | cons a as ih =>
    intro s q hS hH hh hX h
    simp only [exec] at h
    split at h
    · rename_i s1 h1
      obtain ⟨l2, e2⟩ := exec_hist h
      obtain ⟨as1, q1, k1, k2⟩ := sim_step hS hH (nonOverlapping_prefix (l := l2) (by rw [← e2]; exact hX)) h1
      obtain ⟨as2, q2, k3, k4, k5⟩ := ih k2 (hinv_step hH hh h1) (hold_step hh h1) hX h
      exact ⟨as1 ++ as2, q2, src_exec_append k1 k3, k4, k5⟩
    · cases h

theorem hinv_init : HInv (init : MSrc K V I) := ⟨fun _ h => absurd rfl h, fun _ _ h => absurd rfl h, fun _ h => by cases h⟩

theorem hold_init : Hold (init : MSrc K V I) := fun _ _ h => by cases h

end MSrc
end S2P
