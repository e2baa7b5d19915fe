import Verif.Props.StreamSource
import Verif.Props.Join
import Verif.Props.JoinLive
/-
C101: a `StreamSource` from its `read()` to the consumers of its readers, and back: the last close of a reader closes the source.
-/
namespace S2P
open Spec

namespace SB
variable {K V I : Type} [LinearOrder K] [BEq V] {cfg : SBCfg K V}

theorem launched_step {s s' : SB K V I} {a : SBAct K V I} (hi : s.Inv) (h : ∀ b, s.sourceBuffer = some b → s.start = some .launch ∨ Ev.launched b ∈ s.log)
    (hs : s.step cfg a = some s') : ∀ b, s'.sourceBuffer = some b → s'.start = some .launch ∨ Ev.launched b ∈ s'.log := by
  have hp := hi.ph
  have hb := hi.sb
  clear hi
  have hst := step_to hs
  clear hs
  cases hst
  all_goals
    try simp only [say, setThr, setBuf, setEvent, setNext, setDrop, setInfo, newSess, running] at *
  all_goals first
    | exact h
    | grind [PhaseOk]

/-- A stream buffer that has a session and no `start()` in progress has launched its thread. -/
theorem launched_of_session {as : List (SBAct K V I)} {s : SB K V I} (he : SB.init.exec cfg as = some s) {b : Nat} (hb : s.sourceBuffer = some b)
    (hn : s.start = none) : Ev.launched b ∈ s.log := by
  have := exec_ind (P := fun s : SB K V I => s.Inv ∧ ∀ b, s.sourceBuffer = some b → s.start = some .launch ∨ Ev.launched b ∈ s.log) (cfg := cfg)
    (fun s a s' h hs => ⟨h.1.step hs, launched_step h.1 h.2 hs⟩) ⟨Inv.init, by simp [SB.init]⟩ he
  exact (this.2 b hb).resolve_left (by simp [hn])

theorem launched_mono {s s' : SB K V I} {a : SBAct K V I} {b : Nat} (hs : s.step cfg a = some s') (h : Ev.launched b ∈ s.log) : Ev.launched b ∈ s'.log := by
  have hst := step_to hs
  clear hs
  cases hst
  all_goals
    try simp only [say, setThr, setBuf, setEvent, setNext, setDrop, setInfo, newSess, running] at *
  all_goals first
    | exact h
    | grind

end SB

namespace Src
variable {K V I : Type} [LinearOrder K] [BEq V] {cfg : SrcCfg K V} {s s' : Src K V I}

/-- The actions of the stream buffer, its thread, the source and the consumers among the given ones. -/
def bgActs (xs : List (SrcAct K V I)) : List (SBAct K V I) := xs.filterMap fun | .bg a => some a | _ => none

theorem step_acts {a : SrcAct K V I} {c : Option Nat × Bool} {x : SB K V I} (hs : s.step cfg a = some s') (h : s.sb = some (c, x)) :
    (s'.sb = some (c, x) ∧ ∀ b, a ≠ .bg b) ∨
    ∃ x' b, s'.sb = some (c, x') ∧ x.step (cfg.sb c) b = some x' ∧ b ≠ .start ∧ ((a = .bg b ∧ b.isBg = true) ∨ (b.isBg = false ∧ ∀ b, a ≠ .bg b)) := by
  cases step_to hs
  case closeErr r c' y y' hp hr ho hn hy hs' he =>
    rw [h] at hy; cases hy
    exact .inr ⟨_, _, rfl, hs', by simp, .inr ⟨rfl, by simp⟩⟩
  case closeLast r c' y y' e hp hr ho hn hy hs' he =>
    rw [h] at hy; cases hy
    exact .inr ⟨_, _, rfl, hs', by simp, .inr ⟨rfl, by simp⟩⟩
  case closeGo r c' y y' hp hy hs' =>
    rw [h] at hy; cases hy
    exact .inr ⟨_, _, rfl, hs', by simp, .inr ⟨rfl, by simp⟩⟩
  case bg b c' y y' ha hy hs' =>
    rw [h] at hy; cases hy
    exact .inr ⟨_, _, rfl, hs', by rintro rfl; simp [SBAct.isBg] at ha, .inl ⟨rfl, ha⟩⟩
  case openFirst y hp hy hx => rw [h] at hy; simp at hy
  case conf c hp hy => rw [h] at hy; simp at hy
  all_goals exact .inl ⟨by simpa [say, setOnclose] using h, by simp⟩

/-- Once there is a stream buffer, every execution is one of it, with the same background actions, and without another `start()`. -/
theorem path {xs : List (SrcAct K V I)} {c : Option Nat × Bool} {x : SB K V I} (h : s.sb = some (c, x)) (he : s.exec cfg xs = some s') :
    ∃ x' as, s'.sb = some (c, x') ∧ x.exec (cfg.sb c) as = some x' ∧ .start ∉ as ∧
      as.filter (·.isBg) = bgActs xs := by
  induction xs generalizing s x with
  | nil => simp only [exec, Option.some.injEq] at he; subst he; exact ⟨x, [], h, rfl, by simp, rfl⟩
  | cons a xs ih =>
    simp only [exec] at he
    split at he
    swap
    · simp at he
    rename_i s1 hs
    rcases step_acts hs h with ⟨e, ha⟩ | ⟨x1, b, e, hb, hne, ha⟩
    · obtain ⟨x', as, k1, k2, k3, k4⟩ := ih e he
      refine ⟨x', as, k1, k2, k3, ?_⟩
      rw [k4]
      cases a <;> first | rfl | exact (ha _ rfl).elim
    · obtain ⟨x', as, k1, k2, k3, k4⟩ := ih e he
      refine ⟨x', b :: as, k1, by simp only [SB.exec, hb]; exact k2, by simp [k3, hne.symm], ?_⟩
      rcases ha with ⟨rfl, hp⟩ | ⟨hp, ha⟩
      · rw [List.filter_cons, if_pos hp, k4]; rfl
      · rw [List.filter_cons, if_neg (by simp [hp]), k4]
        cases a <;> first | rfl | exact (ha _ rfl).elim

omit [LinearOrder K] [BEq V] in
theorem starts_zero {as : List (SBAct K V I)} (h : .start ∉ as) : JSB.startsIn as = 0 := by
  induction as with
  | nil => rfl
  | cons a as ih =>
    simp only [List.mem_cons, not_or] at h
    have := ih h.2
    cases a <;> first | exact this | exact (h.1 rfl).elim

/-- The stream buffer of a source is an execution of its own, started once. -/
theorem path_init {xs : List (SrcAct K V I)} {c : Option Nat × Bool} {x : SB K V I} (he : Src.init.exec cfg xs = some s) (h : s.sb = some (c, x)) :
    ∃ as, SB.init.exec (cfg.sb c) as = some x ∧ JSB.startsIn as ≤ 1 ∧ ∀ a ∈ as, a.isBg = true → .bg a ∈ xs := by
  have key : ∀ (xs : List (SrcAct K V I)) (s : Src K V I), s.sb = none → ∀ s', s.exec cfg xs = some s' → ∀ c x, s'.sb = some (c, x) →
      ∃ as, SB.init.exec (cfg.sb c) as = some x ∧ JSB.startsIn as ≤ 1 ∧ ∀ a ∈ as, a.isBg = true → .bg a ∈ xs := by
    intro xs
    induction xs with
    | nil => intro s hn s' he c x hx; simp only [exec, Option.some.injEq] at he; subst he; rw [hn] at hx; simp at hx
    | cons a xs ih =>
      intro s hn s' he c x hx
      simp only [exec] at he
      split at he
      swap
      · simp at he
      rename_i s1 hs
      cases hs1 : s1.sb with
      | none =>
        obtain ⟨as, k1, k2, k3⟩ := ih s1 hs1 s' he c x hx
        exact ⟨as, k1, k2, fun b hb hp => by simp [k3 b hb hp]⟩
      | some y =>
        obtain ⟨c1, x1⟩ := y
        obtain ⟨x', as, k1, k2, k3, k4⟩ := path hs1 he
        rw [k1] at hx; cases hx
        have hst : (SB.init : SB K V I).step (cfg.sb c) .start = some x1 := by
          have hst := step_to hs
          cases hst
          case openFirst y hp hy hx => simp only [say, Option.some.injEq, Prod.mk.injEq] at hs1; obtain ⟨rfl, rfl⟩ := hs1; exact hx
          all_goals simp_all [say, setOnclose]
        refine ⟨.start :: as, by simp only [SB.exec, hst]; exact k2, by simp [JSB.startsIn, starts_zero k3], ?_⟩
        intro b hb hp
        rcases List.mem_cons.1 hb with rfl | hb
        · simp [SBAct.isBg] at hp
        · have : b ∈ as.filter (·.isBg) := List.mem_filter.2 ⟨hb, by simp [hp]⟩
          rw [k4] at this
          obtain ⟨z, hz, e⟩ := List.mem_filterMap.1 this
          cases z <;> simp only [reduceCtorEq, Option.some.injEq] at e
          subst e; simp [hz]
  exact key xs _ rfl s he c x h

variable [ReflBEq V] {xs : List (SrcAct K V I)}

omit [LinearOrder K] [BEq V] [ReflBEq V] in
theorem oneUser_path {as : List (SBAct K V I)} {b i : Nat} (h : ∀ a ∈ as, a.isBg = true → .bg a ∈ xs) (hu : ∀ a, .bg a ∈ xs → SB.OneUser b i a) :
    ∀ a ∈ as, SB.OneUser b i a := by
  intro a ha
  cases hp : a.isBg with
  | true => exact hu a (h a ha hp)
  | false => cases a <;> first | trivial | simp [SBAct.isBg] at hp

/-- **C101** what a consumer of a reader of the source received, and what it can still read, is in order a part of what the source's `read()` returned:
whatever the settings, however many readers are opened and closed, in every schedule. -/
theorem C101_part_of_read (b i : Nat) (hpk : (cfg.rdCfg i).peek = false) (he : Src.init.exec cfg xs = some s) (hu : ∀ a, .bg a ∈ xs → SB.OneUser b i a)
    {c : Option Nat × Bool} {x : SB K V I} (hx : s.sb = some (c, x)) (k : Cons K V) (hv : x.view b = some k) :
    (received k i ++ unreadOf k.ch i).Sublist (dataRead b x.log) := by
  obtain ⟨as, h1, h2, h3⟩ := path_init he hx
  exact SB.C84_part_of_read_partial b i hpk (oneUser_path h3 hu) h1 (JSB.C66_one_start_settled h1 h2) k hv

/-- **C101** with `configure_buffer(maxlen=None, auto_drop=True)`: all of it, but for an item on its way or refused because of its key. -/
theorem C101_nothing_missing (b i : Nat) (hpk : (cfg.rdCfg i).peek = false) (he : Src.init.exec cfg xs = some s) (hu : ∀ a, .bg a ∈ xs → SB.OneUser b i a)
    {x : SB K V I} (hx : s.sb = some ((none, true), x)) (k : Cons K V) (hv : x.view b = some k) :
    dataRead b x.log = received k i ++ unreadOf k.ch i ++ (x.thr b).inHand ++ refusedBy b x.log ∧ ((x.thr b).inHand ++ refusedBy b x.log).length ≤ 1 := by
  obtain ⟨as, h1, h2, h3⟩ := path_init he hx
  exact SB.C84_source_to_consumer_partial (cfg := cfg.sb (none, true)) rfl rfl b i hpk (oneUser_path h3 hu) h1 (JSB.C66_one_start_settled h1 h2) k hv

/-- **C101** the source is used properly: opened once, read and closed only while open (`info` did not raise). -/
theorem C101_protocol (he : Src.init.exec cfg xs = some s) {c : Option Nat × Bool} {x : SB K V I} (hx : s.sb = some (c, x))
    (hinfo : ∀ k, Ev.infoRaised k ∉ x.log) : protocolOk false x.log := by
  obtain ⟨as, h1, h2, h3⟩ := path_init he hx
  exact (SB.C78_protocol_partial h1 (JSB.C66_one_start_settled h1 h2) hinfo).1

omit [ReflBEq V] in
/-- Once a reader of the source has its handler, the thread was launched. -/
theorem launched_of_reader (he : Src.init.exec cfg xs = some s) (h : SrcEv.stopped ∈ s.log ∨ ∃ r, s.onclose r = .handler) :
    ∃ c x, s.sb = some (c, x) ∧ Ev.launched 0 ∈ x.log := by
  have key : (∃ ys, Src.init.exec cfg ys = some s) ∧ (SrcEv.stopped ∈ s.log ∨ (∃ r, s.onclose r = .handler) →
      ∃ c x, s.sb = some (c, x) ∧ Ev.launched 0 ∈ x.log) := by
    refine exec_ind (P := fun s : Src K V I => (∃ ys, Src.init.exec cfg ys = some s) ∧ (SrcEv.stopped ∈ s.log ∨ (∃ r, s.onclose r = .handler) →
      ∃ c x, s.sb = some (c, x) ∧ Ev.launched 0 ∈ x.log)) ?_ ⟨⟨[], rfl⟩, by simp [Src.init]⟩ he
    rintro s a s' ⟨⟨ys, hys⟩, ih⟩ hs
    have hys' : Src.init.exec cfg (ys ++ [a]) = some s' := by rw [exec_append, hys]; simp [exec, hs]
    refine ⟨⟨_, hys'⟩, fun h => ?_⟩
    have keep : (SrcEv.stopped ∈ s.log ∨ ∃ r, s.onclose r = .handler) → ∃ c x, s'.sb = some (c, x) ∧ Ev.launched 0 ∈ x.log := by
      intro h0
      obtain ⟨c, x, hx, hl⟩ := ih h0
      rcases step_acts hs hx with ⟨e, -⟩ | ⟨x', b, e, hb, -⟩
      · exact ⟨c, x, e, hl⟩
      · refine ⟨c, x', e, ?_⟩
        exact SB.launched_mono hb hl
    have hst := step_to hs
    cases hst
    case opened c x b hp hx hb =>
      obtain ⟨hg, -, -⟩ := good_exec hys
      have hn := hg.idle c x hx (by simp [hp])
      obtain ⟨as, h1, -⟩ := path_init hys hx
      have := SB.launched_of_session h1 hb hn
      rw [sb_zero hys hx (by simp [hp]) hb] at this
      exact ⟨c, x, by simpa [say, setOnclose] using hx, this⟩
    all_goals refine keep ?_
    all_goals try simp only [say, setOnclose] at h
    all_goals first
      | exact h
      | (simp at h; exact h)
      | (refine h.imp (fun h => by simpa using h) fun ⟨r, hr⟩ => ?_; grind)
      | grind
  exact key.2 h

/-- **C101** and closed when its readers are: once the source has stopped its stream buffer (on the last `close()` of a reader), its thread does at most
eight more steps, with at most one more `read()` of the source, and until `close()` of the source has been called it can do one, whatever the
source answers. -/
theorem C101_source_closed {ys : List (SrcAct K V I)} (he : Src.init.exec cfg xs = some s) (hst : SrcEv.stopped ∈ s.log) (he' : s.exec cfg ys = some s') :
    ∃ c x x', s.sb = some (c, x) ∧ s'.sb = some (c, x') ∧ (∃ l, x'.log = x.log ++ l ∧ l.countP (isReadBy 0) ≤ 1 ∧ l.countP (isStoreBy 0) ≤ 1) ∧
      (bgActs ys).countP (·.ofThread 0) ≤ 8 ∧
      ((∃ ok, Ev.closed 0 ok ∈ x'.log) ∨ (∃ s2, s'.step cfg (.bg (.thr 0)) = some s2) ∨ (∀ r, ∃ s2, s'.step cfg (.bg (.readOk 0 r)) = some s2) ∨
        ∀ ok, ∃ s2, s'.step cfg (.bg (.close 0 ok)) = some s2) := by
  obtain ⟨c, x, hx, hl⟩ := launched_of_reader he (.inl hst)
  obtain ⟨as, h1, h2, -⟩ := path_init he hx
  obtain ⟨x', bs, k1, k2, k3, k4⟩ := path hx he'
  have hall : SB.init.exec (cfg.sb c) (as ++ bs) = some x' := by rw [SB.exec_append, h1]; exact k2
  have hone : JSB.startsIn (as ++ bs) ≤ 1 := by
    have : ∀ l : List (SBAct K V I), JSB.startsIn (l ++ bs) = JSB.startsIn l := by
      intro l
      induction l with
      | nil => exact starts_zero k3
      | cons a l ih => cases a <;> simp only [List.cons_append, JSB.startsIn, ih]
    rw [this]; exact h2
  have hset := JSB.C66_one_start_settled hall hone
  obtain ⟨hs1, hs2⟩ := hset.split h1
  have hf := ((good_exec he).2.1.used c x hx).2.2.2 hst
  have hev : Ev.eventSet 0 ∈ x.log := ((SB.good h1).log.flag 0).1 hf
  obtain ⟨j1, l, j2, j3, j4⟩ := SB.C77_stop_prompt_partial as bs h1 k2 hs2 hs1 0 hev
  have hcount : (bgActs ys).countP (·.ofThread 0) ≤ 8 := by
    rw [← k4, List.countP_filter]
    exact Nat.le_trans (List.countP_mono_left fun a _ h => by simp at h; exact h.1) j1
  refine ⟨c, x, x', hx, k1, ⟨l, j2, j3, j4⟩, hcount, ?_⟩
  by_cases hid : (x'.thr 0).idle = true
  · left
    refine (SB.good hall).log.closed' 0 ?_
    have hl' : Ev.launched 0 ∈ x'.log := by rw [j2]; simp [hl]
    obtain ⟨m1, m2⟩ := (SB.good hall).log.launched 0 hl'
    cases hp : x'.thr 0 <;> simp_all [TPC.idle]
  · right
    rcases SB.C38_never_stuck hall 0 (by simpa using hid) with ⟨y, hy⟩ | hy | hy
    · exact .inl ⟨_, by simp only [step, SBAct.isBg, if_true, k1, hy]; rfl⟩
    · exact .inr (.inl fun r => let ⟨y, hy⟩ := hy r; ⟨_, by simp only [step, SBAct.isBg, if_true, k1, hy]; rfl⟩)
    · exact .inr (.inr fun r => let ⟨y, hy⟩ := hy r; ⟨_, by simp only [step, SBAct.isBg, if_true, k1, hy]; rfl⟩)

end Src
end S2P
