import Verif.Model.ObjSource
import Verif.Props.SourcePath
import Verif.Props.SourceObj
import Verif.Props.CounterLoop
/-
C148, C149: StreamSources that are given objects, in particular the example `SimpleCounterString`.
-/
namespace S2P
open Spec
variable {σ K V I : Type}
namespace ObjSrc
section
variable [LinearOrder K] [BEq V] {o : SrcObj σ K V I} {cfg : SrcCfg K V} {s s' : ObjSrc σ K V I} {xs : List (OSAct K V I)}

/-- The actions of the stream buffer below. -/
def objActs : List (OSAct K V I) → List (ObjAct K V I) := List.filterMap fun | .obj x => some x | _ => none

theorem act_start {y : SB K V I} {st st' : σ} {x : ObjAct K V I} (h : ObjSB.act o y st x = some (.start, st')) : x = .other .start := by
  unfold ObjSB.act at h
  cases x
  all_goals
    dsimp only at h
    repeat' split at h
    all_goals simp at h
  exact congrArg _ h.1

/-- Once there is a stream buffer, every step is one of it, or leaves it alone. -/
theorem step_path {x : OSAct K V I} (hs : s.step o cfg x = some s') {c : Option Nat × Bool} {y : SB K V I} (h : s.src.sb = some (c, y))
    (op : Nat → Option σ) : ∃ y' op', s'.src.sb = some (c, y') ∧
      ((y' = y ∧ op' = op ∧ s'.st = s.st ∧ ∀ z, x ≠ .obj z) ∨
        ∃ z, (⟨s.st, y, op⟩ : ObjSB σ K V I).step o (cfg.sb c) z = some ⟨s'.st, y', op'⟩ ∧ z ≠ .other .start ∧
          (x = .obj z ∨ ((z = .other .stop ∨ z = .other .stopEnd) ∧ ∀ z, x ≠ .obj z))) := by
  cases x with
  | user a =>
    simp only [step] at hs
    split at hs
    swap
    · cases hs
    rename_i hu
    obtain ⟨y1, hy1, rfl⟩ := Option.map_eq_some_iff.1 hs
    rcases Src.step_acts hy1 h with ⟨h1, -⟩ | ⟨x', b, h1, h2, h3, h4⟩
    · exact ⟨y, op, h1, .inl ⟨rfl, rfl, rfl, by simp⟩⟩
    · rcases h4 with ⟨rfl, -⟩ | ⟨h4, -⟩
      · simp [SrcAct.isUser] at hu
      refine ⟨x', op, h1, .inr ⟨.other b, ?_, by simpa using h3, .inr ⟨?_, by simp⟩⟩⟩
      · cases b <;> simp [SBAct.isBg] at h4 h3
        all_goals simp [ObjSB.step, ObjSB.act, SBAct.notSource, SB.stores, h2]
      · cases b <;> simp [SBAct.isBg] at h4 h3 ⊢
  | obj z =>
    simp only [step, h] at hs
    split at hs
    · cases hs
    rename_i a st' hact
    obtain ⟨y1, hy1, rfl⟩ := Option.map_eq_some_iff.1 hs
    rcases Src.step_acts hy1 h with ⟨h1, h2⟩ | ⟨x', b, h1, h2, h3, h4⟩
    · exact absurd rfl (h2 a)
    · rcases h4 with ⟨h4, -⟩ | ⟨-, h4⟩
      swap
      · exact absurd rfl (h4 a)
      injection h4 with h4
      subst h4
      have hstep : ∃ op', (⟨s.st, y, op⟩ : ObjSB σ K V I).step o (cfg.sb c) z = some ⟨st', x', op'⟩ := by
        simp only [ObjSB.step, hact, h2, Option.map_some]; exact ⟨_, rfl⟩
      obtain ⟨op', hstep⟩ := hstep
      refine ⟨x', op', h1, .inr ⟨z, hstep, ?_, .inl rfl⟩⟩
      · rintro rfl
        simp only [ObjSB.act, SBAct.notSource, SB.stores] at hact
        simp at hact
        exact h3 hact.1.symm

theorem path {c : Option Nat × Bool} {y : SB K V I} (he : s.exec o cfg xs = some s') (h : s.src.sb = some (c, y)) (op : Nat → Option σ) :
    ∃ y' op' zs, s'.src.sb = some (c, y') ∧ (⟨s.st, y, op⟩ : ObjSB σ K V I).exec o (cfg.sb c) zs = some ⟨s'.st, y', op'⟩ ∧ .other .start ∉ zs ∧
      (∀ z ∈ zs, z ∈ objActs xs ∨ z = .other .stop ∨ z = .other .stopEnd) ∧
      ∀ p : ObjAct K V I → Bool, p (.other .stop) = false → p (.other .stopEnd) = false → zs.countP p = (objActs xs).countP p := by
  induction xs generalizing s y op with
  | nil => simp only [exec, Option.some.injEq] at he; subst he; exact ⟨y, op, [], h, rfl, by simp, by simp, by simp [objActs]⟩
  | cons x xs ih =>
    simp only [exec] at he
    split at he
    swap
    · cases he
    rename_i s1 hs1
    obtain ⟨y1, op1, h1, h2⟩ := step_path hs1 h op
    obtain ⟨y', op', zs, k1, k2, k3, k4, k5⟩ := ih he h1 op1
    rcases h2 with ⟨rfl, rfl, h2, h3⟩ | ⟨z, h2, h3, h4⟩
    · refine ⟨y', op', zs, k1, by rw [← h2]; exact k2, k3, fun z hz => ?_, fun p p1 p2 => ?_⟩
      · rcases k4 z hz with k | k
        · refine .inl ?_; simp only [objActs, List.mem_filterMap] at k ⊢
          obtain ⟨a, ha, ha'⟩ := k; exact ⟨a, by simp [ha], ha'⟩
        · exact .inr k
      · rw [k5 p p1 p2]
        cases x with
        | user a => simp [objActs]
        | obj z => exact absurd rfl (h3 z)
    · refine ⟨y', op', z :: zs, k1, by simp only [ObjSB.exec, h2]; exact k2, ?_, ?_, ?_⟩
      · simp only [List.mem_cons, not_or]; exact ⟨fun h => h3 h.symm, k3⟩
      · intro w hw
        rcases List.mem_cons.1 hw with rfl | hw
        · rcases h4 with rfl | ⟨h4, -⟩
          · exact .inl (by simp [objActs])
          · exact .inr h4
        · rcases k4 w hw with k | k
          · refine .inl ?_; simp only [objActs, List.mem_filterMap] at k ⊢
            obtain ⟨a, ha, ha'⟩ := k; exact ⟨a, by simp [ha], ha'⟩
          · exact .inr k
      · intro p p1 p2
        rw [List.countP_cons, k5 p p1 p2]
        rcases h4 with rfl | ⟨h4, h5⟩
        · simp [objActs, List.countP_cons]
        · have : objActs (x :: xs) = objActs xs := by
            cases x with
            | user a => rfl
            | obj z => exact absurd rfl (h5 z)
          rw [this]
          rcases h4 with rfl | rfl <;> simp [p1, p2]

/-- Before the first `open_reader()`: nothing is done with the object. -/
theorem step_before {x : OSAct K V I} (hs : s.step o cfg x = some s') (h : s.src.sb = none) :
    s'.st = s.st ∧ (∀ z, x ≠ .obj z) ∧ (s'.src.sb = none ∨ ∃ c, s'.src.sb = some (c, { (SB.init : SB K V I) with start := some .chk1 })) := by
  cases x with
  | obj z => simp [step, h] at hs
  | user a =>
    simp only [step] at hs
    split at hs
    swap
    · cases hs
    obtain ⟨y1, hy1, rfl⟩ := Option.map_eq_some_iff.1 hs
    refine ⟨rfl, by simp, ?_⟩
    have hst := Src.step_to hy1
    cases hst
    case openFirst hp h1 hx _ =>
      refine .inr ⟨_, congrArg some (Prod.ext rfl ?_)⟩
      simp only [SB.step] at hx
      rw [if_pos (show (SB.init : SB K V I).start = none from rfl)] at hx
      injection hx with hx
      exact hx.symm
    all_goals try simp only [Src.say, Src.setOnclose] at *
    all_goals first
      | exact .inl h
      | (exact .inl (by assumption))
      | simp_all

/-- The stream buffer of the source, as a stream buffer for the object, started once. -/
theorem path_init {st : σ} (he : (init st).exec o cfg xs = some s) {c : Option Nat × Bool} {y : SB K V I} (h : s.src.sb = some (c, y)) :
    ∃ zs op, (ObjSB.init st).exec o (cfg.sb c) (.other .start :: zs) = some ⟨s.st, y, op⟩ ∧ .other .start ∉ zs ∧
      (∀ z ∈ zs, z ∈ objActs xs ∨ z = .other .stop ∨ z = .other .stopEnd) ∧
      ∀ p : ObjAct K V I → Bool, p (.other .stop) = false → p (.other .stopEnd) = false → zs.countP p = (objActs xs).countP p := by
  have key : ∀ (xs : List (OSAct K V I)) (s0 : ObjSrc σ K V I), s0.src.sb = none → s0.exec o cfg xs = some s →
      ∃ zs op, (ObjSB.init s0.st).exec o (cfg.sb c) (.other .start :: zs) = some ⟨s.st, y, op⟩ ∧ .other .start ∉ zs ∧
      (∀ z ∈ zs, z ∈ objActs xs ∨ z = .other .stop ∨ z = .other .stopEnd) ∧
      ∀ p : ObjAct K V I → Bool, p (.other .stop) = false → p (.other .stopEnd) = false → zs.countP p = (objActs xs).countP p := by
    intro xs
    induction xs with
    | nil => intro s0 h0 he; simp only [exec, Option.some.injEq] at he; subst he; rw [h0] at h; cases h
    | cons x xs ih =>
      intro s0 h0 he
      simp only [exec] at he
      split at he
      swap
      · cases he
      rename_i s1 hs1
      obtain ⟨k1, k2, k3⟩ := step_before hs1 h0
      have hx : objActs (x :: xs) = objActs xs := by
        cases x with
        | user a => rfl
        | obj z => exact absurd rfl (k2 z)
      rw [hx, ← k1]
      rcases k3 with k3 | ⟨c', k3⟩
      · exact ih s1 k3 he
      · obtain ⟨y', op', zs, j1, j2, j3, j4, j5⟩ := path he k3 (fun _ => none)
        rw [h] at j1
        cases j1
        exact ⟨zs, op', by simpa [ObjSB.exec, ObjSB.step, ObjSB.act, ObjSB.init, SBAct.notSource, SB.stores, SB.step, SB.init] using j2, j3, j4, j5⟩
  exact key xs (init st) rfl he

theorem calm_no_start {cfg : SBCfg K V} {zs : List (ObjAct K V I)} (hn : .other .start ∉ zs) (z : ObjSB σ K V I) : z.Calm o cfg zs := by
  induction zs generalizing z with
  | nil => trivial
  | cons x zs ih =>
    simp only [List.mem_cons, not_or] at hn
    exact ⟨fun h => absurd h.symm hn.1, fun z' _ => ih hn.2 z'⟩

theorem calm {cfg : SBCfg K V} {zs : List (ObjAct K V I)} {st : σ} (hn : .other .start ∉ zs) :
    (ObjSB.init st : ObjSB σ K V I).Calm o cfg (.other .start :: zs) := ⟨fun _ _ => rfl, fun z _ => calm_no_start hn z⟩

/-- `start()` has not got past `open()`. -/
def Early : StartPC → Bool
  | .mkBuf | .launch => false
  | _ => true

/-- Started once: until it is opened the object is as it was, and it is opened once. -/
structure Once (o : SrcObj σ K V I) (st : σ) (z : ObjSB σ K V I) : Prop where
  idle : z.sb.start ≠ none → ∀ t, (z.sb.thr t).idle = true
  first : ∀ p, z.sb.start = some p → Early p = true → z.st = st
  from' : ∀ t x, z.opened t = some x → o.open' st = (.ok (), x)

theorem Once.step {cfg : SBCfg K V} {st : σ} {z z' : ObjSB σ K V I} {x : ObjAct K V I} (h : Once o st z) (hs : z.step o cfg x = some z')
    (hx : x ≠ .other .start) : Once o st z' := by
  obtain ⟨h1, h2, h3⟩ := h
  have hb := ObjSB.below hs
  have hi : z'.sb.start ≠ none → ∀ t, (z'.sb.thr t).idle = true := by
    cases hb with
    | other a hx' ha hk hr hs e1 e2 =>
      refine JSB.after_start hs ?_ h1
      rintro rfl
      rcases hx' with hx' | ⟨t, hx'⟩ | ⟨t, e, hx'⟩
      · exact hx hx'
      · cases hx'
      · cases hx'
    | openOk hx' hs h0 e2 => exact JSB.after_start hs (by simp) h1
    | openRaise hx' e hs h0 e2 => exact JSB.after_start hs (by simp) h1
    | bufOk hx' i hs h0 e1 e2 => exact JSB.after_start hs (by simp) h1
    | bufRaise hx' e hs h0 e1 e2 => exact JSB.after_start hs (by simp) h1
    | readOk t hx' r hs h0 e2 => exact JSB.after_start hs (by simp) h1
    | readRaise t hx' e hs h0 e2 => exact JSB.after_start hs (by simp) h1
    | close t hx' ok hs h0 hok e2 => exact JSB.after_start hs (by simp) h1
  refine ⟨hi, ?_, fun t y hy => ?_⟩
  · have back : ∀ a, z.sb.step cfg a = some z'.sb → a ≠ .start → ∀ p, z'.sb.start = some p → Early p = true → ∃ q, z.sb.start = some q ∧ Early q = true := by
      intro a ha hne p hp hE
      have hst := SB.step_to ha
      clear ha hi hb hs
      generalize z'.sb = y at *
      cases hst
      all_goals try simp only [SB.say, SB.setThr, SB.setBuf, SB.setEvent, SB.setNext, SB.setDrop, SB.setInfo, SB.newSess, SB.running] at *
      all_goals first
        | exact ⟨p, hp, hE⟩
        | (refine ⟨_, ‹_›, rfl⟩)
        | grind [Early]
    have busy : ∀ a, z.sb.step cfg a = some z'.sb → (∃ t r, a = .readOk t r) ∨ (∃ t e, a = .readRaise t e) ∨ (∃ t ok, a = .close t ok) →
        z.sb.start = none := by
      intro a ha hk
      by_contra hn
      have hid := h1 hn
      have hst := SB.step_to ha
      clear ha hi hb hs
      generalize z'.sb = y at *
      rcases hk with ⟨t, r, rfl⟩ | ⟨t, e, rfl⟩ | ⟨t, ok, rfl⟩ <;> cases hst <;> (rename_i ht; have := hid t; rw [ht] at this; cases this)
    have none' : ∀ a, z.sb.step cfg a = some z'.sb → a ≠ .start → z.sb.start = none → z'.sb.start = none := by
      intro a ha hne hn
      have hst := SB.step_to ha
      clear ha hi hb hs
      generalize z'.sb = y at *
      cases hst
      all_goals try simp only [SB.say, SB.setThr, SB.setBuf, SB.setEvent, SB.setNext, SB.setDrop, SB.setInfo, SB.newSess, SB.running] at *
      all_goals first
        | exact hn
        | grind
    intro p hp hE
    cases hb with
    | other a hx' ha hk hr hs e1 e2 =>
      have hne : a ≠ .start := by
        rintro rfl
        rcases hx' with hx' | ⟨t, hx'⟩ | ⟨t, e, hx'⟩
        · exact hx hx'
        · cases hx'
        · cases hx'
      obtain ⟨q, k1, k2⟩ := back a hs hne p hp hE
      rw [e1]; exact h2 q k1 k2
    | bufOk hx' i hs h0 e1 e2 => obtain ⟨q, k1, k2⟩ := back _ hs (by simp) p hp hE; rw [e1]; exact h2 q k1 k2
    | bufRaise hx' e hs h0 e1 e2 => obtain ⟨q, k1, k2⟩ := back _ hs (by simp) p hp hE; rw [e1]; exact h2 q k1 k2
    | openOk hx' hs h0 e2 =>
      have hst := SB.step_to hs
      clear hs hi back busy none'
      generalize z'.sb = y at *
      cases hst
      simp [SB.say] at hp
      subst hp
      simp [Early] at hE
    | openRaise hx' e hs h0 e2 =>
      have hst := SB.step_to hs
      clear hs hi back busy none'
      generalize z'.sb = y at *
      cases hst
      simp [SB.say] at hp
    | readOk t hx' r hs h0 e2 => rw [none' _ hs (by simp) (busy _ hs (by simp))] at hp; cases hp
    | readRaise t hx' e hs h0 e2 => rw [none' _ hs (by simp) (busy _ hs (by simp))] at hp; cases hp
    | close t hx' ok hs h0 hok e2 => rw [none' _ hs (by simp) (busy _ hs (by simp))] at hp; cases hp
  · rcases ObjSB.opened_step hb t y hy with k | ⟨-, -, k1, k2⟩
    · exact h3 t y k
    · rw [h2 _ k1 rfl] at k2; exact k2

theorem once {cfg : SBCfg K V} {zs : List (ObjAct K V I)} {st : σ} {z : ObjSB σ K V I} (hn : .other .start ∉ zs)
    (he : (ObjSB.init st).exec o cfg (.other .start :: zs) = some z) : Once o st z := by
  have key : ∀ (zs : List (ObjAct K V I)) (w : ObjSB σ K V I), .other .start ∉ zs → Once o st w → w.exec o cfg zs = some z → Once o st z := by
    intro zs
    induction zs with
    | nil => intro w _ h he; simp only [ObjSB.exec, Option.some.injEq] at he; exact he ▸ h
    | cons x zs ih =>
      intro w hn h he
      simp only [List.mem_cons, not_or] at hn
      simp only [ObjSB.exec] at he
      split at he
      · exact ih _ hn.2 (h.step ‹_› fun e => hn.1 e.symm) he
      · cases he
  simp only [ObjSB.exec] at he
  split at he
  swap
  · cases he
  rename_i w hw
  refine key zs w hn ?_ he
  have hw' : w = ⟨st, { (SB.init : SB K V I) with start := some .chk1 }, fun _ => none⟩ := by
    simp [ObjSB.step, ObjSB.act, ObjSB.init, SBAct.notSource, SB.stores, SB.step, SB.init] at hw
    rw [← hw]; rfl
  subst hw'
  exact ⟨fun _ _ => rfl, fun _ _ _ => rfl, by simp⟩

variable [ReflBEq V]

omit [ReflBEq V] in
/-- **C148** nothing is done with the object before the first `open_reader()`, however the buffer is configured. -/
theorem C148_untouched {st : σ} (he : (init st).exec o cfg xs = some s) (h : s.src.sb = none) : s.st = st := by
  have key : ∀ (xs : List (OSAct K V I)) (s0 : ObjSrc σ K V I), s0.src.sb = none → s0.exec o cfg xs = some s → s.st = s0.st := by
    intro xs
    induction xs with
    | nil => intro s0 _ he; simp only [exec, Option.some.injEq] at he; rw [he]
    | cons x xs ih =>
      intro s0 h0 he
      simp only [exec] at he
      split at he
      swap
      · cases he
      rename_i s1 hs1
      obtain ⟨k1, -, k3⟩ := step_before hs1 h0
      rcases k3 with k3 | ⟨c, k3⟩
      · rw [ih s1 k3 he, k1]
      · obtain ⟨y', -, -, j1, -⟩ := path he k3 (fun _ => none)
        rw [h] at j1; cases j1
  exact key xs _ rfl he

omit [ReflBEq V] in
/-- **C148** the object is opened from the state it was made in, and what `read()` answers to the source thread is what it answers, called again and again,
from there. -/
theorem C148_fresh_start {st : σ} (he : (init st).exec o cfg xs = some s) {c : Option Nat × Bool} {y : SB K V I} (h : s.src.sb = some (c, y)) (t : Nat)
    (ht : answered t y.log ≠ []) :
    ∃ st0, o.open' st = (.ok (), st0) ∧ answered t y.log = answers o.read st0 (answered t y.log).length := by
  obtain ⟨zs, op, h1, h2, -⟩ := path_init he h
  have hA := ObjSB.acc h1 (ObjSB.calm_settled h1 (calm h2))
  have k1 : y.thr t ≠ .unborn := fun e => ht (hA.knows.fresh t (.inl e))
  have k2 : y.thr t ≠ .fresh := fun e => ht (hA.knows.fresh t (.inr e))
  obtain ⟨st0, k3⟩ := Option.isSome_iff_exists.1 (hA.knows.live t k1 k2)
  exact ⟨st0, (once h2 h1).from' t st0 k3, hA.knows.seen t st0 k3⟩

omit [ReflBEq V] in
/-- **C148** in all else it is a StreamSource: every history of it is a history of a new StreamSource (to which C45, C46, C101, C127, C137 and C138 apply), in which
the calls of the user are the same. -/
theorem C148_is_source {st : σ} (he : (init st).exec o cfg xs = some s) :
    ∃ as, (Src.init : Src K V I).exec cfg as = some s.src ∧ as.filter SrcAct.isUser = xs.filterMap fun x => match x with
      | .user a => some a
      | .obj _ => none := by
  have key : ∀ (xs : List (OSAct K V I)) (s0 : ObjSrc σ K V I), s0.exec o cfg xs = some s →
      ∃ as, s0.src.exec cfg as = some s.src ∧ as.filter SrcAct.isUser = xs.filterMap fun x => match x with
        | .user a => some a
        | .obj _ => none := by
    intro xs
    induction xs with
    | nil => intro s0 he; simp only [exec, Option.some.injEq] at he; subst he; exact ⟨[], rfl, rfl⟩
    | cons x xs ih =>
      intro s0 he
      simp only [exec] at he
      split at he
      swap
      · cases he
      rename_i s1 hs1
      obtain ⟨as, h1, h2⟩ := ih s1 he
      cases x with
      | user a =>
        simp only [step] at hs1
        split at hs1
        swap
        · cases hs1
        rename_i ha
        obtain ⟨y, hy, rfl⟩ := Option.map_eq_some_iff.1 hs1
        exact ⟨a :: as, by simp only [Src.exec, hy]; exact h1, by rw [List.filter_cons_of_pos ha, h2]; rfl⟩
      | obj z =>
        simp only [step] at hs1
        split at hs1
        · cases hs1
        split at hs1
        · cases hs1
        rename_i a _ _
        obtain ⟨y, hy, rfl⟩ := Option.map_eq_some_iff.1 hs1
        exact ⟨.bg a :: as, by simp only [Src.exec, hy]; exact h1, by rw [List.filter_cons_of_neg (by simp [SrcAct.isUser]), h2]; rfl⟩
  exact key xs _ he

omit [ReflBEq V] in
/-- **C148** and the info the readers show is the object's, just after that `open()`. -/
theorem C148_info {st : σ} (he : (init st).exec o cfg xs = some s) {c : Option Nat × Bool} {y : SB K V I} (h : s.src.sb = some (c, y)) (t : Nat) (i : I)
    (ht : Ev.bufferMade t i ∈ y.log) : ∃ st0, o.open' st = (.ok (), st0) ∧ o.info st0 = .ok i := by
  obtain ⟨zs, op, h1, h2, -⟩ := path_init he h
  obtain ⟨st0, k1, k2⟩ := (ObjSB.acc h1 (ObjSB.calm_settled h1 (calm h2))).info t i ht
  exact ⟨st0, (once h2 h1).from' t st0 k1, k2⟩

/-- **C148** if `read()` of the freshly opened object never raises and the keys of its data increase, the stream never dies: for every configuration but
`configure_buffer(maxlen=None, auto_drop=False)`, however many readers are opened and closed. -/
theorem C148_never_dies (ho : ObjSB.Orderly o) (hf : ∀ v k, o.key v = .ok k → cfg.key v = k) {st : σ} (he : (init st).exec o cfg xs = some s)
    {c : Option Nat × Bool} {y : SB K V I} (h : s.src.sb = some (c, y)) (hc : c.1 ≠ none ∨ c.2 = true) : ∀ e ∈ y.log, isDeath e = false := by
  obtain ⟨zs, op, h1, h2, -⟩ := path_init he h
  exact ObjSB.C87_never_dies (cfg := cfg.sb c) ho hf hc h1 (calm h2)

omit [LinearOrder K] [BEq V] [ReflBEq V] in
theorem user_path {zs : List (ObjAct K V I)} {b i : Nat} (h : ∀ z ∈ zs, z ∈ objActs xs ∨ z = .other .stop ∨ z = .other .stopEnd)
    (hu : ∀ a, .obj (.other a) ∈ xs → SB.OneUser b i a) : ∀ a, .other a ∈ .other .start :: zs → SB.OneUser b i a := by
  intro a ha
  rcases List.mem_cons.1 ha with ha | ha
  · injection ha with ha; rw [ha]; trivial
  rcases h _ ha with k | k | k
  · simp only [objActs, List.mem_filterMap] at k
    obtain ⟨x, hx, hx'⟩ := k
    cases x <;> simp at hx'
    exact hu a (hx' ▸ hx)
  · injection k with k; rw [k]; trivial
  · injection k with k; rw [k]; trivial

/-- **C148** and with `configure_buffer(maxlen=None)`: what a reader's consumer received, then what it can still read, then what the source thread holds,
are the data the freshly opened object returns, from the first, without a gap. -/
theorem C148_to_consumer (ho : ObjSB.Orderly o) (hf : ∀ v k, o.key v = .ok k → cfg.key v = k) (b i : Nat) (hpk : (cfg.rdCfg i).peek = false) {st : σ}
    (he : (init st).exec o cfg xs = some s) {y : SB K V I} (h : s.src.sb = some ((none, true), y)) (hu : ∀ a, .obj (.other a) ∈ xs → SB.OneUser b i a)
    (k : Cons K V) (hv : y.view b = some k) :
    ∃ st0, o.open' st = (.ok (), st0) ∧
      received k i ++ unreadOf k.ch i ++ (y.thr b).inHand = dataOf (answers o.read st0 (answered b y.log).length) := by
  obtain ⟨zs, op, h1, h2, h3, -⟩ := path_init he h
  have hset := ObjSB.calm_settled h1 (calm h2)
  obtain ⟨bs, j1, j2, j3⟩ := ObjSB.real_one h1 hset (user_path h3 hu)
  have hall := ObjSB.C87_all_stored (cfg := cfg.sb (none, true)) ho hf h1 (calm h2) b
  rw [← SB.C63_unbounded (cfg := cfg.sb (none, true)) rfl rfl b i hpk j3 j1 k hv] at hall
  have hA := ObjSB.acc h1 hset
  obtain ⟨x, hx, -⟩ := Option.map_eq_some_iff.1 hv
  obtain ⟨st0, hst0⟩ : ∃ st0, op b = some st0 := Option.isSome_iff_exists.1 (ObjSB.buf_opened h1 hset b (by rw [hx]; rfl))
  refine ⟨st0, (once h2 h1).from' b st0 hst0, ?_⟩
  rw [← hA.knows.seen b st0 hst0, ← dataRead_eq]
  exact hall

end
end ObjSrc

namespace Counter
variable {cfg : SrcCfg Int (List Char)} {start stop : Int} {s s' : ObjSrc St Int (List Char) Info} {xs ys : List (OSAct Int (List Char) Info)}

/-- **C149** examples/stream_source.py `SimpleCounterString(start, stop)` with `configure_buffer(maxlen=None)`: when the source thread has done
`6 * (stop - start) + 10` steps, a consumer of a reader has received, or can read, exactly `s{start}`, ..., `s{stop-1}`; however many readers are opened
and closed, also if all of them are closed. -/
theorem C149_all_delivered (hf : ∀ v k, (counter start stop).key v = .ok k → cfg.key v = k) (i : Nat) (hpk : (cfg.rdCfg i).peek = false)
    (he : (ObjSrc.init new).exec (counter start stop) cfg xs = some s) {y : SB Int (List Char) Info} (h : s.src.sb = some ((none, true), y))
    (hu : ∀ a, .obj (.other a) ∈ xs → SB.OneUser 0 i a) (k : Cons Int (List Char)) (hv : y.view 0 = some k)
    (hk : 6 * (stop - start).toNat + 10 ≤ (ObjSrc.objActs xs).countP (·.ofThread 0)) :
    received k i ++ unreadOf k.ch i = labels start (stop - start).toNat := by
  obtain ⟨zs, op, h1, h2, h3, h4⟩ := ObjSrc.path_init he h
  refine C88_counter_delivers (cfg := cfg.sb (none, true)) hf rfl rfl 0 i hpk h1 (ObjSrc.calm h2) (ObjSrc.user_path h3 hu) k hv ?_
  rw [List.countP_cons, h4 (·.ofThread 0) rfl rfl]
  omega

/-- **C149** what the source thread reads: `s{start}`, `s{start+1}`, ..., one per `read()`, nothing after `s{stop-1}`. -/
theorem C149_data (he : (ObjSrc.init new).exec (counter start stop) cfg xs = some s) {c : Option Nat × Bool} {y : SB Int (List Char) Info}
    (h : s.src.sb = some (c, y)) (t : Nat) : dataRead t y.log = labels start (min (y.log.countP (isReadBy t)) (stop - start).toNat) := by
  obtain ⟨zs, op, h1, h2, -⟩ := ObjSrc.path_init he h
  exact C87_counter_data h1 (ObjSrc.calm h2) t

/-- **C149** the info of the readers: opened once, whatever was opened and closed. -/
theorem C149_info (he : (ObjSrc.init new).exec (counter start stop) cfg xs = some s) {c : Option Nat × Bool} {y : SB Int (List Char) Info}
    (h : s.src.sb = some (c, y)) (t : Nat) (i : Info) (ht : Ev.bufferMade t i ∈ y.log) : i = { start := start, stop := stop, openCount := 1 } := by
  obtain ⟨st0, h1, h2⟩ := ObjSrc.C148_info he h t i ht
  rw [opened_eq h1] at h2
  simp only [counter, Except.ok.injEq] at h2
  rw [← h2]; rfl

/-- **C149** the stream of the counter never dies, for every configuration but `configure_buffer(maxlen=None, auto_drop=False)`. -/
theorem C149_never_dies (hf : ∀ v k, (counter start stop).key v = .ok k → cfg.key v = k)
    (he : (ObjSrc.init new).exec (counter start stop) cfg xs = some s) {c : Option Nat × Bool} {y : SB Int (List Char) Info}
    (h : s.src.sb = some (c, y)) (hc : c.1 ≠ none ∨ c.2 = true) : ∀ e ∈ y.log, isDeath e = false :=
  ObjSrc.C148_never_dies orderly hf he h hc

/-- **C149** `for x in reader: ...` over a reader of the counter, `configure_buffer(maxlen=None)`: when the source thread has done
`6 * (stop - start) + 10` steps and after that the loop two per unread item (at most `stop - start` items; two more steps if it is just looking at the stop
event), the loop's body has been given `s{start}`, ..., `s{stop-1}`, in order, each
once. (The loop is not just looking at the stop event, or not all readers are closed yet; it is not broken off.) -/
theorem C149_loop (hf : ∀ v k, (counter start stop).key v = .ok k → cfg.key v = k) (i : Nat) (hpk : (cfg.rdCfg i).peek = false)
    (hstr : (cfg.rdCfg i).strict = false) (he : (ObjSrc.init new).exec (counter start stop) cfg xs = some s) {y y' : SB Int (List Char) Info}
    (h : s.src.sb = some ((none, true), y)) (he' : s.exec (counter start stop) cfg ys = some s') (h' : s'.src.sb = some ((none, true), y'))
    (hu : ∀ a, .obj (.other a) ∈ xs ++ ys → SB.OneUser 0 i a)
    (hstay : ∀ a, .obj (.other a) ∈ ys → SB.isLeave 0 i a = false) (k : Cons Int (List Char)) (hv : y.view 0 = some k)
    (hk : 6 * (stop - start).toNat + 10 ≤ (ObjSrc.objActs xs).countP (·.ofThread 0))
    (hrun : (BetweenReads (k.pc i) ∧ 2 * (unreadOf k.ch i).length ≤ (ObjSrc.objActs ys).countP (·.isGo 0 i)) ∨
      (SB.InLoop (k.pc i) ∧ (∀ k', y'.view 0 = some k' → k'.stopped = false) ∧
        2 * (unreadOf k.ch i).length + 2 ≤ (ObjSrc.objActs ys).countP (·.isGo 0 i))) :
    (unreadOf k.ch i).length ≤ (stop - start).toNat ∧ ∃ k', y'.view 0 = some k' ∧ received k' i = labels start (stop - start).toNat := by
  obtain ⟨zs, op, h1, h2, h3, h4⟩ := ObjSrc.path_init he h
  obtain ⟨y1, op', zs', j0, j1, j2, j3, j4⟩ := ObjSrc.path he' h op
  rw [h'] at j0
  cases j0
  have hcalm : (ObjSB.init new : ObjSB St Int (List Char) Info).Calm (counter start stop) (cfg.sb (none, true)) ((.other .start :: zs) ++ zs') :=
    ObjSrc.calm fun e => (List.mem_append.1 e).elim h2 j2
  refine C93_counter_loop (cfg := cfg.sb (none, true)) hf rfl rfl 0 i hpk hstr h1 j1 hcalm ?_ ?_ k hv ?_ (by rwa [j4 (·.isGo 0 i) rfl rfl])
  · intro a ha
    rcases List.mem_append.1 ha with ha | ha
    · exact ObjSrc.user_path h3 (fun a ha => hu a (by simp [ha])) a ha
    · exact ObjSrc.user_path j3 (fun a ha => hu a (by simp [ha])) a (by simp [ha])
  · intro a ha
    rcases j3 _ ha with h | h | h
    · simp only [ObjSrc.objActs, List.mem_filterMap] at h
      obtain ⟨x, hx, hx'⟩ := h
      cases x with
      | user u => simp at hx'
      | obj z => simp only [Option.some.injEq] at hx'; subst hx'; exact hstay a hx
    · cases h; rfl
    · cases h; rfl
  · rw [List.countP_cons, h4 (·.ofThread 0) rfl rfl]; omega

end Counter
end S2P
