import Verif.Model.Mover
import Verif.Props.Onward
import Verif.Proofs.StreamSource
/- Model/Mover.lean, one constructor per kind of step; what holds in every reachable state. -/
namespace S2P
open Spec
variable {K V I : Type}

namespace MSB
section
variable [LT K] [DecidableLT K] [BEq V]

/-- The steps of Model/Mover.lean. -/
inductive StepTo (cfg : SBCfg K V) (s : MSB K V I) : MvAct K V I → MSB K V I → Prop
  | sb (a y) (hl : s.attaching = none ∨ s.sb.takesLock a = false) (h : s.sb.step cfg a = some y) : StepTo cfg s (.sb a) { s with sb := y }
  | makeNone (i) (hst : s.sb.start = none) (hb : s.sb.sourceBuffer = none) : StepTo cfg s (.make i) (s.say i .notStarted)
  | make (i b x) (hst : s.sb.start = none) (ha : s.attaching = none) (hn : s.rds i = none) (hb : s.sb.sourceBuffer = some b) (hx : s.sb.buf b = some x) :
      StepTo cfg s (.make i) (s.set i { buf := b, evt := x.evt, rd := Reader.init (cfg.rdCfg i), pc := .idle })
  | attachNone (i m) (hst : s.sb.start = none) (hm : s.rds i = some m) (hb : s.sb.sourceBuffer = none) : StepTo cfg s (.attach i) (s.say i .notStarted)
  | attach (i m b) (hst : s.sb.start = none) (ha : s.attaching = none) (hm : s.rds i = some m) (hb : s.sb.sourceBuffer = some b) :
      StepTo cfg s (.attach i) { s.set i { m with buf := b } with attaching := some (i, b) }
  | attachGo (i b m x) (ha : s.attaching = some (i, b)) (hm : s.rds i = some m) (hx : s.sb.buf b = some x) :
      StepTo cfg s .attachGo (({ s with attaching := none }.set i { m with evt := x.evt }).say i (.attached b))
  | next (i m) (hm : s.rds i = some m) (hp : m.pc = .idle) : StepTo cfg s (.next i) (s.set i { m with pc := .look false })
  | loop (i m) (hm : s.rds i = some m) (hp : m.pc = .idle) : StepTo cfg s (.loop i) (s.set i { m with pc := .look true })
  | look (i m it) (hm : s.rds i = some m) (hp : m.pc = .look it) : StepTo cfg s (.go i) (s.set i { m with pc := .read it m.buf })
  | readErr (i m it b x e rd) (hm : s.rds i = some m) (hp : m.pc = .read it b) (hx : s.sb.buf b = some x)
      (hr : m.rd.readForNext x.cons.ch.buf = (.error e, rd)) : StepTo cfg s (.go i) ((s.set i { m with rd := rd, pc := .idle }).say i (.raised e))
  | readNone (i m it b x rd) (hm : s.rds i = some m) (hp : m.pc = .read it b) (hx : s.sb.buf b = some x)
      (hr : m.rd.readForNext x.cons.ch.buf = (.ok .none, rd)) : StepTo cfg s (.go i) (s.set i { m with rd := rd, pc := .check it })
  | readItem (i m it b x r rd) (hm : s.rds i = some m) (hp : m.pc = .read it b) (hx : s.sb.buf b = some x)
      (hr : m.rd.readForNext x.cons.ch.buf = (.ok r, rd)) (hn : r ≠ .none) :
      StepTo cfg s (.go i) ((s.set i { m with rd := rd, pc := if it then .body else .idle }).say i (.item b r))
  | checkEnd (i m it) (hm : s.rds i = some m) (hp : m.pc = .check it) (hf : s.sb.flag m.evt = true) :
      StepTo cfg s (.go i) ((s.set i { m with pc := .idle }).say i (if it then .loopDone else .stopIteration))
  | checkOn (i m) (hm : s.rds i = some m) (hp : m.pc = .check true) (hf : s.sb.flag m.evt = false) : StepTo cfg s (.go i) (s.set i { m with pc := .check2 })
  | checkNone (i m) (hm : s.rds i = some m) (hp : m.pc = .check false) (hf : s.sb.flag m.evt = false) :
      StepTo cfg s (.go i) ((s.set i { m with pc := .idle }).say i .none)
  | check2End (i m) (hm : s.rds i = some m) (hp : m.pc = .check2) (hf : s.sb.flag m.evt = true) :
      StepTo cfg s (.go i) ((s.set i { m with pc := .idle }).say i .loopDone)
  | check2On (i m) (hm : s.rds i = some m) (hp : m.pc = .check2) (hf : s.sb.flag m.evt = false) : StepTo cfg s (.go i) (s.set i { m with pc := .sleep })
  | turn (i m) (hm : s.rds i = some m) (hp : m.pc = .sleep ∨ m.pc = .body) : StepTo cfg s (.go i) (s.set i { m with pc := .look true })
  | leave (i m) (hm : s.rds i = some m) (hp : m.pc = .body ∨ m.pc = .sleep) : StepTo cfg s (.leave i) (s.set i { m with pc := .idle })

theorem step_to {cfg : SBCfg K V} {s s' : MSB K V I} {a : MvAct K V I} (hs : s.step cfg a = some s') : StepTo cfg s a s' := by
  cases a with
  | sb a =>
    simp only [step] at hs
    split at hs
    · simp at hs
    · rename_i h
      obtain ⟨y, hy, rfl⟩ := Option.map_eq_some_iff.1 hs
      refine .sb a y ?_ hy
      by_cases h1 : s.attaching = none
      · exact .inl h1
      · exact .inr (by simpa [h1] using h)
  | make i =>
    simp only [step] at hs
    split at hs
    · rename_i h
      obtain ⟨h1, h2, h3⟩ := h
      split at hs
      · injection hs with hs; subst hs; exact .makeNone i h1 ‹_›
      · obtain ⟨x, hx, rfl⟩ := Option.map_eq_some_iff.1 hs
        exact .make i _ x h1 h2 (by simpa using h3) ‹_› hx
    · simp at hs
  | attach i =>
    simp only [step] at hs
    split at hs
    · rename_i h
      split at hs
      · simp at hs
      · split at hs
        · injection hs with hs; subst hs; exact .attachNone i _ h.1 ‹_› ‹_›
        · injection hs with hs; subst hs; exact .attach i _ _ h.1 h.2 ‹_› ‹_›
    · simp at hs
  | attachGo =>
    simp only [step] at hs
    split at hs
    · simp at hs
    · split at hs
      · injection hs with hs; subst hs; exact .attachGo _ _ _ _ ‹_› ‹_› ‹_›
      · simp at hs
  | next i =>
    simp only [step] at hs
    split at hs
    · split at hs
      · injection hs with hs; subst hs; exact .next i _ ‹_› ‹_›
      · simp at hs
    · simp at hs
  | loop i =>
    simp only [step] at hs
    split at hs
    · split at hs
      · injection hs with hs; subst hs; exact .loop i _ ‹_› ‹_›
      · simp at hs
    · simp at hs
  | leave i =>
    simp only [step] at hs
    split at hs
    · split at hs
      · injection hs with hs; subst hs; exact .leave i _ ‹_› ‹_›
      · simp at hs
    · simp at hs
  | go i =>
    simp only [step] at hs
    split at hs
    · rename_i m hm
      cases hp : m.pc with
      | idle => simp [go, hp] at hs
      | look it => simp only [go, hp, Option.some.injEq] at hs; subst hs; exact .look i m it hm hp
      | read it b =>
        simp only [go, hp] at hs
        split at hs
        · simp at hs
        · rename_i x hx
          split at hs
          · injection hs with hs; subst hs; exact .readErr i m it b x _ _ hm hp hx ‹_›
          · injection hs with hs; subst hs; exact .readNone i m it b x _ hm hp hx ‹_›
          · rename_i r rd hn hr
            injection hs with hs; subst hs; exact .readItem i m it b x r rd hm hp hx hr (fun h => hn (by rw [h]) )
      | check it =>
        simp only [go, hp] at hs
        split at hs
        · injection hs with hs; subst hs; exact .checkEnd i m it hm hp ‹_›
        · rename_i hf
          rw [Bool.not_eq_true] at hf
          cases it with
          | true => simp only [if_true, Option.some.injEq] at hs; subst hs; exact .checkOn i m hm hp hf
          | false => simp only [Bool.false_eq_true, if_false, Option.some.injEq] at hs; subst hs; exact .checkNone i m hm hp hf
      | check2 =>
        simp only [go, hp] at hs
        split at hs
        · injection hs with hs; subst hs; exact .check2End i m hm hp ‹_›
        · rename_i hf
          rw [Bool.not_eq_true] at hf
          injection hs with hs; subst hs; exact .check2On i m hm hp hf
      | sleep => simp only [go, hp, Option.some.injEq] at hs; subst hs; exact .turn i m hm (.inl hp)
      | body => simp only [go, hp, Option.some.injEq] at hs; subst hs; exact .turn i m hm (.inr hp)
    · simp at hs

theorem exec_append {cfg : SBCfg K V} {s : MSB K V I} (as bs : List (MvAct K V I)) : s.exec cfg (as ++ bs) = (s.exec cfg as).bind fun s' => s'.exec cfg bs := by
  induction as generalizing s with
  | nil => rfl
  | cons a as ih =>
    simp only [List.cons_append, exec]
    cases s.step cfg a with
    | none => rfl
    | some s' => exact ih

theorem exec_ind {cfg : SBCfg K V} {P : MSB K V I → Prop} (hstep : ∀ s a s', P s → s.step cfg a = some s' → P s')
    {as : List (MvAct K V I)} {s s' : MSB K V I} (h : P s) (he : s.exec cfg as = some s') : P s' := by
  induction as generalizing s with
  | nil => simp only [exec, Option.some.injEq] at he; exact he ▸ h
  | cons a as ih =>
    simp only [exec] at he
    split at he
    · exact ih (hstep _ _ _ h ‹_›) he
    · simp at he

end

section
variable [LinearOrder K] [BEq V] [ReflBEq V] {cfg : SBCfg K V} {s s' : MSB K V I} {a : MvAct K V I} {as : List (MvAct K V I)}

/-- The cursor's item and key fit, and the settings are those of reader `i`. -/
def RdOk (cfg : SBCfg K V) (i : Nat) (r : Reader K V) : Prop := r.cfg = cfg.rdCfg i ∧ r.lastKey = r.lastItem.map cfg.key

/-- One read of any buffer by a reader with any cursor. -/
theorem read_any {c : Cons K V} (hc : c.Reach cfg.key cfg.keyNone cfg.maxlen cfg.rdCfg) (i : Nat) (hpk : (cfg.rdCfg i).peek = false) {rd rd' : Reader K V} {out : Py (Ret V)}
    (h : RdOk cfg i rd) (hr : rd.readForNext c.ch.buf = (out, rd')) :
    RdOk cfg i rd' ∧ outItems out <+: unread cfg.key c.ch.buf.items rd.lastItem ∧ rd'.lastItem = (outItems out).getLast?.or rd.lastItem ∧
    (out = .ok .none → unread cfg.key c.ch.buf.items rd.lastItem = []) ∧ (∀ r, out = .ok r → r ≠ .none → outItems out ≠ []) := by
  have hsim := hc.ch.sim
  have hco : rd.Coherent c.ch.buf := by rw [Reader.Coherent, hsim.key]; exact h.2
  obtain ⟨k1, k2, k3, k4⟩ := Reader.read_eq (r := rd) hsim.swf hco (some rd.cfg.n) (some rd.cfg.peek) (some true) (some rd.cfg.strict)
  change (rd.readForNext c.ch.buf).1 = _ at k1
  change (rd.readForNext c.ch.buf).2.lastItem = _ at k2
  change (rd.readForNext c.ch.buf).2.Coherent c.ch.buf at k3
  change (rd.readForNext c.ch.buf).2.cfg = _ at k4
  rw [hr] at k1 k2 k3 k4
  simp only [Option.getD_some, hsim.key] at k1 k2 k3 k4
  refine ⟨⟨k4.trans h.1, by rw [Reader.Coherent, hsim.key] at k3; exact k3⟩, ?_⟩
  obtain ⟨p1, p2⟩ := Spec.read_prefix cfg.key c.ch.buf.items rd.lastItem rd.cfg.n true rd.cfg.strict
  rw [← k1] at p1 p2 k2
  refine ⟨p1, ?_, ?_, ?_⟩
  · rw [k2, h.1, hpk]
    have : Spec.move false rd.lastItem out = Spec.cursorAfter rd.lastItem out := rfl
    rw [this, p2]
    cases (outItems out).getLast? <;> rfl
  · intro ho
    rw [ho] at k1
    unfold Spec.read at k1
    split at k1
    · assumption
    · split at k1
      · simp at k1
      · split at k1 <;> simp at k1
  · intro r ho hn
    rw [ho] at k1 ⊢
    unfold Spec.read at k1
    split at k1
    · simp only [noItem, if_true, Except.ok.injEq] at k1
      exact absurd k1 hn
    · rename_i v vs hu
      split at k1
      · simp only [Except.ok.injEq] at k1; subst k1; simp [outItems, Ret.items]
      · split at k1
        · simp at k1
        · rename_i h1 _
          simp only [Except.ok.injEq] at k1; subst k1
          obtain ⟨k, hk⟩ : ∃ k, rd.cfg.n.toNat = k + 1 := ⟨rd.cfg.n.toNat - 1, by omega⟩
          simp [outItems, Ret.items, hk]

/-- What holds of buffers, pointers and cursors in every reachable state. -/
structure Inv (cfg : SBCfg K V) (s : MSB K V I) : Prop where
  reach : ∃ as, SB.init.exec cfg as = some s.sb
  buf : ∀ i m, s.rds i = some m → (s.sb.buf m.buf).isSome
  pc : ∀ i m it b, s.rds i = some m → m.pc = .read it b → (s.sb.buf b).isSome ∧ b ≤ m.buf
  evt : ∀ i m, s.rds i = some m → m.evt = m.buf ∨ ∃ b, s.attaching = some (i, b)
  att : ∀ i b, s.attaching = some (i, b) → s.sb.start = none ∧ s.sb.sourceBuffer = some b ∧ ∃ m, s.rds i = some m ∧ m.buf = b

omit [ReflBEq V] in
theorem Inv.sbInv (h : Inv cfg s) : s.sb.Inv := by
  obtain ⟨as, has⟩ := h.reach
  exact SB.exec_ind (fun _ _ _ h hs => h.step hs) SB.Inv.init has

omit [ReflBEq V] in
theorem buf_stays {x y : SB K V I} {a : SBAct K V I} (hx : x.Inv) (hs : x.step cfg a = some y) {b : Nat} (h : (x.buf b).isSome) : (y.buf b).isSome := by
  cases hv : y.view b with
  | none =>
    have := (SB.no_view_step hs b hv).1
    simp only [SB.view, Option.map_eq_none_iff] at this
    rw [this] at h; cases h
  | some c =>
    obtain ⟨z, hz, -⟩ := Option.map_eq_some_iff.1 hv
    rw [hz]; rfl

omit [ReflBEq V] in
theorem Inv.init : Inv cfg (MSB.init : MSB K V I) := ⟨⟨[], rfl⟩, by simp [MSB.init], by simp [MSB.init], by simp [MSB.init], by simp [MSB.init]⟩

omit [ReflBEq V] in
theorem Inv.step (h : Inv cfg s) (hs : s.step cfg a = some s') : Inv cfg s' := by
  have hi := h.sbInv
  have hle : ∀ i m b, s.rds i = some m → s.sb.sourceBuffer = some b → (s.sb.buf b).isSome ∧ m.buf ≤ b := by
    intro i m b hm hb
    obtain ⟨h1, h2⟩ := hi.sb b hb
    refine ⟨h1, ?_⟩
    by_contra hc
    have := hi.noBuf m.buf (by omega)
    have := h.buf i m hm
    simp_all
  have hev := hi.evt
  have hst := step_to hs
  clear hs
  obtain ⟨h1, h2, h3, h4, h5⟩ := h
  cases hst with
  | sb a y hl hy =>
    have hb := fun b => buf_stays hi hy (b := b)
    obtain ⟨as, has⟩ := h1
    refine ⟨⟨as ++ [a], by rw [SB.exec_append, has]; simp [SB.exec, hy]⟩, fun i m hm => hb _ (h2 i m hm), fun i m it b hm hp => ⟨hb _ (h3 i m it b hm hp).1, (h3 i m it b hm hp).2⟩, h4, ?_⟩
    intro i b hab
    obtain ⟨k1, k2, k3⟩ := h5 i b hab
    have hne : a ≠ .start := by
      rintro rfl
      rcases hl with hl | hl
      · simp only at hab; rw [hl] at hab; cases hab
      · simp [SB.takesLock] at hl
    have hid := SB.step_idle hne hy k1
    exact ⟨hid.1, hid.2.1.trans k2, k3⟩
  | attach i m b hst ha hm hb =>
    have hbi := hle i m b hm hb
    refine ⟨h1, ?_, ?_, ?_, ?_⟩ <;> simp only [set] <;> intro j m'
    · by_cases hj : j = i
      · intro h; rw [if_pos hj, Option.some.injEq] at h; subst h; exact hbi.1
      · rw [if_neg hj]; exact h2 j m'
    · intro it c
      by_cases hj : j = i
      · intro h hp
        rw [if_pos hj, Option.some.injEq] at h; subst h
        exact ⟨(h3 i m it c hm hp).1, (h3 i m it c hm hp).2.trans hbi.2⟩
      · rw [if_neg hj]; exact h3 j m' it c
    · by_cases hj : j = i
      · intro _; exact .inr ⟨b, by rw [hj]⟩
      · rw [if_neg hj]
        intro h
        rcases h4 j m' h with h | ⟨c, h⟩
        · exact .inl h
        · rw [ha] at h; cases h
    · intro h
      cases h
      exact ⟨hst, hb, _, if_pos rfl, rfl⟩
  | _ =>
    refine ⟨h1, ?_, ?_, ?_, ?_⟩ <;> simp only [set, say]
    all_goals first
      | assumption
      | grind

omit [ReflBEq V] in
theorem inv (he : MSB.init.exec cfg as = some s) : Inv cfg s := exec_ind (fun _ _ _ h hs => h.step hs) Inv.init he

/-- The cursor of reader `i`: its `last_item`. -/
def cursor (s : MSB K V I) (i : Nat) : Option V := (s.rds i).bind (·.rd.lastItem)

omit [LinearOrder K] [BEq V] [ReflBEq V] in
theorem gotBy_append (i : Nat) (l l' : List (Nat × MvEv V)) : gotBy i (l ++ l') = gotBy i l ++ gotBy i l' := by simp [gotBy]

/-- What a step means for what reader `i` delivered. -/
inductive Eff (i : Nat) (cfg : SBCfg K V) (s s' : MSB K V I) : Prop
  | quiet (h1 : gotBy i s'.evs = gotBy i s.evs) (h2 : s'.cursor i = s.cursor i)
  | read (m : Mover K V) (it : Bool) (b : Nat) (vs : List V) (hm : s.rds i = some m) (hp : m.pc = .read it b) (hsb : s'.sb = s.sb)
      (h1 : gotBy i s'.evs = gotBy i s.evs ++ vs.map (b, ·)) (h2 : s'.cursor i = vs.getLast?.or (s.cursor i))
      (h3 : vs <+: unread cfg.key (s.sb.items b) (s.cursor i))
      (h4 : ∃ m', s'.rds i = some m' ∧ m'.buf = m.buf ∧ m'.evt = m.evt ∧ ∀ it b, m'.pc ≠ .read it b)

/-- Reader `i` is in order. -/
def AllOk (cfg : SBCfg K V) (i : Nat) (s : MSB K V I) : Prop := ∀ m, s.rds i = some m → RdOk cfg i m.rd

theorem view_cons {b : Nat} {x : Sess K V I} (h : Inv cfg s) (hx : s.sb.buf b = some x) :
    ({ x.cons with stopped := s.sb.flag x.evt } : Cons K V).Reach cfg.key cfg.keyNone cfg.maxlen cfg.rdCfg ∧ s.sb.items b = x.cons.ch.buf.items := by
  obtain ⟨as, has⟩ := h.reach
  exact ⟨SB.view_reach has b _ (by simp only [SB.view, hx, Option.map_some]), by simp [SB.items, hx]⟩

theorem AllOk.step (i : Nat) (h : Inv cfg s) (hk : AllOk cfg i s) (hpk : (cfg.rdCfg i).peek = false) (hs : s.step cfg a = some s') : AllOk cfg i s' := by
  have hst := step_to hs
  clear hs
  have hset : ∀ (j : Nat) (m : Mover K V) (t : MSB K V I), (∀ k, t.rds k = if k = j then some m else s.rds k) → (j = i → RdOk cfg i m.rd) →
      AllOk cfg i t := by
    intro j m t ht hm m' hj
    rw [ht] at hj
    split at hj
    · rename_i e; subst e; injection hj with hj; subst hj; exact hm rfl
    · exact hk m' hj
  cases hst with
  | sb a y hl hy => exact hk
  | makeNone j => exact hk
  | attachNone j => exact hk
  | make j b x => exact hset j _ _ (fun _ => rfl) (by rintro rfl; exact ⟨rfl, rfl⟩)
  | readErr j m it b x e rd hm hp hx hr => exact hset j _ _ (fun _ => rfl) (by rintro rfl; exact (read_any (view_cons h hx).1 j hpk (hk m hm) hr).1)
  | readNone j m it b x rd hm hp hx hr => exact hset j _ _ (fun _ => rfl) (by rintro rfl; exact (read_any (view_cons h hx).1 j hpk (hk m hm) hr).1)
  | readItem j m it b x r rd hm hp hx hr hn => exact hset j _ _ (fun _ => rfl) (by rintro rfl; exact (read_any (view_cons h hx).1 j hpk (hk m hm) hr).1)
  | attach j m b _ _ hm => exact hset j _ _ (fun _ => rfl) (by rintro rfl; exact hk m hm)
  | attachGo j b m x _ hm => exact hset j _ _ (fun _ => rfl) (by rintro rfl; exact hk m hm)
  | next j m hm => exact hset j _ _ (fun _ => rfl) (by rintro rfl; exact hk m hm)
  | loop j m hm => exact hset j _ _ (fun _ => rfl) (by rintro rfl; exact hk m hm)
  | look j m it hm => exact hset j _ _ (fun _ => rfl) (by rintro rfl; exact hk m hm)
  | checkEnd j m it hm => exact hset j _ _ (fun _ => rfl) (by rintro rfl; exact hk m hm)
  | checkOn j m hm => exact hset j _ _ (fun _ => rfl) (by rintro rfl; exact hk m hm)
  | checkNone j m hm => exact hset j _ _ (fun _ => rfl) (by rintro rfl; exact hk m hm)
  | check2End j m hm => exact hset j _ _ (fun _ => rfl) (by rintro rfl; exact hk m hm)
  | check2On j m hm => exact hset j _ _ (fun _ => rfl) (by rintro rfl; exact hk m hm)
  | turn j m hm => exact hset j _ _ (fun _ => rfl) (by rintro rfl; exact hk m hm)
  | leave j m hm => exact hset j _ _ (fun _ => rfl) (by rintro rfl; exact hk m hm)

theorem eff (i : Nat) (h : Inv cfg s) (hk : AllOk cfg i s) (hpk : (cfg.rdCfg i).peek = false) (hs : s.step cfg a = some s') : Eff i cfg s s' := by
  have hst := step_to hs
  clear hs
  have hq : ∀ (j : Nat) (m m' : Mover K V) (t : MSB K V I) (l : List (Nat × MvEv V)), s.rds j = some m → (∀ k, t.rds k = if k = j then some m' else s.rds k) →
      m'.rd.lastItem = m.rd.lastItem → t.evs = s.evs ++ l → gotBy i l = [] → Eff i cfg s t := by
    intro j m m' t l hm ht hl he hg
    refine .quiet (by rw [he, gotBy_append, hg, List.append_nil]) ?_
    simp only [cursor, ht]
    split
    · rename_i e; subst e; simp [hm, hl]
    · rfl
  have hrd : ∀ (j : Nat) (m : Mover K V) (it : Bool) (b : Nat) (x : Sess K V I) (out : Py (Ret V)) (rd : Reader K V) (p : MvPC) (t : MSB K V I) (l : List (Nat × MvEv V)),
      s.rds j = some m → m.pc = .read it b → s.sb.buf b = some x → m.rd.readForNext x.cons.ch.buf = (out, rd) → t.sb = s.sb →
      (∀ k, t.rds k = if k = j then some { m with rd := rd, pc := p } else s.rds k) → (∀ it b, p ≠ .read it b) →
      t.evs = s.evs ++ l → (gotBy i l = if j = i then (outItems out).map (b, ·) else []) → Eff i cfg s t := by
    intro j m it b x out rd p t l hm hp hx hr hsb ht hpp he hg
    by_cases hj : j = i
    · subst hj
      rw [if_pos rfl] at hg
      obtain ⟨-, k2, k3, -, -⟩ := read_any (view_cons h hx).1 j hpk (hk m hm) hr
      have hc : s.cursor j = m.rd.lastItem := by simp [cursor, hm]
      refine .read m it b (outItems out) hm hp hsb (by rw [he, gotBy_append, hg]) ?_ ?_ ⟨{ m with rd := rd, pc := p }, by rw [ht, if_pos rfl], rfl, rfl, hpp⟩
      · rw [hc, ← k3]; simp [cursor, ht]
      · rw [hc, (view_cons h hx).2]; exact k2
    · rw [if_neg hj] at hg
      refine .quiet (by rw [he, gotBy_append, hg, List.append_nil]) ?_
      simp only [cursor, ht, if_neg (Ne.symm hj)]
  cases hst with
  | sb a y hl hy => exact .quiet rfl rfl
  | makeNone j => exact .quiet (by simp [say, gotBy]) rfl
  | attachNone j => exact .quiet (by simp [say, gotBy]) rfl
  | make j b x _ _ hn =>
    refine .quiet rfl ?_
    simp only [cursor, set]
    split
    · rename_i e; subst e; simp [hn, Reader.init]
    · rfl
  | readErr j m it b x e rd hm hp hx hr => exact hrd j m it b x _ rd .idle _ _ hm hp hx hr rfl (fun _ => rfl) (by simp) rfl (by simp [gotBy, outItems])
  | readNone j m it b x rd hm hp hx hr =>
    exact hrd j m it b x _ rd (.check it) _ [] hm hp hx hr rfl (fun _ => rfl) (by simp) (List.append_nil _).symm (by simp [gotBy, outItems, Ret.items])
  | readItem j m it b x r rd hm hp hx hr hn =>
    exact hrd j m it b x _ rd _ _ _ hm hp hx hr rfl (fun _ => rfl) (by cases it <;> simp) rfl (by simp [gotBy])
  | attach j m b _ _ hm => exact hq j m _ _ [] hm (fun _ => rfl) rfl (List.append_nil _).symm rfl
  | attachGo j b m x _ hm => exact hq j m _ _ _ hm (fun _ => rfl) rfl rfl rfl
  | next j m hm => exact hq j m _ _ [] hm (fun _ => rfl) rfl (List.append_nil _).symm rfl
  | loop j m hm => exact hq j m _ _ [] hm (fun _ => rfl) rfl (List.append_nil _).symm rfl
  | look j m it hm => exact hq j m _ _ [] hm (fun _ => rfl) rfl (List.append_nil _).symm rfl
  | checkEnd j m it hm => exact hq j m _ _ _ hm (fun _ => rfl) rfl rfl (by cases it <;> rfl)
  | checkOn j m hm => exact hq j m _ _ [] hm (fun _ => rfl) rfl (List.append_nil _).symm rfl
  | checkNone j m hm => exact hq j m _ _ _ hm (fun _ => rfl) rfl rfl rfl
  | check2End j m hm => exact hq j m _ _ _ hm (fun _ => rfl) rfl rfl rfl
  | check2On j m hm => exact hq j m _ _ [] hm (fun _ => rfl) rfl (List.append_nil _).symm rfl
  | turn j m hm => exact hq j m _ _ [] hm (fun _ => rfl) rfl (List.append_nil _).symm rfl
  | leave j m hm => exact hq j m _ _ [] hm (fun _ => rfl) rfl (List.append_nil _).symm rfl

end
end MSB
end S2P
