import Verif.Model.Interrupt
import Verif.Props.Launch
import Verif.Props.Past
/-
Proofs for C165: an execution with interrupted `start()`s and one without interruptions that looks the same. The theorems are in Props/Interrupt.lean.
-/
namespace S2P
open Spec
variable {K V I : Type}

/-- Events other than the ends of `start()`, the answers of `stop()` and the setting of stop events. -/
def Ev.aside : Ev V I → Bool
  | .openRaised _ | .infoRaised _ | .launched _ | .stopCalled _ | .eventSet _ => false
  | _ => true

/-- Statements and outcomes of `start()` and `stop()`. -/
def SBAct.startStop : SBAct K V I → Bool
  | .start | .startGo | .openOk | .openRaise | .bufOk _ | .bufRaise | .stop | .stopEnd => true
  | _ => false

/-- Up to and including the test whether the earlier session has been stopped, and the stopping of it. -/
def StartPC.keeps : StartPC → Bool
  | .chk1 | .set1 | .clr1 | .chk2 | .set2 | .clr2 | .wipe => true
  | _ => false

/-- In the middle of `stop()`. -/
def clearing : Option StartPC → Nat
  | some .clr1 | some .clr2 => 1
  | _ => 0

namespace ISB
variable [LinearOrder K] [BEq V] {cfg : SBCfg K V} {s s' : ISB K V I} {x : IAct K V I} {xs ys : List (IAct K V I)}

/-- How an uninterrupted stream buffer differs: sessions `P` have a set stop event and a thread that was not started, the threads `F` wait at the start of their loop. -/
structure Ctl (V I : Type) where
  P : List Nat
  F : List Nat
  ev : Option Nat
  th : Option Nat
  st : Option StartPC
  stp : Nat
  L : List (Ev V I)

/-- The state `u` with these differences. -/
def ov (u : SB K V I) (c : Ctl V I) : SB K V I :=
  { u with flag := fun e => if e ∈ c.P then true else u.flag e, thr := fun t => if t ∈ c.F then .check else if t ∈ c.P then .fresh else u.thr t,
           stopEvent := c.ev, thread := c.th, start := c.st, stopping := c.stp, log := c.L }

/-- The stop event is the same, or both are set (or there is none). -/
def EvOk (u : SB K V I) (c : Ctl V I) : Prop :=
  (c.ev = u.stopEvent ∧ ∀ e, c.ev = some e → e ∉ c.P) ∨ (∃ k, c.ev = some k ∧ k ∈ c.P) ∧ ∀ e, u.stopEvent = some e → u.flag e = true

/-- Interrupted sessions have no running thread and no number to come. -/
structure Cut (u : SB K V I) (c : Ctl V I) : Prop where
  idle : ∀ t, t ∈ c.P ∨ t ∈ c.F → u.thr t = .fresh ∨ u.thr t = .unborn
  lt : ∀ t, t ∈ c.P ∨ t ∈ c.F → t < u.n
  old : ∀ t, t ∈ c.P ∨ t ∈ c.F → ∀ p, u.start = some p → p.late = true → p ≠ .mkThr → t + 1 < u.n
  nobuf : ∀ t ∈ c.P, u.buf t = none
  notBoth : ∀ t ∈ c.P, t ∉ c.F

theorem running_ov {u : SB K V I} {c : Ctl V I} (hev : EvOk u c) : (ov u c).running = u.running := by
  unfold SB.running ov
  dsimp only
  rcases hev with ⟨h3, h4⟩ | ⟨⟨k', h3, h4⟩, h5⟩
  · rw [h3]
    cases he : u.stopEvent with
    | none => rfl
    | some e => simp [h4 e (by rw [h3, he])]
  · rw [h3]
    cases he : u.stopEvent with
    | none => simp [h4]
    | some e => simp [h4, h5 e he]

set_option maxHeartbeats 4000000 in
/-- A step other than of `start()` and `stop()` can be taken without the interruption, too. -/
theorem other_step {u u' : SB K V I} {c : Ctl V I} {a : SBAct K V I} (ha : a.startStop = false) (hc : Cut u c) (hev : EvOk u c) (hst0 : u.start = none → c.st = none)
    (hevt : ∀ b x, u.buf b = some x → x.evt = b) (hs : u.step cfg a = some u') :
    ∃ l l', u'.log = u.log ++ l ∧ l.filter Ev.aside = l'.filter Ev.aside ∧ u'.start = u.start ∧ u'.n = u.n ∧ u'.stopping = u.stopping ∧ u'.stopEvent = u.stopEvent ∧
      u'.thread = u.thread ∧ (∀ t, u.thr t = .fresh ∨ u.thr t = .unborn → u'.thr t = u.thr t) ∧ (∀ b, u.buf b = none → u'.buf b = none) ∧ (∀ e, u.flag e = true → u'.flag e = true) ∧
      (ov u c).step cfg a = some (ov u' { c with L := c.L ++ l' }) := by
  obtain ⟨hidle, hlt, hold, hnobuf, hnb⟩ := hc
  have hmem : ∀ t, u.thr t ≠ .fresh → u.thr t ≠ .unborn → (t ∈ c.F ↔ False) ∧ (t ∈ c.P ↔ False) := fun t h1 h2 =>
    ⟨⟨fun hm => (hidle t (.inr hm)).elim h1 h2, False.elim⟩, ⟨fun hm => (hidle t (.inl hm)).elim h1 h2, False.elim⟩⟩
  have hsw : ∀ t, u.thr t ≠ .fresh → u.thr t ≠ .unborn → ∀ p, (fun j => if j = t then p else if j ∈ c.F then TPC.check else if j ∈ c.P then TPC.fresh else u.thr j) =
      fun j => if j ∈ c.F then TPC.check else if j ∈ c.P then TPC.fresh else if j = t then p else u.thr j := by
    intro t h1 h2 p; funext j
    by_cases h : j = t
    · subst h; simp [hmem j h1 h2]
    · simp [h]
  have hfr : ∀ t, u.thr t ≠ .fresh → u.thr t ≠ .unborn → ∀ p, ∀ t', u.thr t' = .fresh ∨ u.thr t' = .unborn → (if t' = t then p else u.thr t') = u.thr t' := by
    intro t h1 h2 p t' h'
    rw [if_neg]
    rintro rfl
    exact h'.elim h1 h2
  have hlook : ∀ e, u.stopEvent = some e → ∃ k, c.ev = some k ∧ (k ∈ c.P ∨ u.flag k = true ↔ u.flag e = true) := by
    intro e he
    rcases hev with ⟨h1, h2⟩ | ⟨⟨k, h1, h2⟩, h3⟩
    · exact ⟨e, by rw [h1, he], by simp [h2 e (by rw [h1, he])]⟩
    · exact ⟨k, h1, by simp [h2, h3 e he]⟩
  have hstp := SB.step_to hs
  clear hs
  cases hstp
  all_goals try (simp [SBAct.startStop] at ha; done)
  all_goals try simp only [SB.say, SB.setThr, SB.setBuf, SB.setEvent, SB.setNext, SB.setDrop, SB.setInfo, SB.newSess, SB.running] at *
  case fin2 t e h he =>
    have h1 : u.thr t ≠ .fresh := by rw [h]; simp
    have h2 : u.thr t ≠ .unborn := by rw [h]; simp
    have hs1 := hsw _ h1 h2
    have hno := hmem _ h1 h2
    obtain ⟨k, hk, hk'⟩ := hlook e he
    refine ⟨[_], [.eventSet k], rfl, rfl, trivial, trivial, trivial, trivial, trivial, hfr _ h1 h2 _, fun _ h => h, fun j h => by simp [h], ?_⟩
    have hfl : (fun j => if j = k then true else if j ∈ c.P then true else u.flag j) = fun j => if j ∈ c.P then true else if j = e then true else u.flag j := by
      funext j
      rcases hev with ⟨h3, h4⟩ | ⟨⟨k', h3, h4⟩, h5⟩
      · obtain rfl : k = e := by rw [h3, he] at hk; exact (Option.some.inj hk).symm
        by_cases hj : j = k <;> simp [hj]
      · obtain rfl : k' = k := by rw [h3] at hk; exact Option.some.inj hk
        by_cases hj : j = k'
        · subst hj; simp [h4]
        · by_cases hje : j = e
          · subst hje; simp [hj, h5 _ he]
          · simp [hj, hje]
    have hno1 := hno.1
    have hno2 := hno.2
    simp only [ov, SB.step, SB.thrGo, SB.say, SB.setThr, SB.setEvent, h, hno1, hno2, hk, hs1, hfl, if_false]
  case check t e h he =>
    have h1 : u.thr t ≠ .fresh := by rw [h]; simp
    have h2 : u.thr t ≠ .unborn := by rw [h]; simp
    have hs1 := hsw _ h1 h2
    have hno := hmem _ h1 h2
    obtain ⟨k, hk, hk'⟩ := hlook e he
    refine ⟨[], [], (List.append_nil _).symm, rfl, trivial, trivial, trivial, trivial, trivial, hfr _ h1 h2 _, fun _ h => h, fun _ h => h, ?_⟩
    simp [ov, SB.step, SB.thrGo, SB.setThr, h, hno, hk, hs1, hk']
  case fin1 t e h he =>
    have h1 : u.thr t ≠ .fresh := by rw [h]; simp
    have h2 : u.thr t ≠ .unborn := by rw [h]; simp
    have hs1 := hsw _ h1 h2
    have hno := hmem _ h1 h2
    obtain ⟨k, hk, hk'⟩ := hlook e he
    refine ⟨[], [], (List.append_nil _).symm, rfl, trivial, trivial, trivial, trivial, trivial, hfr _ h1 h2 _, fun _ h => h, fun _ h => h, ?_⟩
    simp [ov, SB.step, SB.thrGo, SB.setThr, h, hno, hk, hs1, hk']
  all_goals first
    | refine ⟨[], [], (List.append_nil _).symm, rfl, by trivial, by trivial, by trivial, by trivial, by trivial, ?_, ?_, ?_, ?_⟩
    | refine ⟨[_], [_], rfl, rfl, by trivial, by trivial, by trivial, by trivial, by trivial, ?_, ?_, ?_, ?_⟩
    | refine ⟨[_, _], [_, _], List.append_assoc _ _ _, rfl, by trivial, by trivial, by trivial, by trivial, by trivial, ?_, ?_, ?_, ?_⟩
  all_goals try exact fun _ _ => rfl
  all_goals try exact fun _ h => h
  all_goals try exact hfr _ (by rw [‹u.thr _ = _›]; simp) (by rw [‹u.thr _ = _›]; simp) _
  all_goals try (
    have hs1 := hsw _ (by rw [‹u.thr _ = _›]; simp) (by rw [‹u.thr _ = _›]; simp)
    have hno := hmem _ (by rw [‹u.thr _ = _›]; simp) (by rw [‹u.thr _ = _›]; simp)
    simp [ov, SB.step, SB.thrGo, SB.say, SB.setThr, SB.setBuf, SB.setEvent, SB.running, hno, hs1, *]; done)
  all_goals try (simp [ov, SB.step, SB.say, SB.setThr, SB.setBuf, SB.setEvent, SB.setNext, SB.setDrop, SB.setInfo, SB.running, *]; done)
  all_goals try grind
  case stored.refine_4 t b v x r h hx hr =>
    have h1 : u.thr t ≠ .fresh := by rw [h]; simp
    have h2 : u.thr t ≠ .unborn := by rw [h]; simp
    have hs1 := hsw _ h1 h2
    have hno := hmem _ h1 h2
    obtain ⟨c, r', hc⟩ : ∃ c r', x.cons.call (.append v) = (c, r') := ⟨_, _, rfl⟩
    rw [hc] at hr
    simp only at hr
    subst hr
    simp [SB.step, SB.thrGo, ov, h, hno, hx, hc, SB.setThr, SB.setBuf, SB.say, hs1]
  case refused.refine_4 t b v x r h hx hr =>
    have h1 : u.thr t ≠ .fresh := by rw [h]; simp
    have h2 : u.thr t ≠ .unborn := by rw [h]; simp
    have hs1 := hsw _ h1 h2
    have hno := hmem _ h1 h2
    obtain ⟨c, r', hc⟩ : ∃ c r', x.cons.call (.append v) = (c, r') := ⟨_, _, rfl⟩
    rw [hc] at hr
    simp only at hr
    subst hr
    simp [SB.step, SB.thrGo, ov, h, hno, hx, hc, SB.setThr, SB.setBuf, SB.say, hs1]
  case mkReader.refine_4 h => simp [SB.step, ov, hst0 h, SB.say]; rfl
  case attach.refine_4 b i j b' x x' h hb hx hx' op hop =>
    subst hop
    simp only [SB.step, ov, hst0 h, hb, hx, hx', SB.say, SB.setBuf, if_true]
    rfl
  case isRunning.refine_4 h =>
    change (if (ov u c).start = none then some ((ov u c).say (.isRunning (ov u c).running)) else none) = _
    have hst : (ov u c).start = none := hst0 h
    rw [if_pos hst, running_ov hev]
    rfl
  case rd.refine_4 b a x d ha hx hd =>
    have hb : b ∉ c.P := fun hb => by rw [hnobuf b hb] at hx; cases hx
    have hb' : x.evt ∉ c.P := by rw [hevt b x hx]; exact hb
    have hf : (ov u c).flag x.evt = u.flag x.evt := if_neg hb'
    change (if a.isReaders then match (ov u c).buf b with
      | none => none
      | some x => match ({ x.cons with stopped := (ov u c).flag x.evt } : Cons K V).step cfg.rdCfg a with
        | some c' => some ((ov u c).setBuf b { x with cons := c' })
        | none => none
      else none) = _
    have hx' : (ov u c).buf b = some x := hx
    rw [hx']
    dsimp only
    rw [hf, hd, if_pos ‹a.isReaders = true›]
    simp only [ov, SB.setBuf, List.append_nil]

/-- The invariant: `ov u c` is reachable without interruptions. -/
structure Ok (u : SB K V I) (c : Ctl V I) : Prop where
  cut : Cut u c
  ev : EvOk u c
  st : c.st = u.start.filter fun p => !p.keeps
  th : ∀ p, u.start = some p → p.late = true → p ≠ .mkThr → c.th = u.thread
  stp : u.stopping + clearing u.start ≤ c.stp
  off : u.start = some .clr2 ∨ u.start = some .wipe → u.running = false

/-- What is asked of the other execution at each step. -/
def Follows (cfg : SBCfg K V) (u : SB K V I) (c : Ctl V I) (u' : SB K V I) (keep : List (SBAct K V I)) : Prop :=
  ∃ bs c' l l', Ok u' c' ∧ (ov u c).exec cfg bs = some (ov u' c') ∧ bs.filter (fun a => !a.startStop) = keep ∧ u'.log = u.log ++ l ∧ c'.L = c.L ++ l' ∧
    l.filter Ev.aside = l'.filter Ev.aside

theorem off_mono {u u' : SB K V I} (h1 : u'.stopEvent = u.stopEvent) (h2 : ∀ e, u.flag e = true → u'.flag e = true) (h : u.running = false) : u'.running = false := by
  unfold SB.running at *
  rw [h1]
  cases he : u.stopEvent with
  | none => rfl
  | some e => rw [he] at h; simp only [Bool.not_eq_false'] at *; exact h2 e h

theorem follows_other {u u' : SB K V I} {c : Ctl V I} {a : SBAct K V I} (ha : a.startStop = false) (h : Ok u c) (hevt : ∀ b x, u.buf b = some x → x.evt = b)
    (hs : u.step cfg a = some u') : Follows cfg u c u' [a] := by
  obtain ⟨hc, hev, hst, hth, hstp, hoff⟩ := h
  obtain ⟨l, l', h1, h2, h3, h4, h5, h6, h7, h8, h9, h10, h11⟩ := other_step ha hc hev (fun h => by rw [hst, h]; rfl) hevt hs
  refine ⟨[a], { c with L := c.L ++ l' }, l, l', ⟨⟨?_, ?_, ?_, ?_, ?_⟩, ?_, ?_, ?_, ?_, ?_⟩, by simp only [SB.exec, h11], by simp [ha], h1, rfl, h2⟩
  · intro t ht
    have := hc.idle t ht
    rw [h8 t this]; exact this
  · intro t ht; rw [h4]; exact hc.lt t ht
  · intro t ht; rw [h3, h4]; exact hc.old t ht
  · intro t ht; exact h9 t (hc.nobuf t ht)
  · exact hc.notBoth
  · rcases hev with ⟨e1, e2⟩ | ⟨⟨k, e1, e2⟩, e3⟩
    · exact .inl ⟨by rw [h6]; exact e1, e2⟩
    · exact .inr ⟨⟨k, e1, e2⟩, fun e he => h10 e (e3 e (by rw [← h6]; exact he))⟩
  · rw [h3]; exact hst
  · rw [h3, h7]; exact hth
  · rw [h3, h5]; exact hstp
  · rw [h3]; exact fun h => off_mono h6 h10 (hoff h)

theorem set_flags {u : SB K V I} {c : Ctl V I} (hev : EvOk u c) {e : Nat} (he : u.stopEvent = some e) :
    ∃ k, c.ev = some k ∧ (fun j => if j = k then true else if j ∈ c.P then true else u.flag j) = fun j => if j ∈ c.P then true else if j = e then true else u.flag j := by
  rcases hev with ⟨h3, h4⟩ | ⟨⟨k, h3, h4⟩, h5⟩
  · refine ⟨e, by rw [h3, he], funext fun j => ?_⟩
    by_cases hj : j = e <;> simp [hj]
  · refine ⟨k, h3, funext fun j => ?_⟩
    by_cases hj : j = k
    · subst hj; simp [h4]
    · by_cases hje : j = e
      · subst hje; simp [hj, h5 _ he]
      · simp [hj, hje]

theorem EvOk.set {u : SB K V I} {c : Ctl V I} (hev : EvOk u c) (f : Nat → Bool) (hf : ∀ e, u.flag e = true → f e = true) (u' : SB K V I) (c' : Ctl V I)
    (h1 : u'.flag = f) (h2 : u'.stopEvent = u.stopEvent) (h3 : c'.ev = c.ev) (h4 : c'.P = c.P) : EvOk u' c' := by
  rcases hev with ⟨e1, e2⟩ | ⟨⟨k, e1, e2⟩, e3⟩
  · exact .inl ⟨by rw [h2, h3]; exact e1, by rw [h3, h4]; exact e2⟩
  · exact .inr ⟨⟨k, by rw [h3]; exact e1, by rw [h4]; exact e2⟩, fun e he => by rw [h1]; exact hf e (e3 e (by rw [← h2]; exact he))⟩

theorem wipe_burst {z : SB K V I} (h : z.start = none) (hr : z.running = false) :
    z.exec cfg [.start, .startGo, .startGo, .startGo] = some { z with sourceBuffer := none, start := some .mkThr } := by
  have h1 : z.step cfg .start = some { z with start := some .chk1 } := by simp [SB.step, h]
  have h2 : ({ z with start := some .chk1 } : SB K V I).step cfg .startGo = some { z with start := some .chk2 } := by
    have : ({ z with start := some .chk1 } : SB K V I).running = false := hr
    simp [SB.step, SB.startGo, this]
  have h3 : ({ z with start := some .chk2 } : SB K V I).step cfg .startGo = some { z with start := some .wipe } := by
    have : ({ z with start := some .chk2 } : SB K V I).running = false := hr
    simp [SB.step, SB.startGo, this]
  simp only [SB.exec, h1, h2, h3]
  rfl

set_option maxHeartbeats 4000000 in
theorem follows_start {u u' : SB K V I} {c : Ctl V I} {a : SBAct K V I} (ha : a.startStop = true) (h : Ok u c) (hi : (ov u c).Inv) (hfi : (ov u c).FailInv)
    (hs : u.step cfg a = some u') : Follows cfg u c u' [] := by
  obtain ⟨⟨hidle, hlt, hold, hnobuf, hnb⟩, hev, hst, hth, hstp, hoff⟩ := h
  have hrun := running_ov hev
  have hph := hi.ph
  have hnthr := hi.noThr u.n (Nat.le_refl _)
  have hnbuf := hi.noBuf u.n (Nat.le_refl _)
  have hthr := hfi.thread
  have hset := fun e => set_flags (e := e) hev
  obtain ⟨P, F, ev, th, st, stp, L⟩ := c
  simp only at *
  have hstp0 := SB.step_to hs
  clear hs
  cases hstp0
  all_goals try (simp [SBAct.startStop] at ha; done)
  all_goals try simp only [SB.say, SB.setThr, SB.setBuf, SB.setEvent, SB.newSess] at *
  case start h =>
    rw [h] at hst hstp
    subst hst
    refine ⟨[], ⟨P, F, ev, th, none, stp, L⟩, [], [], ⟨⟨hidle, hlt, ?_, hnobuf, hnb⟩, hev, rfl, ?_, hstp, ?_⟩, rfl, rfl, by simp, by simp, rfl⟩
    all_goals simp [StartPC.late]
  case chk1 h =>
    rw [h] at hst hstp
    subst hst
    refine ⟨[], ⟨P, F, ev, th, none, stp, L⟩, [], [], ⟨⟨hidle, hlt, ?_, hnobuf, hnb⟩, hev, ?_, ?_, ?_, ?_⟩, rfl, rfl, by simp, by simp, rfl⟩
    all_goals dsimp only
    all_goals cases hr : u.running
    all_goals simp [StartPC.late, StartPC.keeps, clearing] at hstp ⊢
    all_goals first | exact hstp | rfl
  case chk2 h =>
    rw [h] at hst hstp
    subst hst
    refine ⟨[], ⟨P, F, ev, th, none, stp, L⟩, [], [], ⟨⟨hidle, hlt, ?_, hnobuf, hnb⟩, hev, ?_, ?_, ?_, fun hp => ?_⟩, rfl, rfl, by simp, by simp, rfl⟩
    case refine_5 hp =>
      show u.running = false
      cases hr : u.running
      · rfl
      · simp [hr] at hp
    all_goals dsimp only
    all_goals cases hr : u.running
    all_goals simp [StartPC.late, StartPC.keeps, clearing] at hstp ⊢
    all_goals first | exact hstp | rfl
  case set1 e h he =>
    rw [h] at hst hstp
    subst hst
    obtain ⟨k, hk, hkf⟩ := hset e he
    subst hk
    refine ⟨[.stop], ⟨P, F, some k, th, none, stp + 1, L ++ [.eventSet k, .stopCalled (.ok ())]⟩, [.eventSet e], [.eventSet k, .stopCalled (.ok ())],
      ⟨⟨hidle, hlt, ?_, hnobuf, hnb⟩, hev.set _ (fun j hj => ?_) _ _ rfl rfl rfl rfl, rfl, ?_, ?_, ?_⟩, ?_, rfl, rfl, rfl, rfl⟩
    all_goals try (simp [StartPC.late, StartPC.keeps, clearing] at hstp ⊢; done)
    · simp [hj]
    · simp [clearing] at hstp ⊢; exact hstp
    · simp only [SB.exec, SB.step, ov, SB.setEvent, SB.say, hkf]
      simp [StartPC.keeps]
  case set2 e h he =>
    rw [h] at hst hstp
    subst hst
    obtain ⟨k, hk, hkf⟩ := hset e he
    subst hk
    refine ⟨[.stop], ⟨P, F, some k, th, none, stp + 1, L ++ [.eventSet k, .stopCalled (.ok ())]⟩, [.eventSet e], [.eventSet k, .stopCalled (.ok ())],
      ⟨⟨hidle, hlt, ?_, hnobuf, hnb⟩, hev.set _ (fun j hj => ?_) _ _ rfl rfl rfl rfl, rfl, ?_, ?_, ?_⟩, ?_, rfl, rfl, rfl, rfl⟩
    all_goals try (simp [StartPC.late, StartPC.keeps, clearing, SB.running, he] at hstp ⊢; done)
    · simp [hj]
    · simp [clearing] at hstp ⊢; exact hstp
    · simp only [SB.exec, SB.step, ov, SB.setEvent, SB.say, hkf]
      simp [StartPC.keeps]
  case clr1 h =>
    rw [h] at hst hstp
    subst hst
    simp only [clearing] at hstp
    have h0 : stp ≠ 0 := by omega
    refine ⟨[.stopEnd], ⟨P, F, ev, th, none, stp - 1, L⟩, [], [], ⟨⟨hidle, hlt, ?_, hnobuf, hnb⟩, hev, rfl, ?_, ?_, ?_⟩, ?_, rfl, by simp, by simp, rfl⟩
    all_goals try (simp [StartPC.late, StartPC.keeps, clearing] at hstp ⊢; done)
    · simp only [clearing]; omega
    · simp [SB.exec, SB.step, ov, h0, StartPC.keeps]
  case clr2 h =>
    rw [h] at hst hstp
    subst hst
    simp only [clearing] at hstp
    have h0 : stp ≠ 0 := by omega
    refine ⟨[.stopEnd], ⟨P, F, ev, th, none, stp - 1, L⟩, [], [], ⟨⟨hidle, hlt, ?_, hnobuf, hnb⟩, hev, rfl, ?_, ?_, fun _ => hoff (.inl h)⟩, ?_, rfl, by simp, by simp, rfl⟩
    all_goals try (simp [StartPC.late, StartPC.keeps, clearing] at hstp ⊢; done)
    · simp only [clearing]; omega
    · simp [SB.exec, SB.step, ov, h0, StartPC.keeps]
  case wipe h =>
    rw [h] at hst hstp
    subst hst
    have hr := hoff (.inr h)
    rw [hr] at hrun
    refine ⟨[.start, .startGo, .startGo, .startGo], ⟨P, F, ev, th, some .mkThr, stp, L⟩, [], [], ⟨⟨hidle, hlt, ?_, hnobuf, hnb⟩, hev, rfl, ?_, hstp, ?_⟩, ?_, rfl, by simp, by simp, rfl⟩
    all_goals try (simp [StartPC.late, StartPC.keeps, clearing] at hstp ⊢; done)
    exact wipe_burst rfl hrun
  case stopNone h =>
    refine ⟨[], ⟨P, F, ev, th, st, stp, L⟩, [_], [], ⟨⟨hidle, hlt, hold, hnobuf, hnb⟩, hev, hst, hth, hstp, fun hp => off_mono (u := u) rfl (fun _ h => h) (hoff hp)⟩, rfl, rfl, rfl, by simp, rfl⟩
  case stop e he =>
    obtain ⟨k, hk, hkf⟩ := hset e he
    subst hk
    refine ⟨[.stop], ⟨P, F, some k, th, st, stp + 1, L ++ [.eventSet k, .stopCalled (.ok ())]⟩, [.eventSet e, .stopCalled (.ok ())], [.eventSet k, .stopCalled (.ok ())],
      ⟨⟨hidle, hlt, hold, hnobuf, hnb⟩, hev.set _ (fun j hj => ?_) _ _ rfl rfl rfl rfl, hst, hth, ?_, fun hp => off_mono (u := u) rfl (fun j hj => ?_) (hoff hp)⟩, ?_, rfl, by simp, rfl, rfl⟩
    · simp [hj]
    · dsimp only; omega
    · simp [hj]
    · simp only [SB.exec, SB.step, ov, SB.setEvent, SB.say, hkf]
      simp
  case stopEnd h =>
    have h0 : stp ≠ 0 := by omega
    refine ⟨[.stopEnd], ⟨P, F, ev, th, st, stp - 1, L⟩, [], [], ⟨⟨hidle, hlt, hold, hnobuf, hnb⟩, hev, hst, hth, ?_, hoff⟩, ?_, rfl, by simp, by simp, rfl⟩
    · dsimp only; omega
    · simp [SB.exec, SB.step, ov, h0]
  case mkThr h =>
    rw [h] at hst hstp
    subst hst
    have hm : ∀ t, t ∈ P ∨ t ∈ F → t ≠ u.n := fun t ht => by have := hlt t ht; omega
    refine ⟨[.startGo], ⟨P, F, ev, some u.n, some .mkEvt, stp, L⟩, [], [], ⟨⟨?_, ?_, ?_, hnobuf, hnb⟩, hev, rfl, fun _ _ _ _ => rfl, hstp, ?_⟩, ?_, rfl, by simp, by simp, rfl⟩
    · intro t ht; dsimp only; rw [if_neg (hm t ht)]; exact hidle t ht
    · intro t ht; have := hlt t ht; dsimp only; omega
    · intro t ht p _ _ _; have := hlt t ht; dsimp only; omega
    · simp
    · have h1 : (ov u ⟨P, F, ev, th, Option.filter (fun p => !p.keeps) (some .mkThr), stp, L⟩).start = some .mkThr := rfl
      simp only [SB.exec, SB.step, SB.startGo, h1]
      simp only [ov, SB.setThr]
      congr 2
      funext j
      by_cases hj : j = u.n
      · subst hj
        simp [show u.n ∉ P from fun h => hm _ (.inl h) rfl, show u.n ∉ F from fun h => hm _ (.inr h) rfl]
      · simp [hj]
  case mkEvt h =>
    rw [h] at hst hstp
    subst hst
    have hm : ∀ t, t ∈ P ∨ t ∈ F → t + 1 < u.n := fun t ht => hold t ht _ h rfl (by simp)
    refine ⟨[.startGo], ⟨P, F, some (u.n - 1), th, some .opening, stp, L⟩, [], [], ⟨⟨hidle, hlt, fun t ht _ _ _ _ => hm t ht, hnobuf, hnb⟩, .inl ⟨rfl, ?_⟩, rfl, fun _ _ _ _ => hth _ h rfl (by simp), hstp, ?_⟩, rfl, rfl, by simp, by simp, rfl⟩
    · intro e he hp
      have := hm e (.inl hp)
      simp at he
      omega
    · simp
  case openOk h =>
    rw [h] at hst hstp
    subst hst
    refine ⟨[.openOk], ⟨P, F, ev, th, some .mkBuf, stp, L ++ [.opened (u.n - 1)]⟩, [_], [_], ⟨⟨hidle, hlt, fun t ht _ _ _ _ => hold t ht _ h rfl (by simp), hnobuf, hnb⟩, hev, rfl, fun _ _ _ _ => hth _ h rfl (by simp), hstp, ?_⟩, rfl, rfl, rfl, rfl, rfl⟩
    simp
  case openRaise h =>
    rw [h] at hst hstp
    subst hst
    refine ⟨[.openRaise], ⟨P, F, ev, th, none, stp, L ++ [.openRaised (u.n - 1)]⟩, [_], [_], ⟨⟨hidle, hlt, (fun t ht _ h => by cases h), hnobuf, hnb⟩, hev, rfl, (fun _ h => by cases h), hstp, ?_⟩, rfl, rfl, rfl, rfl, rfl⟩
    simp
  case bufRaise h =>
    rw [h] at hst hstp
    subst hst
    refine ⟨[.bufRaise], ⟨P, F, ev, th, none, stp, L ++ [.infoRaised (u.n - 1)]⟩, [_], [_], ⟨⟨hidle, hlt, (fun t ht _ h => by cases h), hnobuf, hnb⟩, hev, rfl, (fun _ h => by cases h), hstp, ?_⟩, rfl, rfl, rfl, rfl, rfl⟩
    simp
  case bufOk info e h he =>
    rw [h] at hst hstp
    subst hst
    have hm : ∀ t, t ∈ P ∨ t ∈ F → t + 1 < u.n := fun t ht => hold t ht _ h rfl (by simp)
    have hph2 : ev = some (u.n - 1) := hph.2.2.2.2.2
    have hn0 : 0 < u.n := hph.1
    have hee : ev = some e := by
      rcases hev with ⟨h1, -⟩ | ⟨⟨k, h1, h2⟩, -⟩
      · exact h1.trans he
      · have h1 : ev = some k := h1
        have := hm k (.inl h2)
        rw [hph2] at h1; injection h1; omega
    refine ⟨[.bufOk info], ⟨P, F, ev, th, some .launch, stp, L ++ [.bufferMade (u.n - 1) info]⟩, [_], [_], ⟨⟨hidle, hlt, fun t ht _ _ _ _ => hm t ht, ?_, hnb⟩, hev, rfl, fun _ _ _ _ => hth _ h rfl (by simp), hstp, ?_⟩, ?_, rfl, rfl, rfl, rfl⟩
    · intro t ht
      have := hm t (.inl ht)
      dsimp only
      rw [if_neg (by omega)]
      exact hnobuf t ht
    · simp
    · subst hee; rfl
  case launch t h ht =>
    rw [h] at hst hstp
    subst hst
    have hm : ∀ t, t ∈ P ∨ t ∈ F → t + 1 < u.n := fun t ht => hold t ht _ h rfl (by simp)
    have hth' : th = u.thread := hth _ h rfl (by simp)
    have hph2 : th = some (u.n - 1) := hph.2.1
    have hn0 : 0 < u.n := hph.1
    have htn : t + 1 = u.n := by rw [hth', ht] at hph2; injection hph2; omega
    refine ⟨[.startGo], ⟨P, F, ev, th, none, stp, L ++ [.launched t]⟩, [_], [_], ⟨⟨?_, hlt, (fun t ht _ h => by cases h), hnobuf, hnb⟩, hev, rfl, (fun _ h => by cases h), hstp, ?_⟩, ?_, rfl, rfl, rfl, rfl⟩
    · intro t' ht'
      have := hm t' ht'
      dsimp only
      rw [if_neg (by omega)]
      exact hidle t' ht'
    · simp
    · rw [ht] at hth'
      subst hth'
      have h1 : (ov u ⟨P, F, ev, some t, Option.filter (fun p => !p.keeps) (some .launch), stp, L⟩).start = some .launch := rfl
      have h2 : (ov u ⟨P, F, ev, some t, Option.filter (fun p => !p.keeps) (some .launch), stp, L⟩).thread = some t := rfl
      simp only [SB.exec, SB.step, SB.startGo, h1, h2]
      simp only [ov, SB.setThr, SB.say]
      congr 2
      funext j
      by_cases hj : j = t
      · subst hj
        simp [show j ∉ P from fun h => by have := hm _ (.inl h); omega, show j ∉ F from fun h => by have := hm _ (.inr h); omega]
      · simp [hj]

/-- Without a `start()` in progress the invariant asks less. -/
theorem Ok.idle {u : SB K V I} {c : Ctl V I} (hs : u.start = none) (h1 : ∀ t, t ∈ c.P ∨ t ∈ c.F → (u.thr t = .fresh ∨ u.thr t = .unborn) ∧ t < u.n) (h2 : ∀ t ∈ c.P, u.buf t = none ∧ t ∉ c.F)
    (h3 : EvOk u c) (h4 : c.st = none) (h5 : u.stopping ≤ c.stp) : Ok u c :=
  ⟨⟨fun t ht => (h1 t ht).1, fun t ht => (h1 t ht).2, (fun t ht p hp => by rw [hs] at hp; cases hp), fun t ht => (h2 t ht).1, fun t ht => (h2 t ht).2⟩, h3, by rw [hs, h4]; rfl,
    (fun p hp => by rw [hs] at hp; cases hp), by rw [hs]; exact h5, fun h => by rw [hs] at h; simp at h⟩

theorem flag_of_off {u : SB K V I} (h : u.running = false) (e : Nat) (he : u.stopEvent = some e) : u.flag e = true := by
  unfold SB.running at h
  rw [he] at h
  simpa using h

theorem burst_mkThr {z : SB K V I} (h : z.start = some .mkThr) :
    z.exec cfg [.startGo, .startGo, .openRaise, .stop] = some { z with thr := fun j => if j = z.n then .fresh else z.thr j, thread := some z.n, n := z.n + 1, stopEvent := some z.n, start := none, flag := fun j => if j = z.n then true else z.flag j, stopping := z.stopping + 1, log := z.log ++ [.openRaised z.n, .eventSet z.n, .stopCalled (.ok ())] } := by
  simp [SB.exec, SB.step, SB.startGo, h, SB.setThr, SB.setEvent, SB.say]

theorem burst_mkEvt {z : SB K V I} (h : z.start = some .mkEvt) :
    z.exec cfg [.startGo, .openRaise, .stop] = some { z with stopEvent := some (z.n - 1), start := none, flag := fun j => if j = z.n - 1 then true else z.flag j, stopping := z.stopping + 1, log := z.log ++ [.openRaised (z.n - 1), .eventSet (z.n - 1), .stopCalled (.ok ())] } := by
  simp [SB.exec, SB.step, SB.startGo, h, SB.setThr, SB.setEvent, SB.say]

set_option maxHeartbeats 4000000 in
theorem follows_interrupt {u : SB K V I} {c : Ctl V I} {p : StartPC} (h : Ok u c) (hi : (ov u c).Inv) (hp : u.start = some p) :
    Follows cfg u c { u with start := none, n := if p = .mkThr then u.n + 1 else u.n } [] := by
  obtain ⟨⟨hidle, hlt, hold, hnobuf, hnb⟩, hev, hst, hth, hstp, hoff⟩ := h
  have hrun := running_ov hev
  have hph := hi.ph
  have hnthr := hi.noThr u.n (Nat.le_refl _)
  have hnbuf := hi.noBuf u.n (Nat.le_refl _)
  obtain ⟨P, F, ev, th, st, stp, L⟩ := c
  simp only at *
  rw [hp] at hst
  subst hst
  by_cases he : p.keeps = true
  · have hpm : p ≠ .mkThr := by rintro rfl; cases he
    rw [if_neg hpm]
    have hst : Option.filter (fun p => !p.keeps) (some p) = none := by simp [Option.filter, he]
    refine ⟨[], ⟨P, F, ev, th, none, stp, L⟩, [], [], Ok.idle rfl (fun t ht => ⟨hidle t ht, hlt t ht⟩) (fun t ht => ⟨hnobuf t ht, hnb t ht⟩) hev rfl ?_, ?_, rfl, by simp, by simp, rfl⟩
    · dsimp only; omega
    · simp only [SB.exec, ov, hst]
  · cases p
    all_goals try (simp [StartPC.keeps] at he; done)
    case neg.mkThr =>
      have hnP : u.n ∉ P := fun h => by have := hlt _ (.inl h); omega
      have hnF : u.n ∉ F := fun h => by have := hlt _ (.inr h); omega
      have hoff : u.running = false := by
        rw [← hrun]
        unfold SB.running
        rcases hph.2 with ⟨h1, -⟩ | ⟨h1, -, h2⟩
        · rw [h1]
        · rw [h1]; simp only [h2]; rfl
      have hun : u.thr u.n = .unborn := by simpa [ov, hnP, hnF] using hnthr
      refine ⟨[.startGo, .startGo, .openRaise, .stop], ⟨u.n :: P, F, some u.n, some u.n, none, stp + 1, L ++ [.openRaised u.n, .eventSet u.n, .stopCalled (.ok ())]⟩, [], _,
        Ok.idle rfl (fun t ht => ?_) (fun t ht => ?_) (.inr ⟨⟨u.n, rfl, List.mem_cons_self⟩, flag_of_off hoff⟩) rfl ?_, (burst_mkThr rfl).trans ?_, rfl, by simp, rfl, rfl⟩
      · simp only [List.mem_cons] at ht
        simp only [if_true]
        rcases ht with (rfl | ht) | ht
        · exact ⟨.inr hun, by omega⟩
        · exact ⟨hidle _ (.inl ht), by have := hlt _ (.inl ht); omega⟩
        · exact ⟨hidle _ (.inr ht), by have := hlt _ (.inr ht); omega⟩
      · simp only [List.mem_cons] at ht
        rcases ht with rfl | ht
        · exact ⟨hnbuf, hnF⟩
        · exact ⟨hnobuf _ ht, hnb _ ht⟩
      · dsimp only; omega
      · simp only [ov, if_true]
        congr 2
        · funext j
          by_cases hj : j = u.n <;> simp [hj]
        · funext j
          by_cases hj : j = u.n
          · subst hj; simp [hnF]
          · simp [hj]
    case neg.mkEvt =>
      have hm : ∀ t, t ∈ P ∨ t ∈ F → t + 1 < u.n := fun t ht => hold t ht _ hp rfl (by simp)
      obtain ⟨hn0, -, hfr, hbn, -, -, hse⟩ := hph
      have hn0 : 0 < u.n := hn0
      have hnP : u.n - 1 ∉ P := fun h => by have := hm _ (.inl h); omega
      have hnF : u.n - 1 ∉ F := fun h => by have := hm _ (.inr h); omega
      have hoff : u.running = false := by
        rw [← hrun]
        unfold SB.running
        rcases hse with ⟨h1, -⟩ | ⟨h1, h2⟩
        · rw [h1]
        · have := hi.oldFlag (u.n - 2) (by have h2 : 1 < u.n := h2; show u.n - 2 + 1 < u.n; omega)
          rw [h1]; change (!(ov u _).flag (u.n - 2)) = false; rw [this]; rfl
      have hfr : u.thr (u.n - 1) = .fresh := by
        have hfr : (if u.n - 1 ∈ F then TPC.check else if u.n - 1 ∈ P then TPC.fresh else u.thr (u.n - 1)) = .fresh := hfr
        simpa [hnP, hnF] using hfr
      have hbn : u.buf (u.n - 1) = none := hbn
      refine ⟨[.startGo, .openRaise, .stop], ⟨(u.n - 1) :: P, F, some (u.n - 1), th, none, stp + 1, L ++ [.openRaised (u.n - 1), .eventSet (u.n - 1), .stopCalled (.ok ())]⟩, [], _,
        Ok.idle rfl (fun t ht => ?_) (fun t ht => ?_) (.inr ⟨⟨u.n - 1, rfl, List.mem_cons_self⟩, flag_of_off hoff⟩) rfl ?_, (burst_mkEvt rfl).trans ?_, rfl, by simp, rfl, rfl⟩
      · simp only [List.mem_cons] at ht
        simp only [reduceCtorEq, if_false]
        rcases ht with (rfl | ht) | ht
        · exact ⟨.inl hfr, by omega⟩
        · exact ⟨hidle _ (.inl ht), hlt _ (.inl ht)⟩
        · exact ⟨hidle _ (.inr ht), hlt _ (.inr ht)⟩
      · simp only [List.mem_cons] at ht
        rcases ht with rfl | ht
        · exact ⟨hbn, hnF⟩
        · exact ⟨hnobuf _ ht, hnb _ ht⟩
      · dsimp only; omega
      · simp only [ov, reduceCtorEq, if_false]
        congr 2
        · funext j
          by_cases hj : j = u.n - 1 <;> simp [hj]
        · funext j
          by_cases hj : j = u.n - 1
          · subst hj; simp [hnF, hnP, hfr]
          · simp [hj]
    case neg.opening =>
      refine ⟨[.openRaise], ⟨P, F, ev, th, none, stp, L ++ [.openRaised (u.n - 1)]⟩, [], _, Ok.idle rfl (fun t ht => ⟨hidle t ht, ?_⟩) (fun t ht => ⟨hnobuf t ht, hnb t ht⟩) hev rfl ?_, rfl, rfl, by simp, rfl, rfl⟩
      · simp only [reduceCtorEq, if_false]; exact hlt t ht
      · dsimp only; omega
    case neg.mkBuf =>
      refine ⟨[.bufRaise], ⟨P, F, ev, th, none, stp, L ++ [.infoRaised (u.n - 1)]⟩, [], _, Ok.idle rfl (fun t ht => ⟨hidle t ht, ?_⟩) (fun t ht => ⟨hnobuf t ht, hnb t ht⟩) hev rfl ?_, rfl, rfl, by simp, rfl, rfl⟩
      · simp only [reduceCtorEq, if_false]; exact hlt t ht
      · dsimp only; omega
    case neg.launch =>
      have hm : ∀ t, t ∈ P ∨ t ∈ F → t + 1 < u.n := fun t ht => hold t ht _ hp rfl (by simp)
      obtain ⟨hn0, hth2, hfr, -, -, -⟩ := hph
      have hn0 : 0 < u.n := hn0
      have hth2 : th = some (u.n - 1) := hth2
      have hnP : u.n - 1 ∉ P := fun h => by have := hm _ (.inl h); omega
      have hnF : u.n - 1 ∉ F := fun h => by have := hm _ (.inr h); omega
      have hfr' : u.thr (u.n - 1) = .fresh := by
        have hfr : (if u.n - 1 ∈ F then TPC.check else if u.n - 1 ∈ P then TPC.fresh else u.thr (u.n - 1)) = .fresh := hfr
        simpa [hnP, hnF] using hfr
      subst hth2
      refine ⟨[.startGo], ⟨P, (u.n - 1) :: F, ev, some (u.n - 1), none, stp, L ++ [.launched (u.n - 1)]⟩, [], _, Ok.idle rfl (fun t ht => ?_) (fun t ht => ⟨hnobuf t ht, ?_⟩) hev rfl ?_, ?_, rfl, by simp, rfl, rfl⟩
      · simp only [List.mem_cons] at ht
        simp only [reduceCtorEq, if_false]
        rcases ht with ht | (rfl | ht)
        · exact ⟨hidle _ (.inl ht), hlt _ (.inl ht)⟩
        · exact ⟨.inl hfr', by omega⟩
        · exact ⟨hidle _ (.inr ht), hlt _ (.inr ht)⟩
      · have := hm t (.inl ht)
        simp only [List.mem_cons, not_or]
        exact ⟨by omega, hnb t ht⟩
      · dsimp only; omega
      · have h1 : (ov u ⟨P, F, ev, some (u.n - 1), Option.filter (fun p => !p.keeps) (some .launch), stp, L⟩).start = some .launch := rfl
        have h2 : (ov u ⟨P, F, ev, some (u.n - 1), Option.filter (fun p => !p.keeps) (some .launch), stp, L⟩).thread = some (u.n - 1) := rfl
        simp only [SB.exec, SB.step, SB.startGo, h1, h2]
        simp only [ov, SB.setThr, SB.say, reduceCtorEq, if_false]
        congr 2
        funext j
        by_cases hj : j = u.n - 1 <;> simp [hj]

/-- The statements of the stream buffer in an execution, without the interruptions. -/
def plain : List (IAct K V I) → List (SBAct K V I)
  | [] => []
  | .sb a :: xs => a :: plain xs
  | .interrupt :: xs => plain xs

/-- Whether the source had been opened by then. -/
def _root_.S2P.StartPC.opened : StartPC → Bool
  | .mkBuf | .launch => true
  | _ => false

/-- A session that was interrupted after its predecessor's buffer was let go. -/
structure CutOk (u : SB K V I) (k : Nat) (p : StartPC) : Prop where
  thr : u.thr k = .fresh ∨ u.thr k = .unborn
  lt : k < u.n
  old : ∀ q, u.start = some q → q.late = true → q ≠ .mkThr → k + 1 < u.n
  opened : Ev.opened k ∈ u.log ↔ p.opened = true

/-- The statements of `start()` with a thread made and `open()` not yet returned. -/
def _root_.S2P.StartPC.before : StartPC → Bool
  | .mkEvt | .opening => true
  | _ => false

set_option maxHeartbeats 4000000 in
theorem CutOk.step {u u' : SB K V I} {a : SBAct K V I} {k : Nat} {p : StartPC} (h : CutOk u k p) (hth : u.start = some .launch → u.thread = some (u.n - 1)) (hs : u.step cfg a = some u') :
    CutOk u' k p := by
  obtain ⟨h1, h2, h3, h4⟩ := h
  have hst := SB.step_to hs
  clear hs
  cases hst
  all_goals try simp only [SB.say, SB.setThr, SB.setBuf, SB.setEvent, SB.setNext, SB.setDrop, SB.setInfo, SB.newSess, SB.running] at *
  all_goals refine ⟨?_, ?_, ?_, ?_⟩ <;> try dsimp only
  all_goals first
    | assumption
    | grind [StartPC.late]

set_option maxHeartbeats 4000000 in
theorem before_step {u u' : SB K V I} {a : SBAct K V I} (hn : Ev.opened u.n ∉ u.log) (h : ∀ p, u.start = some p → p.before = true → Ev.opened (u.n - 1) ∉ u.log) (hs : u.step cfg a = some u') :
    ∀ p, u'.start = some p → p.before = true → Ev.opened (u'.n - 1) ∉ u'.log := by
  have hst := SB.step_to hs
  clear hs
  cases hst
  all_goals try simp only [SB.say, SB.setThr, SB.setBuf, SB.setEvent, SB.setNext, SB.setDrop, SB.setInfo, SB.newSess, SB.running] at *
  all_goals first
    | assumption
    | grind [StartPC.before]

/-- The other execution, and what is known of the interrupted sessions. -/
structure Sim (cfg : SBCfg K V) (s : ISB K V I) (as : List (SBAct K V I)) (c : Ctl V I) : Prop where
  reach : SB.init.exec cfg as = some (ov s.sb c)
  ok : Ok s.sb c
  log : s.sb.log.filter Ev.aside = c.L.filter Ev.aside
  before : ∀ p, s.sb.start = some p → p.before = true → Ev.opened (s.sb.n - 1) ∉ s.sb.log
  quiet : ∀ t, s.sb.thr t = .fresh ∨ s.sb.thr t = .unborn → ∀ e ∈ s.sb.log, byThread t e = false
  cuts : ∀ k p, (k, p) ∈ s.cuts → p.late = true → CutOk s.sb k p

theorem mem_log {as : List (SBAct K V I)} {c : Ctl V I} (h : Sim cfg s as c) {e : Ev V I} (he : e.aside = true) : e ∈ s.sb.log ↔ e ∈ c.L := by
  have h1 : e ∈ s.sb.log.filter Ev.aside ↔ e ∈ c.L.filter Ev.aside := by rw [h.log]
  simpa [List.mem_filter, he] using h1

theorem step_cases (hs : s.step cfg x = some s') :
    (∃ a, x = .sb a ∧ s.sb.step cfg a = some s'.sb ∧ s'.cuts = s.cuts) ∨
    (∃ p, x = .interrupt ∧ s.sb.start = some p ∧
      s' = { sb := { s.sb with start := none, n := if p = .mkThr then s.sb.n + 1 else s.sb.n }, cuts := s.cuts ++ [(if p = .mkThr then s.sb.n else s.sb.n - 1, p)] }) := by
  cases x with
  | sb a =>
    simp only [step, Option.map_eq_some_iff] at hs
    obtain ⟨y, hy, rfl⟩ := hs
    exact .inl ⟨a, rfl, hy, rfl⟩
  | interrupt =>
    right
    simp only [step] at hs
    cases h : s.sb.start with
    | none => rw [h] at hs; cases hs
    | some p =>
      rw [h] at hs
      refine ⟨p, rfl, rfl, ?_⟩
      cases p <;> (injection hs with hs; subst hs; rfl)

theorem Sim.step {as : List (SBAct K V I)} {c : Ctl V I} (h : Sim cfg s as c) (hs : s.step cfg x = some s') :
    ∃ bs c', Sim cfg s' (as ++ bs) c' ∧ bs.filter (fun a => !a.startStop) = (plain [x]).filter (fun a => !a.startStop) := by
  have hml := @mem_log _ _ _ _ _ cfg s as c h
  obtain ⟨h1, h2, h3, hb, h4, h5⟩ := h
  have hg := SB.good h1
  have hfi := SB.failInv h1
  have hevt : ∀ b x, s.sb.buf b = some x → x.evt = b := hg.inv.evt
  have hnP : s.sb.n ∉ c.P := fun h => by have := h2.cut.lt _ (.inl h); omega
  have hnF : s.sb.n ∉ c.F := fun h => by have := h2.cut.lt _ (.inr h); omega
  have hun : s.sb.thr s.sb.n = .unborn := by
    have := hg.inv.noThr s.sb.n (Nat.le_refl _)
    simpa [ov, hnP, hnF] using this
  have hph := hg.inv.ph
  have hstl : ∀ p, s.sb.start = some p → p.late = true → (ov s.sb c).start = some p := by
    intro p hp hl
    show c.st = some p
    rw [h2.st, hp]
    cases p <;> first | rfl | cases hl
  have hno : Ev.opened s.sb.n ∉ s.sb.log := fun hm => by
    have h : s.sb.n < (ov s.sb c).n := hg.log.latest _ (.inl ((hml rfl).1 hm))
    exact Nat.lt_irrefl _ h
  have key : ∀ keep, keep = (plain [x]).filter (fun a => !a.startStop) → Follows cfg s.sb c s'.sb keep →
      (∀ p, s'.sb.start = some p → p.before = true → Ev.opened (s'.sb.n - 1) ∉ s'.sb.log) →
      (∀ t, s'.sb.thr t = .fresh ∨ s'.sb.thr t = .unborn → ∀ e ∈ s'.sb.log, byThread t e = false) → (∀ k p, (k, p) ∈ s'.cuts → p.late = true → CutOk s'.sb k p) →
      ∃ bs c', Sim cfg s' (as ++ bs) c' ∧ bs.filter (fun a => !a.startStop) = (plain [x]).filter (fun a => !a.startStop) := by
    rintro keep rfl ⟨bs, c', l, l', hok, hex, hkeep, hl, hl', hfl⟩ q1 q2 q3
    refine ⟨bs, c', ⟨?_, hok, ?_, q1, q2, q3⟩, hkeep⟩
    · rw [SB.exec_append, h1]; exact hex
    · rw [hl, hl', List.filter_append, List.filter_append, h3, hfl]
  rcases step_cases hs with ⟨a, rfl, ha, hcut⟩ | ⟨p, rfl, hp, rfl⟩
  · have hq := LSB.quiet_step ha hun h4
    have hlth : s.sb.start = some .launch → s.sb.thread = some (s.sb.n - 1) := by
      intro hl
      rw [hstl _ hl rfl] at hph
      rw [← h2.th _ hl rfl (by simp)]
      exact hph.2.1
    have hc : ∀ k p, (k, p) ∈ s'.cuts → p.late = true → CutOk s'.sb k p := by
      rw [hcut]; exact fun k p hm hl => (h5 k p hm hl).step hlth ha
    have hb' := before_step hno hb ha
    cases hof : a.startStop with
    | false => exact key [a] (by simp [plain, hof]) (follows_other hof h2 hevt ha) hb' hq hc
    | true => exact key [] (by simp [plain, hof]) (follows_start hof h2 hg.inv hfi ha) hb' hq hc
  · refine key [] rfl (follows_interrupt h2 hg.inv hp) (by simp) h4 ?_
    intro k q hm hl
    simp only [List.mem_append, List.mem_singleton, Prod.mk.injEq] at hm
    rcases hm with hm | ⟨rfl, rfl⟩
    · obtain ⟨e1, e2, e3, e4⟩ := h5 k q hm hl
      refine ⟨e1, ?_, by simp, e4⟩
      dsimp only
      split <;> omega
    · rw [hstl _ hp hl] at hph
      have hbef := hb _ hp
      cases q
      all_goals try (cases hl; done)
      · refine ⟨.inr hun, ?_, by simp, by simp [StartPC.opened, hno]⟩
        simp
      all_goals
        have hm : ∀ t, t ∈ c.P ∨ t ∈ c.F → t + 1 < s.sb.n := fun t ht => h2.cut.old t ht _ hp rfl (by simp)
        have hn0 : 0 < s.sb.n := hph.1
        have hfr : s.sb.thr (s.sb.n - 1) = .fresh := by
          have hfr : (if s.sb.n - 1 ∈ c.F then TPC.check else if s.sb.n - 1 ∈ c.P then TPC.fresh else s.sb.thr (s.sb.n - 1)) = .fresh := hph.2.2.1
          rw [if_neg (fun h => by have := hm _ (.inr h); omega), if_neg (fun h => by have := hm _ (.inl h); omega)] at hfr
          exact hfr
        refine ⟨.inl ?_, ?_, by simp, ?_⟩
        · simpa using hfr
        · simp; omega
      · simpa [StartPC.opened] using hbef rfl
      · simpa [StartPC.opened] using hbef rfl
      · simp only [reduceCtorEq, if_false, StartPC.opened, iff_true]
        exact (hml rfl).2 (hg.log.opn (hstl _ hp rfl))
      · simp only [reduceCtorEq, if_false, StartPC.opened, iff_true]
        obtain ⟨z, hz⟩ := Option.isSome_iff_exists.1 hph.2.2.2.1
        exact (hml rfl).2 (hg.log.made _ _ (hg.log.info _ z hz)).2

theorem sim_from {as : List (SBAct K V I)} {c : Ctl V I} (h : Sim cfg s as c) (he : s.exec cfg xs = some s') :
    ∃ bs c', Sim cfg s' (as ++ bs) c' ∧ bs.filter (fun a => !a.startStop) = (plain xs).filter (fun a => !a.startStop) := by
  induction xs generalizing s as c with
  | nil => simp only [exec, Option.some.injEq] at he; subst he; exact ⟨[], c, by simpa using h, rfl⟩
  | cons x xs ih =>
    simp only [exec] at he
    split at he
    · obtain ⟨bs, c1, h1, k1⟩ := h.step ‹_›
      obtain ⟨bs', c2, h2, k2⟩ := ih h1 he
      refine ⟨bs ++ bs', c2, by rw [← List.append_assoc]; exact h2, ?_⟩
      have : plain (x :: xs) = plain [x] ++ plain xs := by cases x <;> simp [plain]
      rw [this, List.filter_append, List.filter_append, k1, k2]
    · simp at he

theorem sim (he : (ISB.init : ISB K V I).exec cfg xs = some s) :
    ∃ as c, Sim cfg s as c ∧ as.filter (fun a => !a.startStop) = (plain xs).filter (fun a => !a.startStop) := by
  have h0 : Sim cfg (ISB.init : ISB K V I) [] ⟨[], [], none, none, none, 0, []⟩ := by
    refine ⟨by simp [SB.exec, ov, ISB.init, SB.init], Ok.idle rfl (by simp) (by simp) (.inl ⟨rfl, by simp⟩) rfl (Nat.le_refl _), rfl, by simp [ISB.init, SB.init], by simp [ISB.init, SB.init], by simp [ISB.init]⟩
  obtain ⟨bs, c, h, hk⟩ := sim_from h0 he
  exact ⟨bs, c, by simpa using h, hk⟩

end ISB
end S2P
