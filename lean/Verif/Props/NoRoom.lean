import Verif.Props.EndToEnd
/-
C170: settings with which nothing can be delivered: `maxlen=0` (stream_buffer.py 45, 256, 291; a `deque(maxlen=0)` keeps nothing), and a
`_SourceBuffer` that cannot be made (287-295: a negative `maxlen`, or `info` / `key` of the source raising each time).
-/
namespace S2P
open Spec

namespace Spec
variable {K V : Type} [LinearOrder K]

/-- A reader of an empty buffer is handed nothing, whatever it calls. -/
theorem rdStep_empty (key : V → K) (kn : Py (Option K)) (cfg : Cfg) (cur : Option V) (op : RdOp K V) :
    outItems (rdStep key kn ([] : List V) cfg cur op).1 = [] := by
  have hno : ∀ b, outItems (noItem b : Py (Ret V)) = [] := fun b => by cases b <;> rfl
  have hu : ∀ c, unread key ([] : List V) c = [] := fun c => by cases c <;> rfl
  have hread : ∀ n i s, outItems (Spec.read key ([] : List V) cur n i s) = [] := fun n i s => by simp only [Spec.read, hu, hno]
  have hfin : ∀ p i, outItems (finish p i ([] : List V)) = [] := fun p i => by
    cases p <;> cases i <;> rfl
  have hstr : ∀ n, stride n ([] : List V) = [] := fun n => by cases n <;> simp [stride]
  have hans : ∀ st p i, outItems (answer st p i ([] : List V)) = [] := fun st p i => by
    cases st with
    | none => exact hfin p i
    | some st =>
      simp only [answer]
      split
      · rfl
      · rw [hstr]; exact hfin p i
  cases op with
  | read n p i s => exact hread _ _ _
  | nextMethod n p i s => exact hread _ _ _
  | readForNext => exact hread _ _ _
  | range a b st p i o le ge =>
    simp only [rdStep, range]
    split
    · rfl
    · rfl
    · split
      · exact hno _
      · have : ∀ x y, between key x y ([] : List V) = [] := fun x y => rfl
        rw [this]; exact hans _ _ _
  | tail p i o =>
    simp only [rdStep, tail, List.getLast?_nil]
    split <;> rfl
  | head p => rfl
  | setLast v => rfl
  | delLast => rfl

end Spec

variable {K V I : Type} [LinearOrder K] [BEq V] [ReflBEq V]

theorem Ch.no_room {key : V → K} {kn : Py (Option K)} {cfg : Nat → Cfg} {c : Ch K V} (h : c.Reach key kn (some 0) cfg) : c.buf.items = [] := by
  have := h.sim.swf.wf.bounded 0 h.sim.maxlen
  exact List.eq_nil_of_length_eq_zero (by omega)

/-- One call on a buffer without room: nothing is handed out, an append is accepted. -/
theorem Ch.no_room_step {key : V → K} {kn : Py (Option K)} {cfg : Nat → Cfg} {c : Ch K V} (h : c.Reach key kn (some 0) cfg) (op : ChOp K V) :
    outItems (c.step op).2 = [] ∧ ∀ v, op = .append v → (c.step op).2 = .ok .none := by
  have hi := Ch.no_room h
  have hw := h.sim.items
  rw [hi] at hw
  have hs := (h.sim.step op).1
  cases op with
  | append v =>
    rw [hs]
    simp only [Spec.Window.step, ← hw, mayAppend, List.getLast?_nil, if_true]
    exact ⟨rfl, by simp⟩
  | drop n =>
    rw [hs]
    simp only [Spec.Window.step]
    split <;> exact ⟨rfl, fun _ h => by cases h⟩
  | rd i op =>
    rw [hs]
    simp only [Spec.Window.step, ← hw]
    exact ⟨rdStep_empty _ _ _ _ _, fun _ h => by cases h⟩

theorem Cons.no_room {key : V → K} {kn : Py (Option K)} {cfg : Nat → Cfg} {c : Cons K V} (h : c.Reach key kn (some 0) cfg) :
    (∀ p ∈ c.ops.zip c.outs, outItems p.2 = [] ∧ ∀ v, p.1 = .append v → p.2 = .ok .none) ∧ ∀ e ∈ c.evts, e.2.items = [] := by
  obtain ⟨as, he⟩ := h
  refine (Cons.exec_ind (P := fun c : Cons K V => c.Reach key kn (some 0) cfg ∧ c.ops.length = c.outs.length ∧
    (∀ p ∈ c.ops.zip c.outs, outItems p.2 = [] ∧ ∀ v, p.1 = .append v → p.2 = .ok .none) ∧ ∀ e ∈ c.evts, e.2.items = []) ?_ as
    ⟨⟨[], rfl⟩, rfl, by simp [Cons.init], by simp [Cons.init]⟩ he).2.2
  rintro c a c' ⟨hr, hl, h1, h2⟩ hs
  refine ⟨hr.exec (as := [a]) (by simp only [Cons.exec, hs]), ?_⟩
  refine ⟨?_, ?_, ?_⟩
  · rcases Cons.step_call hs with ⟨_, e2, e3⟩ | ⟨op, _, e2, e3⟩
    · rw [e2, e3, hl]
    · rw [e2, e3]; simp [hl]
  · rcases Cons.step_call hs with ⟨_, e2, e3⟩ | ⟨op, _, e2, e3⟩
    · rw [e2, e3]; exact h1
    · rw [e2, e3, List.zip_append hl]
      intro p hp
      rcases List.mem_append.1 hp with hp | hp
      · exact h1 p hp
      · simp at hp; subst hp
        exact Ch.no_room_step hr.ch op
  · have hcall : ∀ op r, c.call op = r → outItems r.2 = [] := fun op r h => by
      subst h; exact (Ch.no_room_step hr.ch op).1
    have hev : ∀ op r, c.call op = r → r.1.evts = c.evts := fun op r h => by subst h; rfl
    cases a with
    | call op => simp only [Cons.step, Option.some.injEq] at hs; subst hs; exact h2
    | setStop => simp only [Cons.step, Option.some.injEq] at hs; subst hs; exact h2
    | callNext i | callIter i | callRead i n p st | leave i =>
      simp only [Cons.step] at hs
      split at hs
      · injection hs with hs; subst hs; exact h2
      · simp at hs
    | go i =>
      simp only [Cons.step, Cons.go] at hs
      split at hs
      · simp at hs
      all_goals try split at hs
      all_goals
        injection hs with hs; subst hs
        try simp only [Cons.goto, Cons.emit]
      all_goals first
        | exact h2
        | (rename_i hc; have k1 := hcall _ _ hc; have k2 := hev _ _ hc
           simp only [outItems] at k1 k2
           try rw [k2]
           first
           | exact h2
           | (intro e he
              rcases List.mem_append.1 he with he | he
              · exact h2 e he
              · simp at he; subst he; first | exact k1 | rfl))
        | (intro e he
           rcases List.mem_append.1 he with he | he
           · exact h2 e he
           · simp at he; subst he; rfl)

namespace SB
variable {cfg : SBCfg K V} {as : List (SBAct K V I)} {s : SB K V I}

/-- **C170** with `maxlen=0` no buffer ever retains an item; no call on a reader, in whatever way, hands out an item; what is appended is accepted
(and lost); no loop, `next` or blocking read gets an item; `source_reader_info` is `None` at all times. Every execution, any number of sessions. -/
theorem C170_nothing_retained (hm : cfg.maxlen = some 0) (he : SB.init.exec cfg as = some s) :
    (∀ b, s.items b = []) ∧
    (∀ b c, s.view b = some c →
      (∀ p ∈ c.ops.zip c.outs, outItems p.2 = [] ∧ ∀ v, p.1 = .append v → p.2 = .ok .none) ∧ ∀ i, received c i = []) ∧
    ∀ i, Ev.info (.ok (some i)) ∉ s.log := by
  have hv : ∀ {s : SB K V I} {as : List (SBAct K V I)}, SB.init.exec cfg as = some s → ∀ b c, s.view b = some c →
      c.Reach cfg.key cfg.keyNone (some 0) cfg.rdCfg := fun he b c hv => by
    have := view_reach he b c hv
    rwa [hm] at this
  have hit : ∀ {s : SB K V I} {as : List (SBAct K V I)}, SB.init.exec cfg as = some s → ∀ b x, s.buf b = some x → x.cons.ch.buf.items = [] :=
    fun {s} {as} he b x hx => by
      have := hv he b { x.cons with stopped := s.flag x.evt } (by simp only [view, hx, Option.map_some])
      exact Ch.no_room this.ch
  refine ⟨fun b => ?_, fun b c hc => ?_, ?_⟩
  · unfold items
    split
    · exact hit he b _ ‹_›
    · rfl
  · obtain ⟨h1, h2⟩ := Cons.no_room (hv he b c hc)
    refine ⟨h1, fun i => ?_⟩
    simp only [received, Cons.evtsOf, List.flatMap_eq_nil_iff, List.mem_map, List.mem_filter]
    rintro e ⟨p, ⟨hp, _⟩, rfl⟩
    exact h2 p hp
  · have key : ∀ s' : SB K V I, s'.BufsOk cfg → ∀ b x, s'.buf b = some x → x.cons.ch.buf.len = 0 := fun s' hB b x hx => by
      have h1 := hB.reach b { x.cons with stopped := s'.flag x.evt } (by simp only [view, hx, Option.map_some])
      rw [hm] at h1
      have h2 := Ch.no_room h1.ch
      simp only [SD.len]
      simp only at h2
      rw [h2]; rfl
    refine (ind (cfg := cfg) (P := fun s : SB K V I => (∀ c, s.infos c ≠ .again) ∧ ∀ i, Ev.info (.ok (some i)) ∉ s.log) ?_ ?_ he).2
    · exact ⟨fun c => by simp [SB.init], fun i => by simp [SB.init]⟩
    · rintro s a s' hg ⟨h1, h2⟩ hs
      have hb := key s hg.bufs
      have hst := step_to hs
      clear hs hg
      cases hst
      all_goals try dsimp only [say, setThr, setBuf, setEvent, setNext, setDrop, setInfo, newSess, running]
      case infoTested c b x h hx hl => exact absurd (hb b x hx) hl
      case infoOk c b x h hx hl => exact absurd h (h1 c)
      all_goals first
        | exact ⟨h1, h2⟩
        | exact ⟨h1, fun i => by simp [h2 i]⟩
        | exact ⟨fun c => by split <;> first | exact h1 _ | simp, fun i => by first | exact h2 i | simp [h2 i]⟩

/-- **C170** with `maxlen=0` and unless the key function or a comparison raises, no item is refused: each is read from the source, appended
without error and lost. -/
theorem C170_nothing_refused (hm : cfg.maxlen = some 0) (hk : ∀ a ∈ as, ∀ t e, a ≠ .keyRaise t e) (he : SB.init.exec cfg as = some s) (t : Nat) :
    refusedBy t s.log = [] := by
  have main : ∀ (as : List (SBAct K V I)) (s0 : SB K V I) (pre : List (SBAct K V I)), SB.init.exec cfg pre = some s0 → refusedBy t s0.log = [] →
      (∀ a ∈ as, ∀ t e, a ≠ .keyRaise t e) → ∀ s, s0.exec cfg as = some s → refusedBy t s.log = [] := by
    intro as
    induction as with
    | nil => intro s0 pre _ h0 _ s h; simp only [SB.exec, Option.some.injEq] at h; exact h ▸ h0
    | cons a as ih =>
      intro s0 pre hpre h0 hk s h
      simp only [SB.exec] at h
      split at h
      swap
      · simp at h
      rename_i s1 hs
      have hpre1 : SB.init.exec cfg (pre ++ [a]) = some s1 := by rw [exec_append, hpre]; simp only [Option.bind, SB.exec, hs]
      refine ih s1 _ hpre1 ?_ (fun a ha => hk a (by simp [ha])) s h
      have hka := hk a (by simp)
      have hB := (good hpre).bufs
      have hst := step_to hs
      clear hs ih hk h hpre1
      cases hst
      case keyRaise t e b v hb => exact absurd rfl (hka t e)
      case refused t' b v x e hb hx hr =>
        have h1 := hB.reach b { x.cons with stopped := s0.flag x.evt } (by simp only [view, hx, Option.map_some])
        rw [hm] at h1
        have := (Ch.no_room_step h1.ch (.append v)).2 v rfl
        simp only [Cons.call] at hr
        rw [this] at hr
        cases hr
      all_goals
        try dsimp only [say, setThr, setBuf, setEvent, setNext, setDrop, setInfo, newSess, running]
        first
        | exact h0
        | (simp only [refusedBy, List.filterMap_append]; rw [show List.filterMap _ s0.log = [] from h0]; rfl)
  exact main as SB.init [] rfl rfl hk s he

/-- **C170** with `maxlen=0` and `auto_drop=False` the background thread never reads from the source, so nothing is ever stored. -/
theorem C170_never_reads (hm : cfg.maxlen = some 0) (ha : cfg.autoDrop = false) (he : SB.init.exec cfg as = some s) :
    (∀ t, s.log.countP (isReadBy t) = 0) ∧ ∀ b, storedIn b s.log = [] := by
  have := ind (cfg := cfg) (P := fun s : SB K V I => (∀ t, s.thr t ≠ .reading ∧ (∀ v, s.thr t ≠ .appending v) ∧ ∀ b v, s.thr t ≠ .storing b v) ∧
    (∀ t, s.log.countP (isReadBy t) = 0) ∧ ∀ b, storedIn b s.log = []) ?_ ?_ he
  · exact this.2
  · exact ⟨fun t => by simp [SB.init], fun t => rfl, fun b => rfl⟩
  · rintro s a s' hg ⟨h1, h2, h3⟩ hs
    have hst := step_to hs
    clear hs hg
    have hthr : ∀ (t : Nat) (p : TPC V), p ≠ .reading → (∀ v, p ≠ .appending v) → (∀ b v, p ≠ .storing b v) → ∀ u,
        (s.setThr t p).thr u ≠ .reading ∧ (∀ v, (s.setThr t p).thr u ≠ .appending v) ∧ ∀ b v, (s.setThr t p).thr u ≠ .storing b v := by
      intro t p k1 k2 k3 u
      simp only [setThr]
      split
      · exact ⟨k1, k2, k3⟩
      · exact h1 u
    have hlog : ∀ l : List (Ev V I), (∀ t, l.countP (isReadBy t) = 0) → (∀ b, storedIn b l = []) →
        (∀ t, (s.log ++ l).countP (isReadBy t) = 0) ∧ ∀ b, storedIn b (s.log ++ l) = [] := fun l k1 k2 =>
      ⟨fun t => by rw [List.countP_append, h2, k1], fun b => by rw [storedIn_append, h3, k2]; rfl⟩
    cases hst
    case capAuto t h ha' => rw [ha] at ha'; cases ha'
    case cap t b x m h hx hm' =>
      rw [hm] at hm'; injection hm' with hm'; subst hm'
      rw [if_neg (by omega)]
      exact ⟨hthr t _ (by simp) (by simp) (by simp), h2, h3⟩
    case append t v b h hb => exact absurd h ((h1 t).2.1 v)
    case appendNone t v h hb => exact absurd h ((h1 t).2.1 v)
    case stored t b v x r h hx hr => exact absurd h ((h1 t).2.2 b v)
    case refused t b v x r h hx hr => exact absurd h ((h1 t).2.2 b v)
    case keyRaise t e b v h => exact absurd h ((h1 t).2.2 b v)
    case readSome t v h => exact absurd h (h1 t).1
    case readNone t h => exact absurd h (h1 t).1
    case readRaise t e h => exact absurd h (h1 t).1
    all_goals first
      | exact ⟨h1, h2, h3⟩
      | exact ⟨h1, hlog _ (fun _ => rfl) (fun _ => rfl)⟩
      | exact ⟨hthr _ _ (by split <;> simp) (by split <;> simp) (by split <;> simp), h2, h3⟩
      | exact ⟨hthr _ _ (by simp) (by simp) (by simp), h2, h3⟩
      | exact ⟨hthr _ _ (by simp) (by simp) (by simp), hlog _ (fun _ => rfl) (fun _ => rfl)⟩
      | exact ⟨h1, by simp only [say, setEvent, List.append_assoc]; exact hlog _ (fun _ => rfl) (fun _ => rfl)⟩

/-- Neither a read, nor a store, nor a close, nor a thread started, nor a reader given out. -/
def notBegun : Ev V I → Bool
  | .launched _ | .closed _ _ | .read _ _ | .readRaised _ _ | .stored _ _ _ | .madeReader (.ok _) | .attached (.ok _) | .nextOn (.ok _) => false
  | _ => true

/-- **C170** if no `_SourceBuffer` can be made (a negative `maxlen`: `deque` raises `ValueError`; or `info` or `key` of the source raise each time), there is
never a reader, an item or a read, and the source, although each `start()` may open it, is never closed: not by `stop()` either. -/
theorem C170_never_starts (hb : ∀ a ∈ as, ∀ info, a ≠ .bufOk info) (he : SB.init.exec cfg as = some s) :
    (∀ b, s.view b = none) ∧ (∀ t, Ev.launched t ∉ s.log) ∧ (∀ t ok, Ev.closed t ok ∉ s.log) ∧ (∀ t, s.log.countP (isReadBy t) = 0) ∧
    (∀ b, storedIn b s.log = []) ∧ (∀ b, Ev.madeReader (.ok b) ∉ s.log) ∧ (∀ b, Ev.attached (.ok b) ∉ s.log) ∧ ∀ b, Ev.nextOn (.ok b) ∉ s.log := by
  have main : ∀ (as : List (SBAct K V I)) (s0 : SB K V I),
      ((∀ b, s0.buf b = none) ∧ s0.sourceBuffer = none ∧ s0.nextReader = none ∧ s0.start ≠ some .launch ∧ (∀ t, s0.thr t = .unborn ∨ s0.thr t = .fresh) ∧
        (∀ c b, s0.nexts c ≠ .store b) ∧ (∀ c, s0.drops c = none) ∧ (∀ c, s0.infos c = .idle)) ∧
      s0.log.all notBegun = true →
      (∀ a ∈ as, ∀ info, a ≠ .bufOk info) → ∀ s, s0.exec cfg as = some s →
      ((∀ b, s.buf b = none) ∧ s.sourceBuffer = none ∧ s.nextReader = none ∧ s.start ≠ some .launch ∧ (∀ t, s.thr t = .unborn ∨ s.thr t = .fresh) ∧
        (∀ c b, s.nexts c ≠ .store b) ∧ (∀ c, s.drops c = none) ∧ (∀ c, s.infos c = .idle)) ∧
      s.log.all notBegun = true := by
    intro as
    induction as with
    | nil => intro s0 h0 _ s h; simp only [SB.exec, Option.some.injEq] at h; exact h ▸ h0
    | cons a as ih =>
      intro s0 h0 hk s h
      simp only [SB.exec] at h
      split at h
      swap
      · simp at h
      rename_i s1 hs
      refine ih s1 ?_ (fun a ha => hk a (by simp [ha])) s h
      have hka := hk a (by simp)
      have hst := step_to hs
      clear hs ih hk h
      obtain ⟨⟨b1, b2, b3, b4, b5, b6, b7, b8⟩, hl⟩ := h0
      have hthr : ∀ t p, s0.thr t = p → p = .unborn ∨ p = .fresh := fun t p h => h ▸ b5 t
      cases hst
      case bufOk info e h he => exact absurd rfl (hka info)
      case launch t h ht => exact absurd h b4
      case mkReader h => rw [b2]; exact ⟨⟨b1, b2, b3, b4, b5, b6, b7, b8⟩, by simp only [say, List.all_append, hl]; rfl⟩
      case mkThr h =>
        refine ⟨⟨b1, b2, b3, by simp, fun t => ?_, b6, b7, b8⟩, hl⟩
        dsimp only [setThr]
        split
        · exact .inr rfl
        · exact b5 t
      case next c h =>
        refine ⟨⟨b1, b2, b3, b4, b5, fun c b => ?_, b7, b8⟩, hl⟩
        dsimp only [setNext]
        split
        · (try split) <;> simp
        · exact b6 c b
      case nextNone c h _ _ | nextGone c h _ =>
        refine ⟨⟨b1, b2, b3, b4, b5, fun c b => ?_, b7, b8⟩, by simp only [say, List.all_append]; exact by simpa [setNext, notBegun] using hl⟩
        dsimp only [say, setNext]
        split
        · simp
        · exact b6 c b
      case chk1 h | chk2 h => exact ⟨⟨b1, b2, b3, by dsimp only; split <;> simp, b5, b6, b7, b8⟩, hl⟩
      all_goals try (rename_i h; first | exact absurd h (by rw [b7]; simp) | exact absurd h (by rw [b8]; simp))
      all_goals first
        | exact ⟨⟨b1, b2, b3, b4, b5, b6, b7, b8⟩, hl⟩
        | exact ⟨⟨b1, b2, b3, (by dsimp only [say, setEvent]; simp), b5, b6, b7, b8⟩, hl⟩
        | exact ⟨⟨b1, b2, rfl, b4, b5, b6, b7, b8⟩, hl⟩
        | exact ⟨⟨b1, b2, rfl, (by dsimp only [say, setEvent]; simp), b5, b6, b7, b8⟩, hl⟩
        | exact ⟨⟨b1, b2, rfl, b4, b5, b6, b7, b8⟩, hl⟩
        | exact ⟨⟨b1, rfl, b3, (by dsimp only [say, setEvent]; simp), b5, b6, b7, b8⟩, hl⟩
        | exact ⟨⟨b1, b2, b3, b4, b5, b6, b7, b8⟩, by simp only [say, setEvent, List.all_append]; simpa [notBegun] using hl⟩
        | exact ⟨⟨b1, b2, b3, (by dsimp only [say, setEvent]; simp), b5, b6, b7, b8⟩, by simp only [say, setEvent, List.all_append]; simpa [notBegun] using hl⟩
        | (exfalso; grind)
  obtain ⟨h1, hl⟩ := main as SB.init ⟨⟨fun _ => rfl, rfl, rfl, by simp [SB.init], fun _ => .inl rfl, by simp [SB.init], fun _ => rfl, fun _ => rfl⟩, rfl⟩ hb s he
  have hm := List.all_eq_true.1 hl
  refine ⟨fun b => by simp only [view, h1.1 b, Option.map_none], fun t h => ?_, fun t ok h => ?_, fun t => ?_, fun b => ?_, fun b h => ?_, fun b h => ?_, fun b h => ?_⟩
  · exact absurd (hm _ h) (by simp [notBegun])
  · exact absurd (hm _ h) (by simp [notBegun])
  · rw [List.countP_eq_zero]
    intro e h
    have h2 := hm _ h
    revert h2
    cases e <;> simp [notBegun, isReadBy]
  · rw [storedIn, List.filterMap_eq_nil_iff]
    intro e h
    have h2 := hm _ h
    revert h2
    cases e <;> simp [notBegun]
  · exact absurd (hm _ h) (by simp [notBegun])
  · exact absurd (hm _ h) (by simp [notBegun])
  · exact absurd (hm _ h) (by simp [notBegun])

end SB
end S2P
