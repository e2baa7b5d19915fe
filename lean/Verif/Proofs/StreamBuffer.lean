import Verif.Model.StreamBuffer
import Verif.Proofs.Consumer
/-
Steps of the StreamBuffer machine as a relation, and its invariants.
-/
namespace S2P
namespace SB
variable {K V I : Type} [LT K] [DecidableLT K] [BEq V]

/-- The steps, one constructor per outcome. -/
inductive StepTo (cfg : SBCfg K V) (s : SB K V I) : SBAct K V I → SB K V I → Prop
  | start (h : s.start = none) : StepTo cfg s .start { s with start := some .chk1 }
  | chk1 (h : s.start = some .chk1) : StepTo cfg s .startGo { s with start := some (if s.running then .set1 else .chk2) }
  | set1 (e) (h : s.start = some .set1) (he : s.stopEvent = some e) : StepTo cfg s .startGo { s.setEvent e with start := some .clr1 }
  | clr1 (h : s.start = some .clr1) : StepTo cfg s .startGo { s with nextReader := none, start := some .chk2 }
  | chk2 (h : s.start = some .chk2) : StepTo cfg s .startGo { s with start := some (if s.running then .set2 else .wipe) }
  | set2 (e) (h : s.start = some .set2) (he : s.stopEvent = some e) : StepTo cfg s .startGo { s.setEvent e with start := some .clr2 }
  | clr2 (h : s.start = some .clr2) : StepTo cfg s .startGo { s with nextReader := none, start := some .wipe }
  | wipe (h : s.start = some .wipe) : StepTo cfg s .startGo { s with sourceBuffer := none, start := some .mkThr }
  | mkThr (h : s.start = some .mkThr) :
      StepTo cfg s .startGo { s.setThr s.n .fresh with thread := some s.n, n := s.n + 1, start := some .mkEvt }
  | mkEvt (h : s.start = some .mkEvt) : StepTo cfg s .startGo { s with stopEvent := some (s.n - 1), start := some .opening }
  | launch (t) (h : s.start = some .launch) (ht : s.thread = some t) :
      StepTo cfg s .startGo (({ s.setThr t .check with start := none }).say (.launched t))
  | openOk (h : s.start = some .opening) : StepTo cfg s .openOk (({ s with start := some .mkBuf }).say (.opened (s.n - 1)))
  | openRaise (h : s.start = some .opening) : StepTo cfg s .openRaise (({ s with start := none }).say (.openRaised (s.n - 1)))
  | bufOk (info e) (h : s.start = some .mkBuf) (he : s.stopEvent = some e) :
      StepTo cfg s (.bufOk info) (({ s.setBuf (s.n - 1) (newSess cfg e info) with sourceBuffer := some (s.n - 1), start := some .launch }).say
        (.bufferMade (s.n - 1) info))
  | bufRaise (h : s.start = some .mkBuf) : StepTo cfg s .bufRaise (({ s with start := none }).say (.infoRaised (s.n - 1)))
  | stopNone (h : s.stopEvent = none) : StepTo cfg s .stop (s.say (.stopCalled (.error .attributeError)))
  | stop (e) (h : s.stopEvent = some e) :
      StepTo cfg s .stop (({ s.setEvent e with stopping := s.stopping + 1 }).say (.stopCalled (.ok ())))
  | stopEnd (h : s.stopping ≠ 0) : StepTo cfg s .stopEnd { s with stopping := s.stopping - 1, nextReader := none }
  | check (t e) (h : s.thr t = .check) (he : s.stopEvent = some e) :
      StepTo cfg s (.thr t) (s.setThr t (if s.flag e then .fin1 else .cap))
  | capAuto (t) (h : s.thr t = .cap) (ha : cfg.autoDrop = true) : StepTo cfg s (.thr t) (s.setThr t .reading)
  | capNone (t) (h : s.thr t = .cap) (ha : cfg.autoDrop = false) (hb : s.sourceBuffer = none) :
      StepTo cfg s (.thr t) ((s.setThr t .fin1).say (.crashed t .typeError))
  | capLook (t b) (h : s.thr t = .cap) (ha : cfg.autoDrop = false) (hb : s.sourceBuffer = some b) : StepTo cfg s (.thr t) (s.setThr t (.measuring b))
  | capUnbounded (t b x) (h : s.thr t = .measuring b) (hx : s.buf b = some x)
      (hm : cfg.maxlen = none) : StepTo cfg s (.thr t) ((s.setThr t .fin1).say (.crashed t .typeError))
  | cap (t b x m) (h : s.thr t = .measuring b) (hx : s.buf b = some x)
      (hm : cfg.maxlen = some m) : StepTo cfg s (.thr t) (s.setThr t (if x.cons.ch.buf.len < m then .reading else .sleeping))
  | appendNone (t v) (h : s.thr t = .appending v) (hb : s.sourceBuffer = none) :
      StepTo cfg s (.thr t) ((s.setThr t .fin1).say (.crashed t .attributeError))
  | append (t v b) (h : s.thr t = .appending v) (hb : s.sourceBuffer = some b) : StepTo cfg s (.thr t) (s.setThr t (.storing b v))
  | stored (t b v x r) (h : s.thr t = .storing b v) (hx : s.buf b = some x) (hr : (x.cons.call (.append v)).2 = .ok r) :
      StepTo cfg s (.thr t) (((s.setBuf b { x with cons := (x.cons.call (.append v)).1 }).setThr t .check).say (.stored t b v))
  | refused (t b v x e) (h : s.thr t = .storing b v) (hx : s.buf b = some x) (hr : (x.cons.call (.append v)).2 = .error e) :
      StepTo cfg s (.thr t) (((s.setBuf b { x with cons := (x.cons.call (.append v)).1 }).setThr t .fin1).say (.refused t b v e))
  | sleeping (t) (h : s.thr t = .sleeping) : StepTo cfg s (.thr t) (s.setThr t .check)
  | fin1 (t e) (h : s.thr t = .fin1) (he : s.stopEvent = some e) :
      StepTo cfg s (.thr t) (s.setThr t (if s.flag e then .fin3 else .fin2))
  | fin2 (t e) (h : s.thr t = .fin2) (he : s.stopEvent = some e) : StepTo cfg s (.thr t) ((s.setEvent e).setThr t .fin3)
  | readSome (t v) (h : s.thr t = .reading) : StepTo cfg s (.readOk t (some v)) ((s.setThr t (.appending v)).say (.read t (some v)))
  | readNone (t) (h : s.thr t = .reading) : StepTo cfg s (.readOk t none) ((s.setThr t .sleeping).say (.read t none))
  | readRaise (t e) (h : s.thr t = .reading) : StepTo cfg s (.readRaise t e) ((s.setThr t .fin1).say (.readRaised t e))
  | keyRaise (t e b v) (h : s.thr t = .storing b v) : StepTo cfg s (.keyRaise t e) ((s.setThr t .fin1).say (.refused t b v e))
  | close (t ok) (h : s.thr t = .fin3) : StepTo cfg s (.close t ok) ((s.setThr t .done).say (.closed t ok))
  | dropAuto (c k) (hc : s.drops c = none) (h : cfg.autoDrop = true) : StepTo cfg s (.drop c k) (s.say (.dropCalled k (.error .runtimeError)))
  | dropNone (c k) (hc : s.drops c = none) (h : cfg.autoDrop = false) (hb : s.sourceBuffer = none) :
      StepTo cfg s (.drop c k) (s.say (.dropCalled k (.error .attributeError)))
  | dropLook (c k b) (hc : s.drops c = none) (h : cfg.autoDrop = false) (hb : s.sourceBuffer = some b) :
      StepTo cfg s (.drop c k) (s.setDrop c (some (b, k)))
  | drop (c k b x) (hc : s.drops c = some (b, k)) (hx : s.buf b = some x) :
      StepTo cfg s (.dropGo c) ((((s.setDrop c none).setBuf b { x with cons := (x.cons.call (.drop k)).1 }).say
        (.dropped b (x.cons.ch.buf.items.take (x.cons.ch.buf.items.length - (x.cons.call (.drop k)).1.ch.buf.items.length)))).say
        (.dropCalled k ((x.cons.call (.drop k)).2.map fun _ => ())))
  | mkReader (h : s.start = none) :
      StepTo cfg s .mkReader (s.say (.madeReader (match s.sourceBuffer with | some b => .ok b | none => .error .streamNotStarted)))
  | attachNone (b i j) (h : s.start = none) (hb : s.sourceBuffer = none) :
      StepTo cfg s (.attach b i j) (s.say (.attached (.error .streamNotStarted)))
  | attach (b i j b' x x') (h : s.start = none) (hb : s.sourceBuffer = some b') (hx : s.buf b = some x) (hx' : s.buf b' = some x')
      (op : RdOp K V) (hop : op = match (x.cons.ch.readers i).lastItem with | some v => .setLast v | none => .delLast) :
      StepTo cfg s (.attach b i j) ((s.setBuf b' { x' with cons := (x'.cons.call (.rd j op)).1 }).say (.attached (.ok b')))
  | isRunning (h : s.start = none) : StepTo cfg s .isRunning (s.say (.isRunning s.running))
  | infoNone (c) (h : s.infos c = .idle) (hb : s.sourceBuffer = none) : StepTo cfg s (.info c) (s.say (.info (.ok none)))
  | infoLook (c b) (h : s.infos c = .idle) (hb : s.sourceBuffer = some b) : StepTo cfg s (.info c) (s.setInfo c (.test b))
  | infoEmpty (c b x) (h : s.infos c = .test b) (hx : s.buf b = some x) (hl : x.cons.ch.buf.len = 0) :
      StepTo cfg s (.infoGo c) ((s.setInfo c .idle).say (.info (.ok none)))
  | infoTested (c b x) (h : s.infos c = .test b) (hx : s.buf b = some x) (hl : x.cons.ch.buf.len ≠ 0) :
      StepTo cfg s (.infoGo c) (s.setInfo c .again)
  | infoGone (c) (h : s.infos c = .again) (hb : s.sourceBuffer = none) :
      StepTo cfg s (.infoGo c) ((s.setInfo c .idle).say (.info (.error .attributeError)))
  | infoOk (c b x) (h : s.infos c = .again) (hb : s.sourceBuffer = some b) (hx : s.buf b = some x) :
      StepTo cfg s (.infoGo c) ((s.setInfo c .idle).say (.info (.ok (some x.info))))
  | next (c) (h : s.nexts c = .idle) : StepTo cfg s (.next c) (s.setNext c (if s.nextReader = none then .make else .use))
  | nextNone (c) (h : s.nexts c = .make) (hl : s.start = none) (hb : s.sourceBuffer = none) :
      StepTo cfg s (.nextGo c) ((s.setNext c .idle).say (.nextOn (.error .streamNotStarted)))
  | nextMake (c b) (h : s.nexts c = .make) (hl : s.start = none) (hb : s.sourceBuffer = some b) :
      StepTo cfg s (.nextGo c) (s.setNext c (.store b))
  | nextStore (c b) (h : s.nexts c = .store b) : StepTo cfg s (.nextGo c) { s.setNext c .use with nextReader := some b }
  | nextGone (c) (h : s.nexts c = .use) (hr : s.nextReader = none) :
      StepTo cfg s (.nextGo c) ((s.setNext c .idle).say (.nextOn (.error .typeError)))
  | nextUse (c b) (h : s.nexts c = .use) (hr : s.nextReader = some b) :
      StepTo cfg s (.nextGo c) ((s.setNext c .idle).say (.nextOn (.ok b)))
  | rd (b a x c) (ha : a.isReaders = true) (hx : s.buf b = some x)
      (hs : ({ x.cons with stopped := s.flag x.evt } : Cons K V).step cfg.rdCfg a = some c) :
      StepTo cfg s (.rd b a) (s.setBuf b { x with cons := c })

theorem step_to {cfg : SBCfg K V} {s s' : SB K V I} {a : SBAct K V I} (hs : s.step cfg a = some s') : StepTo cfg s a s' := by
  cases a with
  | start =>
    simp only [step] at hs; split at hs
    · injection hs with hs; subst hs; exact .start ‹_›
    · simp at hs
  | startGo =>
    simp only [step, startGo] at hs
    split at hs
    · injection hs with hs; subst hs; exact .chk1 ‹_›
    · split at hs
      · injection hs with hs; subst hs; exact .set1 _ ‹_› ‹_›
      · simp at hs
    · injection hs with hs; subst hs; exact .clr1 ‹_›
    · injection hs with hs; subst hs; exact .chk2 ‹_›
    · split at hs
      · injection hs with hs; subst hs; exact .set2 _ ‹_› ‹_›
      · simp at hs
    · injection hs with hs; subst hs; exact .clr2 ‹_›
    · injection hs with hs; subst hs; exact .wipe ‹_›
    · injection hs with hs; subst hs; exact .mkThr ‹_›
    · injection hs with hs; subst hs; exact .mkEvt ‹_›
    · split at hs
      · injection hs with hs; subst hs; exact .launch _ ‹_› ‹_›
      · simp at hs
    · simp at hs
  | openOk =>
    simp only [step] at hs; split at hs
    · injection hs with hs; subst hs; exact .openOk ‹_›
    · simp at hs
  | openRaise =>
    simp only [step] at hs; split at hs
    · injection hs with hs; subst hs; exact .openRaise ‹_›
    · simp at hs
  | bufOk info =>
    simp only [step] at hs; split at hs
    · injection hs with hs; subst hs; exact .bufOk _ _ ‹_› ‹_›
    · simp at hs
  | bufRaise =>
    simp only [step] at hs; split at hs
    · injection hs with hs; subst hs; exact .bufRaise ‹_›
    · simp at hs
  | stop =>
    simp only [step] at hs; split at hs
    · injection hs with hs; subst hs; exact .stopNone ‹_›
    · injection hs with hs; subst hs; exact .stop _ ‹_›
  | stopEnd =>
    simp only [step] at hs; split at hs
    · simp at hs
    · injection hs with hs; subst hs; exact .stopEnd ‹_›
  | thr t =>
    simp only [step, thrGo] at hs
    split at hs
    · split at hs
      · injection hs with hs; subst hs; exact .check _ _ ‹_› ‹_›
      · simp at hs
    · split at hs
      · injection hs with hs; subst hs; exact .capAuto _ ‹_› ‹_›
      · rename_i ha
        have ha : cfg.autoDrop = false := by simpa using ha
        split at hs
        · injection hs with hs; subst hs; exact .capNone _ ‹_› ha ‹_›
        · injection hs with hs; subst hs; exact .capLook _ _ ‹_› ha ‹_›
    · split at hs
      · simp at hs
      · split at hs
        · injection hs with hs; subst hs; exact .capUnbounded _ _ _ ‹_› ‹_› ‹_›
        · injection hs with hs; subst hs; exact .cap _ _ _ _ ‹_› ‹_› ‹_›
    · split at hs
      · injection hs with hs; subst hs; exact .appendNone _ _ ‹_› ‹_›
      · injection hs with hs; subst hs; exact .append _ _ _ ‹_› ‹_›
    · split at hs
      · simp at hs
      · rename_i x hx
        split at hs
        · rename_i c r hc
          injection hs with hs; subst hs
          obtain ⟨rfl, hr⟩ := Prod.mk.inj hc.symm
          exact .stored _ _ _ _ _ ‹_› hx hr.symm
        · rename_i c r hc
          injection hs with hs; subst hs
          obtain ⟨rfl, hr⟩ := Prod.mk.inj hc.symm
          exact .refused _ _ _ _ _ ‹_› hx hr.symm
    · injection hs with hs; subst hs; exact .sleeping _ ‹_›
    · split at hs
      · injection hs with hs; subst hs; exact .fin1 _ _ ‹_› ‹_›
      · simp at hs
    · split at hs
      · injection hs with hs; subst hs; exact .fin2 _ _ ‹_› ‹_›
      · simp at hs
    · simp at hs
  | readOk t r =>
    simp only [step] at hs; split at hs
    · injection hs with hs; subst hs
      cases r with
      | none => exact .readNone _ ‹_›
      | some v => exact .readSome _ _ ‹_›
    · simp at hs
  | readRaise t e =>
    simp only [step] at hs; split at hs
    · injection hs with hs; subst hs; exact .readRaise _ _ ‹_›
    · simp at hs
  | keyRaise t e =>
    simp only [step] at hs; split at hs
    · injection hs with hs; subst hs; exact .keyRaise _ _ _ _ ‹_›
    · simp at hs
  | close t ok =>
    simp only [step] at hs; split at hs
    · injection hs with hs; subst hs; exact .close _ _ ‹_›
    · simp at hs
  | drop c k =>
    simp only [step] at hs; split at hs
    · rename_i hc
      split at hs
      · injection hs with hs; subst hs; exact .dropAuto _ _ hc ‹_›
      · rename_i ha
        have ha : cfg.autoDrop = false := by simpa using ha
        split at hs
        · injection hs with hs; subst hs; exact .dropNone _ _ hc ha ‹_›
        · injection hs with hs; subst hs; exact .dropLook _ _ _ hc ha ‹_›
    · simp at hs
  | dropGo c =>
    simp only [step] at hs; split at hs
    · simp at hs
    · split at hs
      · simp at hs
      · injection hs with hs; subst hs; exact .drop _ _ _ _ ‹_› ‹_›
  | mkReader =>
    simp only [step] at hs; split at hs
    · injection hs with hs; subst hs; exact .mkReader ‹_›
    · simp at hs
  | attach b i j =>
    simp only [step] at hs; split at hs
    · split at hs
      · injection hs with hs; subst hs; exact .attachNone _ _ _ ‹_› ‹_›
      · split at hs
        · injection hs with hs; subst hs; exact .attach _ _ _ _ _ _ ‹_› ‹_› ‹_› ‹_› _ rfl
        · simp at hs
    · simp at hs
  | isRunning =>
    simp only [step] at hs; split at hs
    · injection hs with hs; subst hs; exact .isRunning ‹_›
    · simp at hs
  | info c =>
    simp only [step] at hs; split at hs
    · split at hs
      · injection hs with hs; subst hs; exact .infoNone _ ‹_› ‹_›
      · injection hs with hs; subst hs; exact .infoLook _ _ ‹_› ‹_›
    · simp at hs
  | infoGo c =>
    simp only [step] at hs; split at hs
    · simp at hs
    · split at hs
      · simp at hs
      · split at hs
        · injection hs with hs; subst hs; exact .infoEmpty _ _ _ ‹_› ‹_› ‹_›
        · injection hs with hs; subst hs; exact .infoTested _ _ _ ‹_› ‹_› ‹_›
    · split at hs
      · injection hs with hs; subst hs; exact .infoGone _ ‹_› ‹_›
      · split at hs
        · simp at hs
        · injection hs with hs; subst hs; exact .infoOk _ _ _ ‹_› ‹_› ‹_›
  | next c =>
    simp only [step] at hs; split at hs
    · injection hs with hs; subst hs; exact .next _ ‹_›
    · simp at hs
  | nextGo c =>
    simp only [step] at hs; split at hs
    · simp at hs
    · split at hs
      · split at hs
        · injection hs with hs; subst hs; exact .nextNone _ ‹_› ‹_› ‹_›
        · injection hs with hs; subst hs; exact .nextMake _ _ ‹_› ‹_› ‹_›
      · simp at hs
    · injection hs with hs; subst hs; exact .nextStore _ _ ‹_›
    · split at hs
      · injection hs with hs; subst hs; exact .nextGone _ ‹_› ‹_›
      · injection hs with hs; subst hs; exact .nextUse _ _ ‹_› ‹_›
  | rd b a =>
    simp only [step] at hs; split at hs
    · split at hs
      · simp at hs
      · split at hs
        · injection hs with hs; subst hs; exact .rd _ _ _ _ ‹_› ‹_› ‹_›
        · simp at hs
    · simp at hs

/-- A thread that is not running `_run`. -/
def _root_.S2P.TPC.idle : TPC V → Bool
  | .unborn | .fresh | .done => true
  | _ => false

/-- Facts about the attributes at each point of `start()`. -/
def PhaseOk (s : SB K V I) : Option StartPC → Prop
  | none | some .chk1 | some .clr1 | some .chk2 => (s.stopEvent = none ∧ s.n = 0) ∨ (s.stopEvent = some (s.n - 1) ∧ 0 < s.n)
  | some .set1 | some .set2 => s.stopEvent = some (s.n - 1) ∧ 0 < s.n
  | some .clr2 | some .wipe => (s.stopEvent = none ∧ s.n = 0) ∨ (s.stopEvent = some (s.n - 1) ∧ 0 < s.n ∧ s.flag (s.n - 1) = true)
  | some .mkThr => s.sourceBuffer = none ∧
      ((s.stopEvent = none ∧ s.n = 0) ∨ (s.stopEvent = some (s.n - 1) ∧ 0 < s.n ∧ s.flag (s.n - 1) = true))
  | some .mkEvt => 0 < s.n ∧ s.thread = some (s.n - 1) ∧ s.thr (s.n - 1) = .fresh ∧ s.buf (s.n - 1) = none ∧ s.flag (s.n - 1) = false ∧
      s.sourceBuffer = none ∧ ((s.stopEvent = none ∧ s.n = 1) ∨ (s.stopEvent = some (s.n - 2) ∧ 1 < s.n))
  | some .opening | some .mkBuf => 0 < s.n ∧ s.thread = some (s.n - 1) ∧ s.thr (s.n - 1) = .fresh ∧ s.buf (s.n - 1) = none ∧
      s.sourceBuffer = none ∧ s.stopEvent = some (s.n - 1)
  | some .launch => 0 < s.n ∧ s.thread = some (s.n - 1) ∧ s.thr (s.n - 1) = .fresh ∧ (s.buf (s.n - 1)).isSome ∧
      s.sourceBuffer = some (s.n - 1) ∧ s.stopEvent = some (s.n - 1)

/-- What holds in every reachable state. -/
structure Inv (s : SB K V I) : Prop where
  noThr : ∀ t, s.n ≤ t → s.thr t = .unborn
  noBuf : ∀ b, s.n ≤ b → s.buf b = none
  noFlag : ∀ e, s.n ≤ e → s.flag e = false
  oldFlag : ∀ e, e + 1 < s.n → s.flag e = true
  evt : ∀ b x, s.buf b = some x → x.evt = b
  sb : ∀ b, s.sourceBuffer = some b → (s.buf b).isSome ∧ b + 1 = s.n
  storing : ∀ t b v, s.thr t = .storing b v → (s.buf b).isSome
  measuring : ∀ t b, s.thr t = .measuring b → (s.buf b).isSome
  drops : ∀ c b k, s.drops c = some (b, k) → (s.buf b).isSome
  infos : ∀ c b, s.infos c = .test b → (s.buf b).isSome
  ph : PhaseOk s s.start

theorem Inv.init : (SB.init : SB K V I).Inv :=
  ⟨fun _ _ => rfl, fun _ _ => rfl, fun _ _ => rfl, fun _ h => absurd h (Nat.not_lt_zero _), fun _ _ h => by simp [SB.init] at h,
   fun _ h => by simp [SB.init] at h, fun _ _ _ h => by simp [SB.init] at h, fun _ _ h => by simp [SB.init] at h,
   fun _ _ _ h => by simp [SB.init] at h, fun _ _ h => by simp [SB.init] at h, .inl ⟨rfl, rfl⟩⟩

theorem PhaseOk.lt {s : SB K V I} {p : Option StartPC} (h : PhaseOk s p) (e : Nat) (he : s.stopEvent = some e) : e < s.n := by
  rcases p with - | p
  · grind [PhaseOk]
  · cases p <;> grind [PhaseOk]

set_option maxHeartbeats 8000000 in
theorem Inv.step {cfg : SBCfg K V} {s s' : SB K V I} {a : SBAct K V I} (h : s.Inv) (hs : s.step cfg a = some s') : s'.Inv := by
  obtain ⟨h1, h2, h3, h4, h5, h6, h7, h9, h10, h11, h8⟩ := h
  have hlt := h8.lt
  have hst := step_to hs
  clear hs
  cases hst
  all_goals
    try simp only [say, setThr, setBuf, setEvent, setNext, setDrop, setInfo, newSess, running] at *
    refine ⟨?_, ?_, ?_, ?_, ?_, ?_, ?_, ?_, ?_, ?_, ?_⟩ <;> dsimp only
  all_goals first
    | assumption
    | grind [PhaseOk]
    | (cases hstart : s.start with
       | none => grind [PhaseOk]
       | some p => cases p <;> grind [PhaseOk])

/-- The `start()` in progress is past its stop phase. -/
def _root_.S2P.StartPC.late : StartPC → Bool
  | .mkThr | .mkEvt | .opening | .mkBuf | .launch => true
  | _ => false

/-- When a `start()` gets past its stop phase (`stop()` sleeps a second), every earlier thread has ended. -/
def SettledAt (s : SB K V I) (a : SBAct K V I) : Prop :=
  a = .startGo → s.start = some .wipe → ∀ t, (s.thr t).idle = true

/-- The same for a whole execution. -/
def Settled (cfg : SBCfg K V) : SB K V I → List (SBAct K V I) → Prop
  | _, [] => True
  | s, a :: as => s.SettledAt a ∧ ∀ s', s.step cfg a = some s' → s'.Settled cfg as

/-- What holds in every state reached by a settled execution. -/
structure Inv2 (s : SB K V I) : Prop where
  quiet : ∀ p, s.start = some p → p.late = true → ∀ t, (s.thr t).idle = true
  solo : ∀ t, (s.thr t).idle = false → t + 1 = s.n ∧ s.stopEvent = some t ∧ s.sourceBuffer = some t
  ended : ∀ t, s.thr t = .fin3 ∨ s.thr t = .done → s.flag t = true
  own : ∀ t b v, s.thr t = .storing b v → b = t
  ownM : ∀ t b, s.thr t = .measuring b → b = t

theorem Inv2.init : (SB.init : SB K V I).Inv2 :=
  ⟨fun _ h => by simp [SB.init] at h, fun _ h => by simp [SB.init, TPC.idle] at h, fun _ h => by simp [SB.init] at h,
   fun _ _ _ h => by simp [SB.init] at h, fun _ _ h => by simp [SB.init] at h⟩

set_option maxHeartbeats 8000000 in
theorem Inv2.step {cfg : SBCfg K V} {s s' : SB K V I} {a : SBAct K V I} (h0 : s.Inv) (h : s.Inv2) (hs : s.step cfg a = some s')
    (hset : s.SettledAt a) : s'.Inv2 := by
  obtain ⟨h1, h2, h3, h4, h5, h6, h7, -, -, -, h8⟩ := h0
  obtain ⟨g1, g2, g3, g4, g5⟩ := h
  have hst := step_to hs
  clear hs
  cases hst
  all_goals
    try simp only [say, setThr, setBuf, setEvent, setNext, setDrop, setInfo, newSess, running] at *
    refine ⟨?_, ?_, ?_, ?_, ?_⟩ <;> dsimp only
  all_goals first
    | assumption
    | grind [PhaseOk, TPC.idle, StartPC.late, SettledAt]

/-! ### Executions -/

theorem exec_append (cfg : SBCfg K V) (s : SB K V I) (as bs : List (SBAct K V I)) :
    s.exec cfg (as ++ bs) = (s.exec cfg as).bind (·.exec cfg bs) := by
  induction as generalizing s with
  | nil => rfl
  | cons a as ih =>
    simp only [List.cons_append, exec]
    cases s.step cfg a with
    | none => rfl
    | some t => exact ih t

theorem exec_ind {cfg : SBCfg K V} {P : SB K V I → Prop} (hstep : ∀ s a s', P s → s.step cfg a = some s' → P s')
    {as : List (SBAct K V I)} {s s' : SB K V I} (h : P s) (he : s.exec cfg as = some s') : P s' := by
  induction as generalizing s with
  | nil => simp only [exec, Option.some.injEq] at he; exact he ▸ h
  | cons a as ih =>
    simp only [exec] at he
    split at he
    · exact ih (hstep _ _ _ h ‹_›) he
    · simp at he

theorem exec_ind_settled {cfg : SBCfg K V} {P : SB K V I → Prop} (hstep : ∀ s a s', P s → s.step cfg a = some s' → s.SettledAt a → P s')
    {as : List (SBAct K V I)} {s s' : SB K V I} (h : P s) (he : s.exec cfg as = some s') (hset : s.Settled cfg as) : P s' := by
  induction as generalizing s with
  | nil => simp only [exec, Option.some.injEq] at he; exact he ▸ h
  | cons a as ih =>
    simp only [exec] at he
    split at he
    · exact ih (hstep _ _ _ h ‹_› hset.1) he (hset.2 _ ‹_›)
    · simp at he

theorem inv_exec {cfg : SBCfg K V} {as : List (SBAct K V I)} {s : SB K V I} (he : SB.init.exec cfg as = some s) : s.Inv :=
  exec_ind (fun _ _ _ h hs => h.step hs) Inv.init he

theorem inv2_exec {cfg : SBCfg K V} {as : List (SBAct K V I)} {s : SB K V I} (he : SB.init.exec cfg as = some s)
    (hset : SB.init.Settled cfg as) : s.Inv ∧ s.Inv2 :=
  exec_ind_settled (P := fun s => s.Inv ∧ s.Inv2) (fun _ _ _ h hs ht => ⟨h.1.step hs, h.2.step h.1 hs ht⟩) ⟨Inv.init, Inv2.init⟩ he hset

end SB
end S2P
