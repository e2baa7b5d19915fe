import Verif.Model.StreamSource
import Verif.Proofs.Session
/-
Invariants of the StreamSource machine.
-/
namespace S2P
open Spec
variable {K V I : Type} [LT K] [DecidableLT K] [BEq V]

namespace SB

/-- Before the event of the first `start()` exists. -/
def _root_.S2P.StartPC.early : StartPC → Bool
  | .chk1 | .chk2 | .wipe | .mkThr | .mkEvt => true
  | _ => false

/-- What holds of a stream buffer on which `start()` has been called exactly once. -/
structure One (x : SB K V I) : Prop where
  inv : x.Inv
  pc : ∀ p, x.start = some p → p ≠ .set1 ∧ p ≠ .clr1 ∧ p ≠ .set2 ∧ p ≠ .clr2
  n0 : x.start = some .chk1 ∨ x.start = some .chk2 ∨ x.start = some .wipe ∨ x.start = some .mkThr → x.n = 0
  n1 : x.start = none ∨ x.start = some .mkEvt ∨ x.start = some .opening ∨ x.start = some .mkBuf ∨ x.start = some .launch → x.n = 1
  ev : ∀ e, x.stopEvent = some e → e = 0
  open0 : ∀ p, x.start = some p → p.early = true ∨ p = .opening → x.log.countP isOpen = 0
  open1 : x.log.countP isOpen ≤ 1
  thr : ∀ t, x.thr t = .fin1 ∨ x.thr t = .fin2 ∨ x.thr t = .fin3 ∨ x.thr t = .done → Ev.stopCalled (.ok ()) ∈ x.log ∨ x.log.any isDeath = true
  flag : ∀ e, x.flag e = true → Ev.stopCalled (.ok ()) ∈ x.log ∨ x.log.any isDeath = true

theorem One.start {cfg : SBCfg K V} {x : SB K V I} (h : SB.init.step cfg .start = some x) : x.One := by
  have hi := Inv.init.step h
  simp only [SB.init, step, if_true, Option.some.injEq] at h
  subst h
  refine ⟨hi, ?_, ?_, ?_, ?_, ?_, ?_, ?_, ?_⟩ <;> simp

set_option maxHeartbeats 8000000 in
theorem One.step {cfg : SBCfg K V} {x x' : SB K V I} {a : SBAct K V I} (h : x.One) (ha : a ≠ .start) (hs : x.step cfg a = some x') : x'.One := by
  obtain ⟨h0, h1, h2, h3, h4, h5, h6, h7, h8⟩ := h
  have hi := h0.step hs
  obtain ⟨i1, i2, i3, i4, i5, i6, i7, i8⟩ := h0
  have hst := step_to hs
  clear hs
  cases hst
  all_goals
    try simp only [say, setThr, setBuf, setEvent, setNext, setDrop, setInfo, newSess, running] at *
    refine ⟨hi, ?_, ?_, ?_, ?_, ?_, ?_, ?_, ?_⟩ <;> clear hi <;> dsimp only
  all_goals first
    | assumption
    | (simp [isOpen, isDeath] at *; done)
    | grind [PhaseOk, StartPC.early, isOpen, isDeath]

theorem step_idle {cfg : SBCfg K V} {x x' : SB K V I} {a : SBAct K V I} (ha : a ≠ .start) (hs : x.step cfg a = some x') (h : x.start = none) :
    x'.start = none ∧ x'.sourceBuffer = x.sourceBuffer ∧ x'.stopEvent = x.stopEvent := by
  have hst := step_to hs
  clear hs
  cases hst
  all_goals
    try simp only [say, setThr, setBuf, setEvent, setNext, setDrop, setInfo, newSess, running] at *
    grind

theorem flag_mono {cfg : SBCfg K V} {x x' : SB K V I} {a : SBAct K V I} (hs : x.step cfg a = some x') (e : Nat) (h : x.flag e = true) :
    x'.flag e = true := by
  have hst := step_to hs
  clear hs
  cases hst
  all_goals
    try simp only [say, setThr, setBuf, setEvent, setNext, setDrop, setInfo, newSess, running] at *
    grind

theorem log_stop {cfg : SBCfg K V} {x x' : SB K V I} {a : SBAct K V I} (hs : x.step cfg a = some x') (ha : a ≠ .stop) :
    Ev.stopCalled (.ok ()) ∈ x'.log ↔ Ev.stopCalled (.ok ()) ∈ x.log := by
  have hst := step_to hs
  clear hs
  cases hst
  all_goals
    first
      | exact absurd rfl ha
      | (simp [say, setThr, setBuf, setEvent, setNext, setDrop, setInfo, newSess, running]; done)

end SB

namespace Src

/-- The steps, one constructor per outcome. -/
inductive StepTo (cfg : SrcCfg K V) (s : Src K V I) : SrcAct K V I → Src K V I → Prop
  | confErr (c y) (hp : s.pc = .idle) (h : s.sb = some y) : StepTo cfg s (.configure c) (s.say (.configured c (.error .valueError)))
  | conf (c) (hp : s.pc = .idle) (h : s.sb = none) :
      StepTo cfg s (.configure c) (({ s with conf := some c }).say (.configured c (.ok ())))
  | openMore (y) (hp : s.pc = .idle) (h : s.sb = some y) : StepTo cfg s .openReader { s with pc := .making }
  | openFirst (x) (hp : s.pc = .idle) (h : s.sb = none) (hx : (SB.init : SB K V I).step (cfg.sb (s.conf.getD (some 100, true))) .start = some x) :
      StepTo cfg s .openReader
        (({ s with sb := some (s.conf.getD (some 100, true), x), pc := .starting }).say (.bufferMade (s.conf.getD (some 100, true))))
  | started (c x b) (hp : s.pc = .starting) (h : s.sb = some (c, x)) (hx : x.start = none) (hb : x.sourceBuffer = some b) :
      StepTo cfg s .openGo { s with pc := .making }
  | startErr (c x) (hp : s.pc = .starting) (h : s.sb = some (c, x)) (hx : x.start = none) (hb : x.sourceBuffer = none) :
      StepTo cfg s .openGo (({ s with pc := .idle }).say (.openError (.other 0)))
  | openErr (c x) (hp : s.pc = .making) (h : s.sb = some (c, x)) (hb : x.sourceBuffer = none) :
      StepTo cfg s .openGo (({ s with pc := .idle }).say (.openError .streamNotStarted))
  | opened (c x b) (hp : s.pc = .making) (h : s.sb = some (c, x)) (hb : x.sourceBuffer = some b) :
      StepTo cfg s .openGo ((({ s with pc := .idle, openReaders := s.openReaders + 1, made := s.made + 1 }).setOnclose s.made .handler).say
          (.opened s.made b (live x b)))
  | mkErr (c x) (hp : s.pc = .idle) (h : s.sb = some (c, x)) (hb : x.sourceBuffer = none) :
      StepTo cfg s .mkReader (s.say (.makeError .streamNotStarted))
  | mk (c x b) (hp : s.pc = .idle) (h : s.sb = some (c, x)) (hb : x.sourceBuffer = some b) :
      StepTo cfg s .mkReader ((({ s with made := s.made + 1 }).setOnclose s.made .missing).say (.made s.made))
  | assign (r f) (hp : s.pc = .idle) (hr : r < s.made) :
      StepTo cfg s (.assign r f) ((s.setOnclose r (if f then .user else .none)).say (.assigned r f))
  | closeMissing (r) (hp : s.pc = .idle) (hr : r < s.made) (ho : s.onclose r = .missing) :
      StepTo cfg s (.close r) (s.say (.closed r (.error .attributeError)))
  | closeNone (r) (hp : s.pc = .idle) (hr : r < s.made) (ho : s.onclose r = .none) : StepTo cfg s (.close r) (s.say (.closed r (.ok ())))
  | closeUser (r) (hp : s.pc = .idle) (hr : r < s.made) (ho : s.onclose r = .user) :
      StepTo cfg s (.close r) ((s.say (.ran r)).say (.closed r (.ok ())))
  | closeMore (r) (hp : s.pc = .idle) (hr : r < s.made) (ho : s.onclose r = .handler) (hn : ¬ s.openReaders - 1 ≤ 0) :
      StepTo cfg s (.close r) (({ s with openReaders := s.openReaders - 1 }).say (.closed r (.ok ())))
  | closeErr (r c x x') (hp : s.pc = .idle) (hr : r < s.made) (ho : s.onclose r = .handler) (hn : s.openReaders - 1 ≤ 0)
      (h : s.sb = some (c, x)) (hs : x.step (cfg.sb c) .stop = some x') (he : x.stopEvent = none) :
      StepTo cfg s (.close r) (({ s with openReaders := s.openReaders - 1, sb := some (c, x') }).say (.closed r (.error .attributeError)))
  | closeLast (r c x x' e) (hp : s.pc = .idle) (hr : r < s.made) (ho : s.onclose r = .handler) (hn : s.openReaders - 1 ≤ 0)
      (h : s.sb = some (c, x)) (hs : x.step (cfg.sb c) .stop = some x') (he : x.stopEvent = some e) :
      StepTo cfg s (.close r)
        ((({ s with openReaders := s.openReaders - 1, sb := some (c, x'), pc := .stopping r }).say (.closed r (.ok ()))).say .stopped)
  | closeGo (r c x x') (hp : s.pc = .stopping r) (h : s.sb = some (c, x)) (hs : x.step (cfg.sb c) .stopEnd = some x') :
      StepTo cfg s .closeGo { s with sb := some (c, x'), pc := .idle }
  | bg (a c x x') (ha : a.isBg = true) (h : s.sb = some (c, x)) (hs : x.step (cfg.sb c) a = some x') :
      StepTo cfg s (.bg a) { s with sb := some (c, x') }

theorem step_to {cfg : SrcCfg K V} {s s' : Src K V I} {a : SrcAct K V I} (hs : s.step cfg a = some s') : StepTo cfg s a s' := by
  by_cases has : ∃ r f, a = .assign r f
  · obtain ⟨r, f, rfl⟩ := has
    simp only [step] at hs
    split at hs
    · injection hs with hs; subst hs; rename_i h; exact .assign r f h.1 h.2
    · simp at hs
  cases a <;> simp only [step, readerClosed] at hs <;> (repeat' split at hs) <;> first
    | (exfalso; simp at hs; done)
    | exact absurd ⟨_, _, rfl⟩ has
    | (injection hs with hs; subst hs; first
        | exact .confErr _ _ ‹_› ‹_›
        | exact .conf _ ‹_› ‹_›
        | exact .openMore _ ‹_› ‹_›
        | exact .openFirst _ ‹_› ‹_› ‹_›
        | exact .started _ _ _ ‹_› ‹_› ‹_› ‹_›
        | exact .startErr _ _ ‹_› ‹_› ‹_› ‹_›
        | exact .openErr _ _ ‹_› ‹_› ‹_›
        | exact .opened _ _ _ ‹_› ‹_› ‹_›
        | exact .mkErr _ _ ‹_› ‹_› ‹_›
        | exact .mk _ _ _ ‹_› ‹_› ‹_›
        | exact .closeMissing _ (And.left ‹_ ∧ _›) (And.right ‹_ ∧ _›) ‹_›
        | exact .closeNone _ (And.left ‹_ ∧ _›) (And.right ‹_ ∧ _›) ‹_›
        | exact .closeUser _ (And.left ‹_ ∧ _›) (And.right ‹_ ∧ _›) ‹_›
        | exact .closeMore _ (And.left ‹_ ∧ _›) (And.right ‹_ ∧ _›) ‹_› ‹_›
        | exact .closeErr _ _ _ _ (And.left ‹_ ∧ _›) (And.right ‹_ ∧ _›) ‹_› ‹_› ‹_› ‹_› ‹_›
        | exact .closeLast _ _ _ _ _ (And.left ‹_ ∧ _›) (And.right ‹_ ∧ _›) ‹_› ‹_› ‹_› ‹_› ‹_›
        | exact .closeGo _ _ _ _ ‹_› ‹_› ‹_›
        | exact .bg _ _ _ _ ‹_› ‹_› ‹_›)

end Src
end S2P
