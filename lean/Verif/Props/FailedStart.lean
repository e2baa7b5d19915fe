import Verif.Props.Alive
import Verif.Props.JoinWitness
/-
C136: a stream buffer whose latest `start()` raised.
-/
namespace S2P
open Spec
variable {K V I : Type}

/-- `start()` number `k` called the source, and raised: in `open()`, or in `info` after that. -/
def failed (log : List (Ev V I)) (k : Nat) : Prop := Ev.openRaised k ∈ log ∨ Ev.infoRaised k ∈ log

/-- No `start()` after number `k` has got as far as calling `source.open()`. -/
def latest (log : List (Ev V I)) (k : Nat) : Prop := ∀ k', Ev.opened k' ∈ log ∨ Ev.openRaised k' ∈ log → k' ≤ k

namespace SB
section
variable [LinearOrder K] [BEq V] {cfg : SBCfg K V} {s s' : SB K V I} {as : List (SBAct K V I)}

/-- What a failed `start()` leaves behind. -/
structure FailInv (s : SB K V I) : Prop where
  thread : 0 < s.n → s.thread = some (s.n - 1)
  failed : ∀ k, failed s.log k → k < s.n ∧ s.thr k = .fresh ∧ s.buf k = none ∧ (∀ p, s.start = some p → p.late = true → p ≠ .mkThr → k + 1 < s.n)

set_option maxHeartbeats 4000000 in
theorem FailInv.step {a : SBAct K V I} (h0 : s.Inv) (h : s.FailInv) (hs : s.step cfg a = some s') : s'.FailInv := by
  obtain ⟨h1, h2, h3, h4, h5, h6, h7, h9, h10, h11, h8⟩ := h0
  obtain ⟨g1, g2⟩ := h
  have hst := step_to hs
  clear hs
  cases hst
  all_goals try simp only [say, setThr, setBuf, setEvent, setNext, setDrop, setInfo, newSess, running, S2P.failed] at *
  all_goals refine ⟨?_, ?_⟩ <;> try dsimp only
  all_goals first
    | assumption
    | grind [PhaseOk, StartPC.late, S2P.failed]

theorem failInv (he : (SB.init : SB K V I).exec cfg as = some s) : s.FailInv :=
  (exec_ind (P := fun s : SB K V I => s.Inv ∧ s.FailInv) (fun _ _ _ h hs => ⟨h.1.step hs, h.2.step h.1 hs⟩)
    ⟨Inv.init, ⟨by simp [init], by simp [init, S2P.failed]⟩⟩ he).2

end
end SB

namespace JSB
variable [LinearOrder K] [BEq V] [ReflBEq V] {cfg : SBCfg K V} {s s' : JSB K V I} {xs : List (JAct K V I)}

/-- **C136** when the latest `start()` raised (no `start()` being in progress): `mk_reader()` and `attach_reader()` raise `StreamNotStartedError`;
`is_running` is `True` until the event this `start()` made is set, which `stop()` does; `stop()` returns; `drop` raises;
`source_reader_info` is `None`; `join()` raises `RuntimeError`; the session has no thread that reads; readers of earlier sessions see that they are stopped. Every execution. -/
theorem C136_failed_start (he : (init : JSB K V I).exec cfg xs = some s) (hn : s.sb.start = none) (k : Nat) (hk : failed s.sb.log k) (hmax : latest s.sb.log k) :
    s.sb.step cfg .mkReader = some (s.sb.say (.madeReader (.error .streamNotStarted))) ∧
    (∀ b i j, (s.sb.view b).isSome → s.sb.step cfg (.attach b i j) = some (s.sb.say (.attached (.error .streamNotStarted)))) ∧
    (∃ r, s.sb.step cfg .isRunning = some (s.sb.say (.isRunning r)) ∧ (r = true ↔ Ev.eventSet k ∉ s.sb.log)) ∧
    (∃ s', s.sb.step cfg .stop = some s' ∧ s'.log = s.sb.log ++ [.eventSet k, .stopCalled (.ok ())]) ∧
    (∀ c n, s.sb.drops c = none → s.sb.step cfg (.drop c n) = some (s.sb.say (.dropCalled n (.error (if cfg.autoDrop then .runtimeError else .attributeError))))) ∧
    (∀ c, s.sb.infos c = .idle → s.sb.step cfg (.info c) = some (s.sb.say (.info (.ok none)))) ∧
    (∀ c, s.waits c = none → ∃ s1 s2, s.step cfg (.look c) = some s1 ∧ s1.step cfg (.wait c) = some s2 ∧ s2.sb = s.sb ∧ s2.joins = s.joins ++ [.raised .runtimeError]) ∧
    (Ev.launched k ∉ s.sb.log) ∧
    (∀ b c, s.sb.view b = some c → c.stopped = true) := by
  have hex := exec_sb he
  have hg := SB.good hex
  obtain ⟨g1, g2⟩ := SB.failInv hex
  obtain ⟨f1, f2, f3, -⟩ := g2 k hk
  have hkn : k + 1 = s.sb.n := by
    have := hmax _ (SB.latest_opened hex hn (by omega)); omega
  have hthr : s.sb.thread = some k := by rw [g1 (by omega)]; congr 1; omega
  have hsb : s.sb.sourceBuffer = none := by
    cases hx : s.sb.sourceBuffer with
    | none => rfl
    | some b =>
      obtain ⟨h1, h2⟩ := hg.inv.sb b hx
      have : b = k := by omega
      subst this
      rw [f3] at h1; simp at h1
  have hph := hg.inv.ph
  rw [hn] at hph
  have hse : s.sb.stopEvent = some k := by
    rcases hph with ⟨-, h⟩ | ⟨h, -⟩
    · omega
    · rw [h]; congr 1; omega
  refine ⟨?_, fun b i j hb => ?_, ⟨s.sb.running, by simp only [SB.step, hn, if_true], ?_⟩, ⟨_, by simp only [SB.step, hse]; rfl, by simp [SB.say, SB.setEvent]⟩,
    fun c n hc => ?_, fun c hc => ?_, fun c hc => ⟨s.setWait c (some k), { (s.setWait c (some k)).setWait c none with joins := s.joins ++ [.raised .runtimeError] }, ?_, ?_, rfl, rfl⟩, fun h => ?_, fun b c h => ?_⟩
  · simp [SB.step, hn, hsb]
  · simp [SB.step, hn, hsb]
  · rw [← hg.log.flag k]; simp [SB.running, hse]
  · simp only [SB.step, hc, if_true, hsb]; split <;> rfl
  · simp only [SB.step, hc, if_true, hsb]
  · simp only [JSB.step, hc, if_true, hthr]
  · simp [JSB.step, setWait, f2]
  · exact (hg.log.launched k h).2 f2
  · obtain ⟨x, hx, rfl⟩ := Option.map_eq_some_iff.1 h
    show s.sb.flag x.evt = true
    have hb : b < s.sb.n := by
      by_contra hb
      rw [hg.inv.noBuf b (by omega)] at hx; simp at hx
    have hbk : b ≠ k := fun h => by rw [h, f3] at hx; simp at hx
    rw [hg.inv.evt b x hx]
    exact hg.inv.oldFlag b (by omega)

/-- Meets `C136_failed_start`: a first session, then a `start()` whose `open()` raises. -/
theorem C136_meets : ∃ s : JSB Nat Nat Nat, JSB.init.exec (SB.mkCfg none true) (lift (SB.wStart 7 ++ SB.wItem 0 1 ++ SB.wStop 0 ++ SB.wStartFails)) = some s ∧
    s.sb.start = none ∧ failed s.sb.log 1 ∧ latest s.sb.log 1 ∧ Ev.eventSet 1 ∉ s.sb.log ∧ (s.sb.view 0).isSome := by
  have h : ∃ s : JSB Nat Nat Nat, JSB.init.exec (SB.mkCfg none true) (lift (SB.wStart 7 ++ SB.wItem 0 1 ++ SB.wStop 0 ++ SB.wStartFails)) = some s ∧
      s.sb.start = none ∧ s.sb.log = [.opened 0, .bufferMade 0 7, .launched 0, .read 0 (some 1), .stored 0 0 1, .eventSet 0, .stopCalled (.ok ()), .closed 0 true, .openRaised 1] ∧
      (s.sb.view 0).isSome = true := ⟨_, rfl, rfl, rfl, rfl⟩
  obtain ⟨s, h1, h2, h3, h4⟩ := h
  refine ⟨s, h1, h2, ?_, ?_, ?_, h4⟩ <;> simp [h3, failed, latest]

end JSB
end S2P
