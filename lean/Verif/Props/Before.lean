import Verif.Props.Join
import Verif.Props.SBWitness
/-
C131: a stream buffer that was never started.
-/
namespace S2P
open Spec
variable {K V I : Type}

/-- What may be observed of a stream buffer with the setting `auto_drop=auto` before the first `start()`: refusals of `stop`, `drop`, `mk_reader`,
`attach_reader` and `next`, `is_running` false, no info. Nothing happens to the source. -/
def answerBefore (auto : Bool) : Ev V I → Prop
  | .stopCalled r => r = .error .attributeError
  | .dropCalled _ r => r = .error (if auto then .runtimeError else .attributeError)
  | .madeReader r | .attached r | .nextOn r => r = .error .streamNotStarted
  | .isRunning r => r = false
  | .info r => r = .ok none
  | _ => False

namespace JSB
variable [LT K] [DecidableLT K] [BEq V] {cfg : SBCfg K V} {s s' : JSB K V I} {as : List (JAct K V I)}

/-- Nothing has happened. -/
structure Untouched (s : JSB K V I) : Prop where
  stopEvent : s.sb.stopEvent = none
  source : s.sb.sourceBuffer = none
  thread : s.sb.thread = none
  start : s.sb.start = none
  stopping : s.sb.stopping = 0
  thr : ∀ t, s.sb.thr t = .unborn
  buf : ∀ b, s.sb.buf b = none
  next : s.sb.nextReader = none
  nexts : ∀ c, s.sb.nexts c = .idle ∨ s.sb.nexts c = .make
  drops : ∀ c, s.sb.drops c = none
  infos : ∀ c, s.sb.infos c = .idle
  waits : ∀ c, s.waits c = none

/-- **C131** as long as nobody has called `start()`: calling anything else, `next(stream_buffer)` and `stream_buffer()` included, never touches the source, gives
no reader and no data and starts nothing; each call answers as in `answerBefore`, and `join()` raises `AttributeError`. Every history, every interleaving. -/
theorem C131_before_start (hn : JAct.sb .start ∉ as) (he : (init : JSB K V I).exec cfg as = some s) :
    (∀ e ∈ s.sb.log, answerBefore cfg.autoDrop e) ∧ (∀ e ∈ s.joins, e = .raised .attributeError) := by
  have key : ∀ (as : List (JAct K V I)) (s0 s : JSB K V I), JAct.sb .start ∉ as → s0.exec cfg as = some s → Untouched s0 →
      ((∀ e ∈ s0.sb.log, answerBefore cfg.autoDrop e) ∧ (∀ e ∈ s0.joins, e = .raised .attributeError)) →
      (∀ e ∈ s.sb.log, answerBefore cfg.autoDrop e) ∧ (∀ e ∈ s.joins, e = .raised .attributeError) := by
    intro as
    induction as with
    | nil => intro s0 s _ he _ h; simp only [exec, Option.some.injEq] at he; exact he ▸ h
    | cons a as ih =>
      intro s0 s hn he hu h
      simp only [List.mem_cons, not_or] at hn
      simp only [exec] at he
      split at he
      swap
      · cases he
      rename_i s1 hs
      have hst : Untouched s1 ∧ (∀ e ∈ s1.sb.log, answerBefore cfg.autoDrop e) ∧ (∀ e ∈ s1.joins, e = .raised .attributeError) := by
        obtain ⟨u1, u2, u3, u4, u5, u6, u7, u8, u9, u10, u11, u12⟩ := hu
        cases a with
        | look c =>
          simp only [step, u12, u3, if_true, Option.some.injEq] at hs
          subst hs
          refine ⟨⟨u1, u2, u3, u4, u5, u6, u7, u8, u9, u10, u11, u12⟩, h.1, ?_⟩
          intro e he
          simp only [List.mem_append, List.mem_singleton] at he
          exact he.elim (h.2 e) id
        | wait c => simp [step, u12] at hs
        | sb a =>
          simp only [step, Option.map_eq_some_iff] at hs
          obtain ⟨x, hs, rfl⟩ := hs
          have hlog : ∀ {l : List (Ev V I)}, (∀ e ∈ l, answerBefore cfg.autoDrop e) → ∀ e ∈ s0.sb.log ++ l, answerBefore cfg.autoDrop e := by
            intro l hl e he
            rcases List.mem_append.1 he with he | he
            · exact h.1 e he
            · exact hl e he
          have same : Untouched s0 := ⟨u1, u2, u3, u4, u5, u6, u7, u8, u9, u10, u11, u12⟩
          have said : ∀ e : Ev V I, answerBefore cfg.autoDrop e → x = s0.sb.say e →
              Untouched { s0 with sb := x } ∧ (∀ e ∈ x.log, answerBefore cfg.autoDrop e) ∧ (∀ e ∈ s0.joins, e = .raised .attributeError) := by
            rintro e h1 rfl
            exact ⟨⟨u1, u2, u3, u4, u5, u6, u7, u8, u9, u10, u11, u12⟩, hlog (by simpa using h1), h.2⟩
          cases a with
          | start => exact absurd rfl hn.1
          | stop => simp only [SB.step, u1, Option.some.injEq] at hs; exact said _ (by first | rfl | trivial) hs.symm
          | drop c k =>
            simp only [SB.step, u10, u2, if_true] at hs
            split at hs
            · injection hs with hs; exact said _ (by simp_all [answerBefore]) hs.symm
            · injection hs with hs; exact said _ (by simp_all [answerBefore]) hs.symm
          | mkReader => simp only [SB.step, u4, u2, if_true, Option.some.injEq] at hs; exact said _ (by first | rfl | trivial) hs.symm
          | attach b i j => simp only [SB.step, u4, u2, if_true, Option.some.injEq] at hs; exact said _ (by first | rfl | trivial) hs.symm
          | isRunning => simp only [SB.step, u4, SB.running, u1, if_true, Option.some.injEq] at hs; exact said _ (by first | rfl | trivial) hs.symm
          | info c => simp only [SB.step, u11, u2, if_true, Option.some.injEq] at hs; exact said _ (by first | rfl | trivial) hs.symm
          | next c =>
            simp only [SB.step, u8, if_true] at hs
            split at hs
            · injection hs with hs; subst hs
              refine ⟨⟨u1, u2, u3, u4, u5, u6, u7, u8, ?_, u10, u11, u12⟩, h.1, h.2⟩
              intro c'; simp only [SB.setNext]; split
              · exact .inr rfl
              · exact u9 c'
            · cases hs
          | nextGo c =>
            rcases u9 c with hc | hc
            · simp [SB.step, hc] at hs
            · simp only [SB.step, hc, u4, u2, if_true, Option.some.injEq] at hs; subst hs
              refine ⟨⟨u1, u2, u3, u4, u5, u6, u7, u8, ?_, u10, u11, u12⟩, hlog (by simp [answerBefore]), h.2⟩
              intro c'; simp only [SB.say, SB.setNext]; split
              · exact .inl rfl
              · exact u9 c'
          | thr t => simp [SB.step, SB.thrGo, u6] at hs
          | rd b a => simp [SB.step, u7] at hs
          | _ => simp [SB.step, SB.startGo, u1, u4, u5, u6, u7, u10, u11] at hs
      exact ih s1 s hn.2 he hst.1 hst.2
  refine key as init s hn he ?_ ?_
  · exact ⟨rfl, rfl, rfl, rfl, rfl, fun _ => rfl, fun _ => rfl, rfl, fun _ => .inl rfl, fun _ => rfl, fun _ => rfl, fun _ => rfl⟩
  · exact ⟨fun e he => by simp [init, SB.init] at he, fun e he => by simp [init] at he⟩

/-- Meets C131: one of each call; caller 3's `next` runs beside the others. -/
theorem C131_meets : ∃ s : JSB Nat Nat Nat, (init : JSB Nat Nat Nat).exec (SB.mkCfg (some 2) false)
      ([.next 3, .stop, .drop 0 1, .mkReader, .isRunning, .info 0, .attach 0 0 0, .nextGo 3].map .sb ++ [.look 5]) = some s ∧
    s.sb.log = [.stopCalled (.error .attributeError), .dropCalled 1 (.error .attributeError), .madeReader (.error .streamNotStarted), .isRunning false,
      .info (.ok none), .attached (.error .streamNotStarted), .nextOn (.error .streamNotStarted)] ∧ s.joins = [.raised .attributeError] :=
  ⟨_, rfl, rfl, rfl⟩

end JSB
end S2P
