import Verif.Model.StreamBuffer
/-
Model of a StreamBuffer object that the program stops referring to (stream_buffer.py 311-315, `__del__`).

The object is kept alive by the program's references, by the frames of calls in progress (they hold `self`), and by its running threads
(`target=self._run`, 279, is a bound method; `Thread.run` lets go of the target when it returns). Buffers, readers and stop events do not refer to the
StreamBuffer. A thread that was made and never started is only referred to by the stream buffer itself. When nothing keeps the object alive the
interpreter may call `__del__` at any moment, once: it calls `stop()` and swallows the exception. Simplified: a caller blocked inside
`next(stream_buffer)` on the reader (163) is not counted as keeping the object alive, so that `__del__` may run earlier here than in CPython.
-/
namespace S2P

/-- The choice begins a call on the StreamBuffer object (the other choices go on with a call, or do something with a reader, or belong to a thread). -/
def SBAct.isCall {K V I : Type} : SBAct K V I → Bool
  | .start | .stop | .drop _ _ | .mkReader | .attach _ _ _ | .isRunning | .info _ | .next _ => true
  | _ => false

/-- A StreamBuffer; does the program still refer to it (`held`); did `__del__` run (`gone`). -/
structure DSB (K V I : Type) where
  sb : SB K V I
  held : Bool
  gone : Bool

/-- Scheduler choices: something in the stream buffer; the program lets go of its last reference; `__del__` is called. -/
inductive DAct (K V I : Type) where
  | sb (a : SBAct K V I)
  | forget
  | del

namespace DSB
variable {K V I : Type} [LT K] [DecidableLT K] [BEq V]

/-- A new StreamBuffer the program refers to. -/
def init : DSB K V I := { sb := SB.init, held := true, gone := false }

/-- No call in progress and no thread running: no frame holds `self`. -/
def Free (s : SB K V I) : Prop :=
  s.start = none ∧ s.stopping = 0 ∧ (∀ c, s.nexts c = .idle) ∧ (∀ c, s.drops c = none) ∧ (∀ c, s.infos c = .idle) ∧
    ∀ t, s.thr t = .unborn ∨ s.thr t = .fresh ∨ s.thr t = .done

/-- One step; `del` is stream_buffer.py 311-315 up to the `sleep` in `stop()` (188-189; the rest is `stopEnd`). -/
inductive Step (cfg : SBCfg K V) : DSB K V I → DAct K V I → DSB K V I → Prop
  | sb (s : DSB K V I) (a : SBAct K V I) (sb' : SB K V I) (hc : a.isCall = true → s.held = true) (hs : s.sb.step cfg a = some sb') :
      Step cfg s (.sb a) { s with sb := sb' }
  | forget (s : DSB K V I) (hh : s.held = true) : Step cfg s .forget { s with held := false }
  | del (s : DSB K V I) (sb' : SB K V I) (hh : s.held = false) (hg : s.gone = false) (hf : Free s.sb) (hs : s.sb.step cfg .stop = some sb') :
      Step cfg s .del { s with sb := sb', gone := true }

/-- An execution. -/
inductive Exec (cfg : SBCfg K V) : DSB K V I → List (DAct K V I) → DSB K V I → Prop
  | nil (s : DSB K V I) : Exec cfg s [] s
  | cons {s s1 s2 : DSB K V I} {a : DAct K V I} {as : List (DAct K V I)} (h1 : Step cfg s a s1) (h2 : Exec cfg s1 as s2) : Exec cfg s (a :: as) s2

end DSB
end S2P
