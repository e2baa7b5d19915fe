import Verif.Props.StreamSource
import Verif.Props.Misc
import Verif.Props.ReaderObjs
import Verif.Props.RWInterrupt
import Verif.Props.SourceThreadsWitness
import Verif.Props.SimplyWitness
/-
C137-C143: what is true where the expectation of C46, C47, C55, C62, C69, C70, C52 fails.
-/
namespace S2P
open Spec

namespace Src
variable {K V I : Type} [LT K] [DecidableLT K] [BEq V] {cfg : SrcCfg K V} {as : List (SrcAct K V I)} {s : Src K V I}

/-- **C137** a StreamSource starts its stream once: `open()` of the source succeeds at most once; a reader returned by `open_reader()` before the last close is a
reader of a running stream (unless an exception ended the reading), one returned after it is a reader of the stopped stream; if the first `open_reader()`
fails, every later one raises `StreamNotStartedError`, and none ever returned or returns a reader. Every execution. -/
theorem C137_started_once (he : Src.init.exec cfg as = some s) :
    (∀ c x, s.sb = some (c, x) → x.log.countP isOpen ≤ 1) ∧
    (∀ pre post r b lv, s.log = pre ++ .opened r b lv :: post → (SrcEv.stopped ∈ pre → lv = false) ∧
      (SrcEv.stopped ∉ pre → ∀ c x, s.sb = some (c, x) → x.log.any isDeath = false → lv = true)) ∧
    (∀ e, SrcEv.openError e ∈ s.log → (∀ r b lv, SrcEv.opened r b lv ∉ s.log) ∧
      ∀ pre post e', s.log = pre ++ .openError e' :: post → (∃ e, SrcEv.openError e ∈ pre) → e' = .streamNotStarted) :=
  ⟨fun _ _ hx => C46_refuted_opened_once he hx,
   fun _ _ _ _ _ hl => ⟨fun h => C46_refuted_reopened_is_stopped he hl h, fun h _ _ hx hd => C46_first_open_partial he hl h hx hd⟩,
   fun _ h => ⟨C46_refuted_failed_open_is_final he _ h, fun _ _ _ hl ⟨_, h'⟩ => C46_refuted_failed_open_then he hl h'⟩⟩

theorem callback_missing (l : List SrcEv) (r : Nat) : callback l r = .missing ↔ ¬ fromSource l r ∧ ∀ f, SrcEv.assigned r f ∉ l := by
  induction l using List.reverseRecOn with
  | nil => simp [callback, fromSource]
  | append_singleton l e ih =>
    rw [callback_snoc]
    cases e <;> simp only [fromSource, List.mem_append, List.mem_singleton, reduceCtorEq, or_false, SrcEv.opened.injEq, SrcEv.assigned.injEq] at ih ⊢ <;>
      first
      | exact ih
      | (split <;> grind)

/-- **C138** what closing a reader (or leaving a `with` block over it) does: a reader that neither came from `open_reader()` nor had `onclose` assigned raises
`AttributeError`; any other close returns, and a function assigned to `onclose` last is called in it. Every execution. -/
theorem C138_close (he : Src.init.exec cfg as = some s) {pre post : List SrcEv} {r : Nat} {out : Py Unit} (hl : s.log = pre ++ .closed r out :: post) :
    out = (if callback pre r = .missing then .error .attributeError else .ok ()) ∧
    (callback pre r = .missing ↔ ¬ fromSource pre r ∧ ∀ f, SrcEv.assigned r f ∉ pre) ∧
    (callback pre r = .user → ∃ pre', pre = pre' ++ [.ran r]) := by
  refine ⟨?_, callback_missing pre r, ?_⟩
  · split
    · rename_i h
      obtain ⟨h1, h2⟩ := (callback_missing pre r).1 h
      exact C47_refuted he hl h1 h2
    · exact (C47_close_partial he hl ‹_›).1
  · intro h
    exact (C47_close_partial he hl (by rw [h]; simp)).2.1 h

/-- Meets C137 and C138: see also `C46_refuted_witness`, `C46_refuted_failed_witness`. -/
theorem C137_meets : ∃ (s : Src Nat Nat Nat), Src.init.exec wcfg (wOpen ++ [.mkReader, .close 1, .assign 1 true, .close 1, .close 0, .closeGo] ++ wMore) = some s ∧
    s.log = [.bufferMade (some 100, true), .opened 0 0 true, .made 1, .closed 1 (.error .attributeError), .assigned 1 true, .ran 1, .closed 1 (.ok ()),
      .closed 0 (.ok ()), .stopped, .opened 2 0 false] := ⟨_, rfl, rfl⟩

end Src

namespace PyObj

/-- **C139** wrapping an ordinary callable, or something already wrapped, to any depth: calling the wrapper calls what the callable calls; entering and leaving run
the enter and exit functions of the innermost wrapping, on the callable. Things that are not callable are rejected with `TypeError`. -/
theorem C139_wraps (id : Nat) (f e x : PyObj) :
    (∀ o, Made f → contextualize id f e x = .ok o →
      o.calls = f.calls ∧ o.entering = (if f.isCtx then f.entering else some (e, f)) ∧ o.leaving = (if f.isCtx then f.leaving else some (x, f))) ∧
    (f.sig = none ∨ e.sig = none ∨ x.sig = none → e.sig ≠ some none → contextualize id f e x = .error .typeError) := by
  refine ⟨fun o hf h => ⟨C55_call_partial id f e x o hf h, ?_⟩, fun h1 h2 => C55_rejects_partial id f e x h1 h2⟩
  cases hc : f.isCtx with
  | true => simpa using C55_refuted_nested id f e x o hf hc h
  | false =>
    rcases hf.attrs with hp | ⟨hc', -⟩
    · simpa using C55_context_partial id f e x o hp h
    · rw [hc] at hc'; simp at hc'

/-- **C139**, which arguments are taken and what the others raise: the callable must be callable, the enter function callable with at least one parameter, the
exit function callable. Otherwise `TypeError`, except that an enter function whose signature Python cannot tell raises `ValueError` (if the callable is one). -/
theorem C139_validation (id : Nat) (f e x : PyObj) :
    ((∃ o, contextualize id f e x = .ok o) ↔ f.sig ≠ none ∧ (∃ ps, e.sig = some (some ps) ∧ ps ≠ []) ∧ x.sig ≠ none) ∧
    (contextualize id f e x = .error .valueError ↔ f.sig ≠ none ∧ e.sig = some none) ∧
    (∀ err, contextualize id f e x = .error err → err = .typeError ∨ err = .valueError) := by
  unfold contextualize
  cases hf : f.sig with
  | none => simp
  | some s =>
    rcases he : e.sig with _ | _ | ps
    · simp [enterValid, he]
    · simp [enterValid, he]
    · cases ps with
      | nil => simp [enterValid, he]
      | cons p ps => cases hx : x.sig <;> simp [enterValid, exitValid, he, hx]

theorem C139_meets : ∃ f e1 x1 e2 x2 o1 o2 : PyObj, Made f ∧ contextualize 10 f e1 x1 = .ok o1 ∧ Made o1 ∧ contextualize 11 o1 e2 x2 = .ok o2 ∧
    o1.entering = some (e1, f) ∧ o2.entering = some (e1, f) ∧ o2.calls = f ∧ e1 ≠ e2 :=
  ⟨fn 0 [.posOrKw false], fn 1 [.posOrKw false], fn 2 [.posOrKw false, .varPos], fn 3 [.posOrKw false], fn 4 [.posOrKw false, .varPos], _, _,
    .plain _ ⟨rfl, rfl, rfl, rfl⟩, rfl, .ctx 10 (fn 0 [.posOrKw false]) (fn 1 [.posOrKw false]) (fn 2 [.posOrKw false, .varPos]) _ (.plain _ ⟨rfl, rfl, rfl, rfl⟩) rfl, rfl, rfl, rfl, rfl, by simp [fn]⟩

end PyObj

namespace RObjs
variable {K V I : Type} [LinearOrder K] [BEq V] {cfg : SBCfg K V} {s s' : RObjs K V I} {as : List (RObjAct K V I)}

/-- **C140** a reader of `mk_reader()` that was never given to `attach_reader`: its `source_reader_info` is the info the source reported when the session it
reads was opened, and it has that session's stop event. Every execution. -/
theorem C140_reader_info (he : init.exec cfg as = some s) (r : Nat) (o : RObj I) (ho : s.rds[r]? = some o) (hna : ∀ i j, .attach r i j ∉ as) :
    (∀ i, Ev.bufferMade o.buf i ∈ s.sb.log ↔ i = o.info) ∧ ∃ x, s.sb.buf o.buf = some x ∧ o.evt = x.evt := by
  obtain ⟨h1, h2⟩ := C62_info_partial he r o ho hna
  exact ⟨fun i => ⟨h2 i, fun h => h ▸ h1⟩, C62_stop_event he o (List.mem_of_getElem? ho)⟩

theorem C140_meets : ∃ s : RObjs Nat Nat Nat, init.exec (SB.mkCfg (some 10) true) ((SB.wStart 1).map .sb ++ [.mkReader, .sb .stop, .sb .stopEnd] ++
    (SB.wStart 2).map .sb ++ [.mkReader]) = some s ∧ s.rds.map (fun o => (o.buf, o.info)) = [(0, 1), (1, 2)] := ⟨_, rfl, rfl⟩

end RObjs

namespace MSrc
variable {K V I : Type} [LT K] [DecidableLT K] [BEq V] {cfg : SrcCfg K V} {as : List (MAct K V I)} {s s' : MSrc K V I}

/-- **C141** a StreamSource used by several threads whose calls do not overlap: no `close()` of an open reader raises, and the stream is stopped exactly in the
`close()` that leaves no reader open. -/
theorem C141_by_turns (he : MSrc.init.exec cfg as = some s) (hx : NonOverlapping (fun _ => True) s.hist) (hc : closedOnce s.log) :
    (∀ pre post r out, s.log = pre ++ .closed r out :: post → fromSource pre r →
      out = .ok () ∧ ((∃ post', post = .stopped :: post') ↔ ∀ r', ¬ isOpenReader (pre ++ [.closed r out]) r')) ∧
    (∀ pre post, s.log = pre ++ .stopped :: post → (∃ pre' r, pre = pre' ++ [.closed r (.ok ())] ∧ fromSource pre' r) ∧ ∀ r, ¬ isOpenReader pre r) :=
  ⟨fun _ _ _ _ hl hr => C69_stops_with_last_close_partial he hx hc hl hr, fun _ _ hl => C69_stops_only_on_last_close_partial he hx hc hl⟩

/-- **C141** once a first reader was opened with nobody else calling, calls may overlap in any way: none of them fails, no second stream buffer is made, the source is
not opened again, and every new reader reads the session of the first one. -/
theorem C141_after_first {as1 as2 : List (MAct K V I)} {s1 s2 : MSrc K V I} (h1 : MSrc.init.exec cfg as1 = some s1)
    (hx : NonOverlapping (fun _ => True) s1.hist) (hq : ∀ id c, HEv.inv id c ∈ s1.hist → HEv.ret id () ∈ s1.hist)
    {r b : Nat} {lv : Bool} (ho : SrcEv.opened r b lv ∈ s1.log) (h2 : s1.exec cfg as2 = some s2) :
    (∃ new, s2.log = s1.log ++ new ∧ (∀ e, SrcEv.openError e ∉ new) ∧ (∀ c, SrcEv.bufferMade c ∉ new) ∧
      (∀ r' b' lv', SrcEv.opened r' b' lv' ∈ new → b' = b) ∧ ∀ r' out, SrcEv.closed r' out ∈ new → out = .ok ()) ∧
    ∃ c x, s2.slot = some 0 ∧ s2.bufs 0 = some (c, x) ∧ (∀ b', 0 < b' → s2.bufs b' = none) ∧ x.log.countP isOpen ≤ 1 :=
  C69_first_alone_partial h1 hx hq ho h2

end MSrc

section
open RW RWI
variable {D Op : Type}

/-- **C142** interrupts (KeyboardInterrupt) that strike a reader while it holds the lock, or a writer after its last change of the data, do no harm: a writer is alone,
what a reader saw in one section is one state made of whole operations, and when all have left the lock is as new and the data are those of the operations done.
If a writer is struck in the middle of its operation, the lock still stays sound. -/
theorem C142_interrupted_inside {body : Op → D → List (D → D)} {n : Nat} {d : D} {as : List (IAct Op)} {s : IM D Op}
    (he : (RWI.init n d : IM D Op).exec body as = some s) :
    (Along InSectionAt body (RWI.init n d) as →
      (∀ (i j : Nat) t u, i ≠ j → s.th[i]? = some t → s.th[j]? = some u → t.pc = .wCS → u.pc ≠ .wCS ∧ ¬ InReader u) ∧
      ((∀ t ∈ s.th, t.pc = .idle) → s.lk = LkI.fresh)) ∧
    (Along WholeAt body (RWI.init n d) as →
      (∀ t ∈ s.th, ∃ ops, ops <+: s.done ∧ (∀ x ∈ t.seen, x = afterOps (runBody body) d ops) ∧
        (InReader t → ops = s.done ∧ s.data = afterOps (runBody body) d ops)) ∧
      ((∀ t ∈ s.th, t.pc = .idle) → s.data = afterOps (runBody body) d s.done)) :=
  ⟨fun h => C70_lock_partial he h, fun h => ⟨(C70_whole_partial he h).2.1, fun hq => ((C70_whole_partial he h).2.2 hq).2⟩⟩

theorem C142_meets : ∃ s, (RWI.init 3 0 : IM Nat Nat).exec noOps exIntOk = some s ∧ Along WholeAt noOps (RWI.init 3 0) exIntOk ∧
    (∃ t, s.th[2]? = some t ∧ t.pc = .wCS) ∧ s.data = 5 :=
  ⟨_, rfl, by decide, ⟨_, rfl, rfl⟩, rfl⟩
end

namespace Simp
variable {K D I : Type} [LinearOrder K] [BEq D] [ReflBEq D] {cfg : SBCfg K (SItem D)} {s : Simp K D I} {xs : List (SimpAct K D I)}

/-- **C143** `mk_stream_buffer(enumerate_data=False)`, restarts only after the thread has ended: what is stored in a session, in its thread's hands or refused is
exactly what `read_stream` returned other than `None`, in order. -/
theorem C143_none_skipped (he : init.exec false cfg xs = some s) (hset : (init : Simp K D I).Settled false cfg xs) (t : Nat) :
    storedIn t s.sb.log ++ (s.sb.thr t).inHand ++ refusedBy t s.sb.log = (s.raw t).filterMap (·.map .raw) :=
  C52_none_skipped_partial he hset t

end Simp
end S2P
