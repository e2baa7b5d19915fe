import Verif.Model.Settings
import Verif.Props.Reader
/-
C176: assigning to the attributes of a reader.
-/
namespace S2P.AttrCh
open Spec
variable {K V : Type} [LinearOrder K] [BEq V]

/-- The readers are, but for their attributes, those of the channel. -/
structure Sim (a : AttrCh K V) (c : Ch K V) : Prop where
  buf : a.buf = c.buf
  kwargs : ∀ i, (a.readers i).kwargs = (c.readers i).cfg
  next : ∀ i, (a.readers i).kwargsForNext = { (c.readers i).cfg with ignore := true }
  item : ∀ i, (a.readers i).lastItem = (c.readers i).lastItem
  key : ∀ i, (a.readers i).lastKey = (c.readers i).lastKey

theorem Sim.init (key : V → K) (kn : Py (Option K)) (m : Option Nat) (cfg : Nat → Cfg) :
    Sim (AttrCh.init key kn m cfg) (Ch.init key kn m cfg) :=
  ⟨rfl, fun _ => rfl, fun _ => rfl, fun _ => rfl, fun _ => rfl⟩

theorem read_cfg (s : SD K V) (r : Reader K V) (n : Option Int) (p i st : Option Bool) : (r.read s n p i st).2.cfg = r.cfg := by
  unfold Reader.read
  simp only
  repeat' first | rfl | split

theorem rdStep_cfg (s : SD K V) (r : Reader K V) (op : RdOp K V) : (Ch.rdStep s r op).2.cfg = r.cfg := by
  cases op with
  | read n p i st => exact read_cfg s r n p i st
  | nextMethod n p i st => exact read_cfg s r _ _ _ _
  | readForNext => exact read_cfg s r _ _ _ _
  | range x y st p i o le ge =>
    show (r.range s x y st p i o le ge).2.cfg = r.cfg
    unfold Reader.range
    simp only
    repeat' first | rfl | split
  | tail p i o =>
    show (r.tail s p i o).2.cfg = r.cfg
    unfold Reader.tail
    simp only
    repeat' first | rfl | split
  | head p =>
    show (r.head s p).2.cfg = r.cfg
    unfold Reader.head
    repeat' first | rfl | split
  | setLast v => rfl
  | delLast => rfl

theorem Sim.call {a : AttrCh K V} {c : Ch K V} (h : Sim a c) (op : ChOp K V) :
    Sim (a.step (.call op)).1 (c.step op).1 ∧ (a.step (.call op)).2 = .ret (c.step op).2 := by
  obtain ⟨h1, h2, h3, h4, h5⟩ := h
  cases op with
  | append v =>
    simp only [AttrCh.step, Ch.step, h1]
    exact ⟨⟨rfl, h2, h3, h4, h5⟩, trivial⟩
  | drop n =>
    simp only [AttrCh.step, Ch.step, h1]
    exact ⟨⟨rfl, h2, h3, h4, h5⟩, trivial⟩
  | rd i op =>
    have e : (⟨(a.readers i).lastItem, (a.readers i).lastKey, (a.readers i).kwargs⟩ : Reader K V) = c.readers i := by rw [h2, h4, h5]
    have hc : ((a.readers i).call a.buf op).1 = (Ch.rdStep c.buf (c.readers i) op).1 ∧
        ((a.readers i).call a.buf op).2.lastItem = (Ch.rdStep c.buf (c.readers i) op).2.lastItem ∧
        ((a.readers i).call a.buf op).2.lastKey = (Ch.rdStep c.buf (c.readers i) op).2.lastKey := by
      unfold AttrReader.call
      rw [h1, e, h3 i]
      cases op <;> exact ⟨rfl, rfl, rfl⟩
    have hk : ((a.readers i).call a.buf op).2.kwargs = (a.readers i).kwargs ∧
        ((a.readers i).call a.buf op).2.kwargsForNext = (a.readers i).kwargsForNext := ⟨rfl, rfl⟩
    have hcfg := rdStep_cfg c.buf (c.readers i) op
    refine ⟨⟨h1, fun j => ?_, fun j => ?_, fun j => ?_, fun j => ?_⟩, congrArg _ hc.1⟩ <;>
      simp only [AttrCh.step, Ch.step] <;> by_cases hj : j = i <;> simp only [hj, if_true, if_false]
    · rw [hk.1, hcfg, h2]
    · exact h2 j
    · rw [hk.2, hcfg, h3]
    · exact h3 j
    · exact hc.2.1
    · exact h4 j
    · exact hc.2.2
    · exact h5 j

theorem Sim.assign {a : AttrCh K V} {c : Ch K V} (h : Sim a c) (i : Nat) (x : Setting) : Sim (a.step (.assign i x)).1 c := by
  obtain ⟨h1, h2, h3, h4, h5⟩ := h
  refine ⟨h1, fun j => ?_, fun j => ?_, fun j => ?_, fun j => ?_⟩ <;>
    simp only [AttrCh.step] <;> by_cases hj : j = i <;> simp only [hj, if_true, if_false]
  · rw [← h2 i]; cases x <;> rfl
  · exact h2 j
  · rw [← h3 i]; cases x <;> rfl
  · exact h3 j
  · rw [← h4 i]; cases x <;> rfl
  · exact h4 j
  · rw [← h5 i]; cases x <;> rfl
  · exact h5 j

theorem Sim.run {a : AttrCh K V} {c : Ch K V} (h : Sim a c) (os : List (SetOp K V)) :
    callAnswers (a.run os).2 = (c.run (onlyCalls os)).2 ∧ Sim (a.run os).1 (c.run (onlyCalls os)).1 := by
  induction os generalizing a c with
  | nil => exact ⟨rfl, h⟩
  | cons o os ih =>
    cases o with
    | call op =>
      obtain ⟨k1, k2⟩ := h.call op
      obtain ⟨k3, k4⟩ := ih k1
      refine ⟨?_, k4⟩
      show callAnswers ((a.step (.call op)).2 :: (AttrCh.run (a.step (.call op)).1 os).2) = _
      rw [k2]
      show (c.step op).2 :: callAnswers _ = _
      rw [k3]
      rfl
    | assign i x => exact ih (h.assign i x)
    | look i => exact ih h

theorem looks_run (a : AttrCh K V) (os : List (SetOp K V)) : lookedAt (a.run os).2 = looks (fun i => (a.readers i).attrs) os := by
  induction os generalizing a with
  | nil => rfl
  | cons o os ih =>
    cases o with
    | call op =>
      have hs : ∀ j, ((a.step (.call op)).1.readers j).attrs = (a.readers j).attrs := by
        intro j
        cases op with
        | append v => rfl
        | drop n => rfl
        | rd i op =>
          simp only [AttrCh.step]
          by_cases hj : j = i
          · subst hj; simp only [if_true]; rfl
          · simp only [hj, if_false]
      have e : lookedAt (a.run (.call op :: os)).2 = lookedAt (AttrCh.run (a.step (.call op)).1 os).2 := by
        cases op <;> rfl
      rw [e, ih, funext hs]
      rfl
    | assign i x =>
      show lookedAt (AttrCh.run (a.step (.assign i x)).1 os).2 = looks (fun j => if j = i then assignTo (a.readers i).attrs x else (a.readers j).attrs) os
      rw [ih]
      congr 1
      funext j
      simp only [AttrCh.step]
      by_cases hj : j = i
      · subst hj; simp only [if_true]; cases x <;> rfl
      · simp only [hj, if_false]
    | look i => exact congrArg _ (ih a)

/-- **C176** assigning `read_size`, `peek`, `ignore_no_item_found` or `strict_n` of readers, at any moment, changes no outcome of any call: every reader answers for ever
as its constructor's arguments say (by the reference semantics of C11). -/
theorem C176_no_effect (key : V → K) (kn : Py (Option K)) (m : Option Nat) (cfg : Nat → Cfg) (os : List (SetOp K V)) [ReflBEq V] :
    callAnswers ((AttrCh.init key kn m cfg).run os).2 = (Window.run key kn m cfg Window.init (onlyCalls os)).2 ∧
    ((AttrCh.init key kn m cfg).run os).1.buf.items = (Window.run key kn m cfg Window.init (onlyCalls os)).1.items ∧
    ∀ i, (((AttrCh.init key kn m cfg).run os).1.readers i).lastItem = (Window.run key kn m cfg Window.init (onlyCalls os)).1.cur i := by
  obtain ⟨h1, h2⟩ := (Sim.init key kn m cfg).run os
  obtain ⟨k1, k2, k3⟩ := C11_window_refinement key kn m cfg (onlyCalls os)
  exact ⟨h1.trans k1, (congrArg SD.items h2.buf).trans k2, fun i => (h2.item i).trans (k3 i)⟩

/-- **C176** although the attributes then show what was assigned last. -/
theorem C176_shows (key : V → K) (kn : Py (Option K)) (m : Option Nat) (cfg : Nat → Cfg) (os : List (SetOp K V)) :
    lookedAt ((AttrCh.init key kn m cfg).run os).2 = looks cfg os := looks_run _ os

/-- Five items are stored; reader 0 is given the read size 3, and reads; it shows 3. -/
def stHist : List (SetOp Nat Nat) :=
  [.call (.append 1), .call (.append 2), .call (.append 3), .call (.append 4), .call (.append 5), .assign 0 (.readSize 3), .look 0,
    .call (.rd 0 (.read none none none none)), .assign 0 (.peek true), .call (.rd 0 .readForNext), .assign 0 (.ignoreNoItemFound true), .call (.rd 0 (.tail false false false)),
    .call (.rd 0 (.read none none none none)), .look 0, .look 1]

/-- **C176** meets: the read size is shown as 3 and one item is read; `peek` is shown as true and the cursor moves; `ignore_no_item_found` is shown as true and the
read raises. -/
theorem C176_meets :
    (callAnswers ((init (fun v : Nat => v) (.ok none) none (fun _ => Cfg.default)).run stHist).2).drop 5 =
      [.ok (.one 1), .ok (.one 2), .ok (.one 5), .error .valueError] ∧
    lookedAt ((init (fun v : Nat => v) (.ok none) none (fun _ => Cfg.default)).run stHist).2 =
      [⟨3, false, false, false⟩, ⟨3, true, true, false⟩, Cfg.default] := by
  constructor <;> decide +kernel

/-- **C176** it is not what one may expect, that the reader answers as one made with these settings. -/
theorem C176_not_expected : ¬∀ (cfg : Nat → Cfg) (os : List (SetOp Nat Nat)),
    callAnswers ((init (fun v : Nat => v) (.ok none) none cfg).run os).2 = expectedRun (fun v : Nat => v) (.ok none) none cfg Window.init os := by
  intro h
  have := h (fun _ => Cfg.default) stHist
  revert this
  decide +kernel

end S2P.AttrCh
