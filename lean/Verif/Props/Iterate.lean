import Verif.Model.Iterate
import Verif.Proofs.SortedDeque
/-
C161: iterating over a SortedDeque or SortedCollection while it is used.
-/
namespace S2P
open Spec
namespace IterSD
variable {K V : Type} [LinearOrder K] [BEq V] [LT V] [DecidableLT V] {s s' : IterSD K V} {as : List (ItAct K V)} {lst : Bool}

/-- What a call does to the deque and to the object that holds its items. -/
inductive Did (s : IterSD K V) (op : SD.Op K V) : IterSD K V → Prop
  | altered (t r) (hw : t.WF) (ha : alters s.sd t r op = true) (hr : rebuilds s.sd op = false) :
      Did s op { s.inPlace t with log := s.log ++ [.called op r s.sd t] }
  | rebuilt (t r) (hw : t.WF) (ha : alters s.sd t r op = false) (hr : rebuilds s.sd op = true) :
      Did s op { s.rebuilt t with log := s.log ++ [.called op r s.sd t] }
  | nothing (t r) (hw : t.WF) (hi : t.items = s.sd.items) (ha : alters s.sd t r op = false) (hr : rebuilds s.sd op = false) :
      Did s op { s with sd := t, log := s.log ++ [.called op r s.sd t] }

theorem call_did (h : s.sd.WF) (op : SD.Op K V) : Did s op (s.call op) := by
  cases op with
  | append v =>
    have hw := h.append v
    simp only [call, SD.apply]
    have ha := SD.append_eq h.aligned h.bounded v
    split at ha
    · have h2 : (s.sd.append v).2 = .ok () := by rw [ha]
      rw [show s.sd.append v = ((s.sd.append v).1, .ok ()) from Prod.ext rfl h2]
      exact .altered _ _ hw rfl rfl
    · rw [ha]; exact .nothing _ _ h rfl rfl rfl
  | insert v =>
    have hw := h.insert v
    simp only [call, SD.apply]
    have ha := SD.insert_eq h v
    split at ha
    · rw [ha]; exact .nothing _ _ h rfl rfl rfl
    · have h2 : (s.sd.insert v).2 = .ok () := by rw [ha]
      rw [show s.sd.insert v = ((s.sd.insert v).1, .ok ()) from Prod.ext rfl h2]
      exact .altered _ _ hw rfl rfl
  | insertRight v =>
    have hw := h.insertRight v
    simp only [call, SD.apply]
    have ha := SD.insertRight_eq h v
    split at ha
    · rw [ha]; exact .nothing _ _ h rfl rfl rfl
    · have h2 : (s.sd.insertRight v).2 = .ok () := by rw [ha]
      rw [show s.sd.insertRight v = ((s.sd.insertRight v).1, .ok ()) from Prod.ext rfl h2]
      exact .altered _ _ hw rfl rfl
  | remove v =>
    have hw := h.remove v
    simp only [call, SD.apply]
    cases hr : s.sd.remove v with
    | mk t r =>
      rw [hr] at hw
      cases r with
      | ok u => exact .altered _ _ hw rfl rfl
      | error e =>
        refine .nothing _ _ hw ?_ rfl rfl
        unfold SD.remove at hr
        cases hx : s.sd.index v with
        | error e' => rw [hx] at hr; simp only [Prod.mk.injEq] at hr; rw [← hr.1]
        | ok i =>
          rw [hx] at hr
          simp only [dqDel, h.len_keys] at hr
          by_cases hi : i < s.sd.items.length
          · simp [hi] at hr
          · simp only [hi, if_false, Prod.mk.injEq] at hr; rw [← hr.1]
  | drop n =>
    have hw := h.drop n
    have hd := SD.drop_eq h n
    simp only [call, SD.apply]
    by_cases hc : 0 < n ∧ s.sd.items ≠ []
    · simp only [hc, if_true, and_self, ne_eq, not_false_eq_true]
      refine .altered _ _ hw ?_ rfl
      have : 0 < s.sd.items.length := List.length_pos_iff.2 hc.2
      simp only [alters, hd, List.length_drop, decide_eq_true_eq]
      omega
    · simp only [hc, if_false]
      have hi : (s.sd.drop n).1.items = s.sd.items := by
        rw [hd]
        simp only
        by_cases hn : 0 < n
        · have : s.sd.items = [] := by by_contra hx; exact hc ⟨hn, hx⟩
          simp [this]
        · rw [show n.toNat = 0 by omega]; rfl
      refine .nothing _ _ hw hi ?_ rfl
      simp [alters, hi]
  | clear => exact .rebuilt _ _ (SD.new_wf _ _ _ _) rfl rfl
  | setMaxlen m =>
    simp only [call, SD.apply, SD.setMaxlen]
    by_cases hm : m = s.sd.maxlen
    · simp only [hm, ne_eq, not_true_eq_false, if_false]
      exact .nothing _ _ h rfl rfl (by simp [rebuilds])
    · simp only [ne_eq, hm, not_false_eq_true, if_true]
      exact .rebuilt _ _ (SD.new_wf _ _ _ _) rfl (by simp [rebuilds, hm])
  | setKey k kn => exact .rebuilt _ _ (SD.new_wf _ _ _ _) rfl rfl
  | delKey k kn => exact .rebuilt _ _ (SD.new_wf _ _ _ _) rfl rfl
  | copy => exact .nothing _ _ h rfl rfl rfl
  | roundTrip => exact .nothing _ _ h rfl rfl rfl

/-- The deque is in order, and the object numbered `cur` holds its items. -/
structure Sound (s : IterSD K V) : Prop where
  wf : s.sd.WF
  cur : (s.objs s.cur).1 = s.sd.items

/-- An iterator of a deque is as watched. -/
structure Agrees (s : IterSD K V) (it : DqIter) (w : Watch V) : Prop where
  obj : it.obj ≤ s.cur
  ver : it.ver ≤ (s.objs it.obj).2
  rebuilt : w.rebuilt = decide (it.obj ≠ s.cur)
  altered : w.altered = decide ((s.objs it.obj).2 ≠ it.ver)
  items : w.altered = false → (if it.rev then (s.objs it.obj).1.reverse else (s.objs it.obj).1) = w.items
  rev : w.rev = it.rev
  failed : w.failed = it.done
  len : it.len = w.items.length
  pos : it.pos = w.given
  bound : w.given ≤ w.items.length

/-- An iterator of a list is as watched. -/
structure LAgrees (s : IterSD K V) (it : DqIter) (w : LWatch V) : Prop where
  obj : it.obj ≤ s.cur
  rebuilt : w.rebuilt = decide (it.obj ≠ s.cur)
  items : (s.objs it.obj).1 = w.items
  rev : w.rev = it.rev
  len : w.size = it.len
  ended : w.ended = it.done
  pos : w.ended = false → it.pos = w.given

theorem watch_snoc (i : Nat) (l : List (ItEv K V)) (e : ItEv K V) : watch i (l ++ [e]) = watch1 i (watch i l) e := by simp [watch]

theorem lwatch_snoc (i : Nat) (l : List (ItEv K V)) (e : ItEv K V) : lwatch i (l ++ [e]) = lwatch1 i (lwatch i l) e := by simp [lwatch]

theorem sound_new (l : List V) (key : V → K) (kn : Py (Option K)) (m : Option Nat) : Sound (new l key kn m) := ⟨SD.new_wf _ _ _ _, rfl⟩

theorem Sound.call (h : Sound s) (op : SD.Op K V) : Sound (s.call op) := by
  have hd := call_did h.wf op
  generalize s.call op = s' at hd
  cases hd with
  | altered t r hw ha hr => exact ⟨hw, by simp [inPlace]⟩
  | rebuilt t r hw ha hr => exact ⟨hw, by simp [IterSD.rebuilt]⟩
  | nothing t r hw hi ha hr => exact ⟨hw, by simpa [hi] using h.cur⟩

/-- The log grows by the event; the iterators stay. -/
theorem call_its (op : SD.Op K V) : (s.call op).its = s.its := by
  cases op <;> simp only [call] <;> (try split) <;> simp [inPlace, IterSD.rebuilt]

theorem Agrees.call (h : Sound s) {it : DqIter} {w : Watch V} {i : Nat} (hw : watch i s.log = some w) (ha : Agrees s it w) (op : SD.Op K V) :
    ∃ w', watch i (s.call op).log = some w' ∧ Agrees (s.call op) it w' := by
  have hd := call_did h.wf op
  generalize s.call op = s' at hd
  cases hd with
  | altered t r hwf hal hr =>
    refine ⟨_, by simp only [watch_snoc, watch1, hw, Option.map_some]; rfl, ?_⟩
    by_cases hc : it.obj = s.cur
    · have hrb : w.rebuilt = false := by rw [ha.rebuilt]; simp [hc]
      have hv := ha.ver
      refine ⟨ha.obj, ?_, ?_, ?_, ?_, ha.rev, ha.failed, ha.len, ha.pos, ha.bound⟩
      · simp only [inPlace, hc, if_true]; rw [← hc]; omega
      · simp [inPlace, hr, hrb, hc]
      · simp only [inPlace, hal, hrb, hc, if_true]
        rw [← hc]
        simp; omega
      · simp [hal, hrb]
    · have hrb : w.rebuilt = true := by rw [ha.rebuilt]; simp [hc]
      refine ⟨ha.obj, ?_, ?_, ?_, ?_, ha.rev, ha.failed, ha.len, ha.pos, ha.bound⟩
      · simpa [inPlace, hc] using ha.ver
      · simp [inPlace, hrb, hc]
      · simpa [inPlace, hrb, hc] using ha.altered
      · simpa [inPlace, hrb, hc] using ha.items
  | rebuilt t r hwf hal hr =>
    refine ⟨_, by simp only [watch_snoc, watch1, hw, Option.map_some]; rfl, ?_⟩
    have hobj := ha.obj
    have hne : it.obj ≠ s.cur + 1 := by omega
    refine ⟨?_, ?_, ?_, ?_, ?_, ha.rev, ha.failed, ha.len, ha.pos, ha.bound⟩
    · simp only [IterSD.rebuilt]; omega
    · simpa [IterSD.rebuilt, hne] using ha.ver
    · simp [IterSD.rebuilt, hr, hne]
    · simpa [IterSD.rebuilt, hal, hne] using ha.altered
    · simpa [IterSD.rebuilt, hal, hne] using ha.items
  | nothing t r hwf hi hal hr =>
    refine ⟨_, by simp only [watch_snoc, watch1, hw, Option.map_some]; rfl, ?_⟩
    exact ⟨ha.obj, ha.ver, by simpa [hr] using ha.rebuilt, by simpa [hal] using ha.altered, by simpa [hal] using ha.items, ha.rev, ha.failed, ha.len, ha.pos, ha.bound⟩

/-- Every iterator of a deque is as watched. -/
structure Seen (s : IterSD K V) : Prop where
  sound : Sound s
  agrees : ∀ i it, s.its i = some it → ∃ w, watch i s.log = some w ∧ Agrees s it w

/-- Another state with the same objects. -/
theorem Agrees.same {it : DqIter} {w : Watch V} (ha : Agrees s it w) (t : IterSD K V) (h1 : t.cur = s.cur) (h2 : t.objs = s.objs) : Agrees t it w :=
  ⟨by rw [h1]; exact ha.obj, by rw [h2]; exact ha.ver, by rw [h1]; exact ha.rebuilt, by rw [h2]; exact ha.altered, by rw [h2]; exact ha.items, ha.rev, ha.failed,
    ha.len, ha.pos, ha.bound⟩

/-- What the iterator has seen after an answer. -/
def Watch.after (w : Watch V) (a : ItAns V) : Watch V :=
  { w with given := w.given + (if a matches .item _ then 1 else 0), failed := w.failed || decide (a matches .runtimeError) }

/-- An iterator that is as watched answers as it owes. -/
theorem Agrees.next {it : DqIter} {w : Watch V} (ha : Agrees s it w) : (s.dqNext it).1 = w.answer ∧ Agrees s (s.dqNext it).2 (Watch.after w w.answer) := by
  by_cases hend : (it.rev && (it.done || decide (it.len ≤ it.pos))) = true
  · have hn : s.dqNext it = (.stop, it) := by simp only [dqNext, hend, if_true]
    have hans : w.answer = .stop := by
      rw [Watch.answer, ha.rev, ha.failed, ← ha.len, ← ha.pos, if_pos hend]
    rw [hn, hans]
    refine ⟨rfl, ?_⟩
    simpa [Watch.after] using ha
  have hend' : ¬ (w.rev && (w.failed || decide (w.items.length ≤ w.given))) = true := by rw [ha.rev, ha.failed, ← ha.len, ← ha.pos]; exact hend
  by_cases hv : (s.objs it.obj).2 = it.ver
  · have hal : w.altered = false := by rw [ha.altered]; simp [hv]
    have hi := ha.items hal
    by_cases hg : w.given < w.items.length
    · have he : w.items[w.given]? = some w.items[w.given] := List.getElem?_eq_getElem hg
      have hn : s.dqNext it = (.item w.items[w.given], { it with pos := it.pos + 1 }) := by
        unfold dqNext; dsimp only; rw [if_neg hend, if_neg (not_not.2 hv), hi, ha.pos, he]
      have hans : w.answer = .item w.items[w.given] := by
        rw [Watch.answer, if_neg hend', hal, he]; rfl
      rw [hn, hans]
      exact ⟨rfl, ha.obj, ha.ver, ha.rebuilt, ha.altered, ha.items, ha.rev, by simpa [Watch.after] using ha.failed, ha.len, by simp [Watch.after, ha.pos],
        by simp only [Watch.after, if_true]; omega⟩
    · have he : w.items[w.given]? = none := List.getElem?_eq_none (by omega)
      have hn : s.dqNext it = (.stop, it) := by
        unfold dqNext; dsimp only; rw [if_neg hend, if_neg (not_not.2 hv), hi, ha.pos, he]
      have hans : w.answer = .stop := by
        rw [Watch.answer, if_neg hend', hal, he]; rfl
      rw [hn, hans]
      refine ⟨rfl, ?_⟩
      simpa [Watch.after] using ha
  · have hal : w.altered = true := by rw [ha.altered]; simp [hv]
    have hn : s.dqNext it = (.runtimeError, { it with done := true }) := by
      unfold dqNext; dsimp only; rw [if_neg hend, if_pos hv]
    have hans : w.answer = .runtimeError := by rw [Watch.answer, if_neg hend', hal]; rfl
    rw [hn, hans]
    exact ⟨rfl, ha.obj, ha.ver, ha.rebuilt, ha.altered, ha.items, ha.rev, by simp [Watch.after], ha.len, by simp [Watch.after, ha.pos], by simpa [Watch.after] using ha.bound⟩

theorem Seen.step (h : Seen s) {a : ItAct K V} (hs : s.step false a = some s') : Seen s' := by
  cases a with
  | call op =>
    simp only [IterSD.step, Option.some.injEq] at hs
    subst hs
    refine ⟨h.sound.call op, fun i it hi => ?_⟩
    rw [call_its] at hi
    obtain ⟨w, hw, ha⟩ := h.agrees i it hi
    exact ha.call h.sound hw op
  | iter i rev =>
    simp only [IterSD.step, Option.some.injEq] at hs
    subst hs
    refine ⟨⟨h.sound.wf, h.sound.cur⟩, fun j it hj => ?_⟩
    simp only at hj
    simp only [watch_snoc, watch1]
    by_cases hc : j = i
    · subst hc
      simp only [if_true, Option.some.injEq] at hj
      subst hj
      refine ⟨_, by simp only [if_true]; rfl, ?_⟩
      exact ⟨Nat.le_refl _, Nat.le_refl _, by simp, by simp, fun _ => by simp [h.sound.cur], rfl, rfl, by simp; split <;> simp, rfl, Nat.zero_le _⟩
    · simp only [hc, if_false] at hj
      obtain ⟨w, hw, ha⟩ := h.agrees j it hj
      refine ⟨w, by rw [if_neg (Ne.symm hc)]; exact hw, ?_⟩
      exact ha.same _ rfl rfl
  | next i =>
    simp only [IterSD.step] at hs
    cases hit : s.its i with
    | none => rw [hit] at hs; cases hs
    | some it =>
      rw [hit] at hs
      simp only [Bool.false_eq_true, if_false, Option.some.injEq] at hs
      subst hs
      refine ⟨⟨h.sound.wf, h.sound.cur⟩, fun j jt hj => ?_⟩
      simp only at hj
      simp only [watch_snoc, watch1]
      by_cases hc : j = i
      · subst hc
        simp only [if_true, Option.some.injEq] at hj
        subst hj
        obtain ⟨w, hw, ha⟩ := h.agrees j it hit
        refine ⟨Watch.after w (s.dqNext it).1, by simp only [if_true, hw, Option.map_some]; rfl, ?_⟩
        rw [ha.next.1]
        exact ha.next.2.same _ rfl rfl
      · simp only [hc, if_false] at hj
        obtain ⟨w, hw, ha⟩ := h.agrees j jt hj
        refine ⟨w, by rw [if_neg (Ne.symm hc)]; exact hw, ?_⟩
        exact ha.same _ rfl rfl

theorem exec_ind {P : IterSD K V → Prop} (hstep : ∀ s a s', P s → s.step lst a = some s' → P s') (h0 : P s) (he : s.exec lst as = some s') : P s' := by
  induction as generalizing s with
  | nil => simp only [exec, Option.some.injEq] at he; subst he; exact h0
  | cons a as ih =>
    simp only [exec] at he
    split at he
    · rename_i t ht; exact ih (hstep _ _ _ h0 ht) he
    · cases he

variable {l : List V} {key : V → K} {kn : Py (Option K)} {m : Option Nat}

theorem seen (he : (new l key kn m).exec false as = some s) : Seen s :=
  exec_ind (fun _ _ _ h hs => h.step hs) ⟨sound_new _ _ _ _, fun i it h => by simp [new] at h⟩ he

/-- **C161** SortedDeque: at every moment of every history, `next` of an iterator (of `iter(d)` or `reversed(d)`) answers the next of the items that were in the
deque when the iterator was made, or `StopIteration` after the last of them; but once a call has put something in or taken something out, `RuntimeError` (of
`reversed(d)`: if there was still something to give, and only once), unless the deque had been rebuilt before (`clear()`, `maxlen` or key assigned), which the
iterator does not notice. -/
theorem C161_deque (he : (new l key kn m).exec false as = some s) (i : Nat) (hs : s.step false (.next i) = some s') :
    ∃ w, watch i s.log = some w ∧ s'.log = s.log ++ [.next i w.answer] := by
  simp only [step] at hs
  cases hit : s.its i with
  | none => rw [hit] at hs; cases hs
  | some it =>
    rw [hit] at hs
    simp only [Bool.false_eq_true, if_false, Option.some.injEq] at hs
    subst hs
    obtain ⟨w, hw, ha⟩ := (seen he).agrees i it hit
    exact ⟨w, hw, by simp [ha.next.1]⟩

/-! ### the items an iterator gives -/

/-- The items that iterator `i` gave. -/
def gave (i : Nat) (l : List (ItEv K V)) : List V :=
  l.filterMap fun | .next j (.item v) => if j = i then some v else none | _ => none

/-- The events since iterator `i` was last made. -/
def since1 (i : Nat) (acc : List (ItEv K V)) (e : ItEv K V) : List (ItEv K V) :=
  match e with
  | .made j _ _ => if j = i then [] else acc ++ [e]
  | _ => acc ++ [e]

def since (i : Nat) (l : List (ItEv K V)) : List (ItEv K V) := l.foldl (since1 i) []

theorem since_snoc (i : Nat) (l : List (ItEv K V)) (e : ItEv K V) : since i (l ++ [e]) = since1 i (since i l) e := by simp [since]

omit [LinearOrder K] [BEq V] [LT V] [DecidableLT V] in
theorem since_eq (i : Nat) (pre mid : List (ItEv K V)) (rev : Bool) (L : List V) (hm : ∀ r k, ItEv.made i r k ∉ mid) :
    since i (pre ++ .made i rev L :: mid) = mid := by
  have aux : ∀ (mid acc : List (ItEv K V)), (∀ r k, ItEv.made i r k ∉ mid) → mid.foldl (since1 i) acc = acc ++ mid := by
    intro mid
    induction mid with
    | nil => simp
    | cons e es ih =>
      intro acc h
      have h1 : since1 i acc e = acc ++ [e] := by
        cases e with
        | made j r k =>
          have : j ≠ i := fun hj => h r k (by simp [hj])
          simp [since1, this]
        | _ => rfl
      rw [List.foldl_cons, h1, ih _ (fun r k hk => h r k (by simp [hk]))]
      simp
  rw [since, List.foldl_append, List.foldl_cons, aux mid _ hm]
  simp [since1]

/-- What an iterator that is watched has given. -/
structure Gave (i : Nat) (w : Watch V) (l : List (ItEv K V)) : Prop where
  pre : gave i l = w.items.take w.given
  fail : w.failed = true → ItEv.next i .runtimeError ∈ l
  stop : ItEv.next i .stop ∈ l → gave i l = w.items ∨ w.rev = true ∧ w.failed = true

theorem gave_snoc (i : Nat) (l : List (ItEv K V)) (e : ItEv K V) :
    gave i (l ++ [e]) = gave i l ++ gave i [e] := by simp [gave]

theorem all_gave (he : (new l key kn m).exec false as = some s) (i : Nat) (w : Watch V) (hw : watch i s.log = some w) : Gave i w (since i s.log) := by
  suffices h : Seen s ∧ ∀ i w, watch i s.log = some w → Gave i w (since i s.log) from h.2 i w hw
  refine exec_ind (P := fun s => Seen s ∧ ∀ i w, watch i s.log = some w → Gave i w (since i s.log)) ?_ ⟨?_, ?_⟩ he
  · rintro s a s' ⟨hseen, hall⟩ hs
    refine ⟨hseen.step hs, fun i w hw => ?_⟩
    cases a with
    | call op =>
      simp only [step, Option.some.injEq] at hs
      subst hs
      have hlog : ∃ r t, (s.call op).log = s.log ++ [.called op r s.sd t] := ⟨_, _, rfl⟩
      obtain ⟨r, t, hlog⟩ := hlog
      rw [hlog, watch_snoc] at hw
      rw [hlog, since_snoc]
      simp only [watch1, Option.map_eq_some_iff] at hw
      obtain ⟨w0, hw0, rfl⟩ := hw
      obtain ⟨h1, h2, h3⟩ := hall i w0 hw0
      refine ⟨?_, fun h => ?_, fun h => ?_⟩
      · simpa [since1, gave] using h1
      · simpa [since1] using h2 h
      · simp only [since1, List.mem_append, List.mem_singleton, reduceCtorEq, or_false] at h
        simpa [since1, gave] using h3 h
    | iter j rev =>
      simp only [step, Option.some.injEq] at hs
      subst hs
      simp only [watch_snoc, watch1] at hw
      simp only [since_snoc, since1]
      by_cases hc : j = i
      · simp only [hc, if_true, Option.some.injEq] at hw ⊢
        subst hw
        exact ⟨by simp [gave], fun h => by simp at h, fun h => by simp at h⟩
      · simp only [hc, if_false] at hw ⊢
        obtain ⟨h1, h2, h3⟩ := hall i w hw
        exact ⟨by simpa [gave] using h1, fun h => by simpa using h2 h, fun h => by simpa [gave] using h3 (by simpa using h)⟩
    | next j =>
      simp only [step] at hs
      cases hit : s.its j with
      | none => rw [hit] at hs; cases hs
      | some it =>
        rw [hit] at hs
        simp only [Bool.false_eq_true, if_false, Option.some.injEq] at hs
        subst hs
        obtain ⟨w1, hw1, ha⟩ := hseen.agrees j it hit
        simp only [watch_snoc, watch1, ha.next.1] at hw
        simp only [since_snoc, since1, ha.next.1]
        by_cases hc : j = i
        · subst hc
          simp only [if_true, hw1, Option.map_some, Option.some.injEq] at hw
          subst hw
          obtain ⟨h1, h2, h3⟩ := hall j w1 hw1
          by_cases hend : (w1.rev && (w1.failed || decide (w1.items.length ≤ w1.given))) = true
          · have hans : w1.answer = .stop := by rw [Watch.answer, if_pos hend]
            rw [hans]
            refine ⟨by rw [gave_snoc]; simpa [gave] using h1, fun h => by simpa using h2 (by simpa using h), fun _ => ?_⟩
            simp only [Bool.and_eq_true, Bool.or_eq_true, decide_eq_true_eq] at hend
            rcases hend.2 with hf | hg
            · exact .inr ⟨hend.1, by simp [hf]⟩
            · left
              rw [gave_snoc, h1, List.take_of_length_le hg]; simp [gave]
          by_cases hal : w1.altered = true
          · have hans : w1.answer = .runtimeError := by rw [Watch.answer, if_neg hend, hal]; rfl
            rw [hans]
            refine ⟨by rw [gave_snoc]; simpa [gave] using h1, fun _ => by simp, fun h => ?_⟩
            simp only [List.mem_append, List.mem_singleton, ItEv.next.injEq, true_and, reduceCtorEq, or_false] at h
            rcases h3 h with h4 | h4
            · left; rw [gave_snoc, h4]; simp [gave]
            · exact .inr ⟨h4.1, by simp [h4.2]⟩
          · simp only [Bool.not_eq_true] at hal
            by_cases hg : w1.given < w1.items.length
            · have hx : w1.items[w1.given]? = some w1.items[w1.given] := List.getElem?_eq_getElem hg
              have hans : w1.answer = .item w1.items[w1.given] := by rw [Watch.answer, if_neg hend, hal, hx]; rfl
              have hnew : gave j (since j s.log ++ [.next j (.item w1.items[w1.given])]) = w1.items.take (w1.given + 1) := by
                rw [gave_snoc, h1, List.take_add_one, hx]
                simp [gave]
              rw [hans]
              refine ⟨by rw [hnew]; simp, fun h => by simpa using h2 (by simpa using h), fun h => ?_⟩
              simp only [List.mem_append, List.mem_singleton, ItEv.next.injEq, true_and, reduceCtorEq, or_false] at h
              rcases h3 h with h4 | h4
              · rw [h1] at h4
                have := congrArg List.length h4
                simp only [List.length_take] at this
                omega
              · exact .inr ⟨h4.1, by simp [h4.2]⟩
            · have hx : w1.items[w1.given]? = none := List.getElem?_eq_none (by omega)
              have hans : w1.answer = .stop := by rw [Watch.answer, if_neg hend, hal, hx]; rfl
              have hall' : gave j (since j s.log) = w1.items := by rw [h1, List.take_of_length_le (by omega)]
              rw [hans]
              refine ⟨by rw [gave_snoc, hall', List.take_of_length_le (by simp; omega)]; simp [gave], fun h => by simpa using h2 (by simpa using h), fun _ => .inl ?_⟩
              rw [gave_snoc, hall']; simp [gave]
        · simp only [hc, if_false] at hw
          obtain ⟨h1, h2, h3⟩ := hall i w hw
          have hg : gave i (since i s.log ++ [.next j w1.answer]) = gave i (since i s.log) := by
            rw [gave_snoc]
            cases w1.answer <;> simp [gave, hc]
          refine ⟨by rw [hg]; exact h1, fun h => List.mem_append_left _ (h2 h), fun h => ?_⟩
          rw [hg]
          apply h3
          simp only [List.mem_append, List.mem_singleton, ItEv.next.injEq, Ne.symm hc, false_and, or_false] at h
          exact h
  · exact ⟨sound_new _ _ _ _, fun i it h => by simp [new] at h⟩
  · intro i w hw; simp [new, watch] at hw

omit [LinearOrder K] [BEq V] [LT V] [DecidableLT V] in
theorem watch_items (i : Nat) (pre mid : List (ItEv K V)) (rev : Bool) (L : List V) (hm : ∀ r k, ItEv.made i r k ∉ mid) :
    ∃ w, watch i (pre ++ .made i rev L :: mid) = some w ∧ (w.items = if rev then L.reverse else L) ∧ w.rev = rev := by
  have aux : ∀ (mid : List (ItEv K V)) (w : Watch V), (∀ r k, ItEv.made i r k ∉ mid) → ∃ w', mid.foldl (watch1 i) (some w) = some w' ∧ w'.items = w.items ∧ w'.rev = w.rev := by
    intro mid
    induction mid with
    | nil => exact fun w _ => ⟨w, rfl, rfl, rfl⟩
    | cons e es ih =>
      intro w h
      have h1 : ∃ w1, watch1 i (some w) e = some w1 ∧ w1.items = w.items ∧ w1.rev = w.rev := by
        cases e with
        | made j r k =>
          have : j ≠ i := fun hj => h r k (by simp [hj])
          exact ⟨w, by simp [watch1, this], rfl, rfl⟩
        | next j a => by_cases hj : j = i <;> simp [watch1, hj]
        | called op out b a => simp [watch1]
      obtain ⟨w1, h1, h2, h2'⟩ := h1
      obtain ⟨w', h3, h4, h4'⟩ := ih w1 (fun r k hk => h r k (by simp [hk]))
      exact ⟨w', by rw [List.foldl_cons, h1, h3], h4.trans h2, h4'.trans h2'⟩
  rw [watch, List.foldl_append, List.foldl_cons]
  simp only [watch1, if_true]
  obtain ⟨w, h1, h2⟩ := aux mid ⟨if rev then L.reverse else L, rev, 0, false, false, false⟩ hm
  exact ⟨w, h1, h2⟩

/-- **C161** SortedDeque: whatever happens during the iteration, the items an iterator gives are, in order and each once, the first of those that were in the deque
when it was made; and if it has ended with `StopIteration` they are all of them, except that an iterator of `reversed(d)` also ends after it has raised. -/
theorem C161_each_once (he : (new l key kn m).exec false as = some s) {i : Nat} {rev : Bool} {L : List V} {pre mid : List (ItEv K V)}
    (hl : s.log = pre ++ .made i rev L :: mid) (hm : ∀ r k, ItEv.made i r k ∉ mid) :
    gave i mid <+: (if rev then L.reverse else L) ∧ 
      (ItEv.next i .stop ∈ mid → (gave i mid = if rev then L.reverse else L) ∨ rev = true ∧ ItEv.next i .runtimeError ∈ mid) := by
  obtain ⟨w, hw, hi, hrev⟩ := watch_items i pre mid rev L hm
  rw [← hl] at hw
  obtain ⟨h1, h2, h3⟩ := all_gave he i w hw
  rw [hl, since_eq i pre mid rev L hm] at h1 h2 h3
  rw [hi] at h1 h3
  exact ⟨by rw [h1]; exact List.take_prefix _ _, fun h => (h3 h).imp id fun h => ⟨by rw [← hrev]; exact h.1, h2 h.2⟩⟩

/-! ### SortedCollection -/

/-- Every iterator of a list is as watched. -/
structure LSeen (s : IterSD K V) : Prop where
  sound : Sound s
  agrees : ∀ i it, s.its i = some it → ∃ w, lwatch i s.log = some w ∧ LAgrees s it w

theorem LAgrees.call (h : Sound s) {it : DqIter} {w : LWatch V} {i : Nat} (hw : lwatch i s.log = some w) (ha : LAgrees s it w) (op : SD.Op K V) :
    ∃ w', lwatch i (s.call op).log = some w' ∧ LAgrees (s.call op) it w' ∧ w'.given = w.given ∧ w'.ended = w.ended ∧ w'.rev = w.rev := by
  have hd := call_did h.wf op
  generalize s.call op = s' at hd
  cases hd with
  | altered t r hwf hal hr =>
    by_cases hc : it.obj = s.cur
    · have hrb : w.rebuilt = false := by rw [ha.rebuilt]; simp [hc]
      refine ⟨{ w with items := t.items }, ?_, ⟨ha.obj, ?_, ?_, ha.rev, ha.len, ha.ended, ha.pos⟩, rfl, rfl, rfl⟩
      · cases op <;> simp [alters] at hal <;> simp [lwatch_snoc, lwatch1, hw, hrb, hr]
      · simp [inPlace, hrb, hc]
      · simp [inPlace, hc]
    · have hrb : w.rebuilt = true := by rw [ha.rebuilt]; simp [hc]
      refine ⟨w, by simp [lwatch_snoc, lwatch1, hw, hrb], ⟨ha.obj, ?_, ?_, ha.rev, ha.len, ha.ended, ha.pos⟩, rfl, rfl, rfl⟩
      · simp [inPlace, hrb, hc]
      · simpa [inPlace, hc] using ha.items
  | rebuilt t r hwf hal hr =>
    have hobj := ha.obj
    have hne : it.obj ≠ s.cur + 1 := by omega
    refine ⟨{ w with rebuilt := true }, ?_, ⟨?_, ?_, ?_, ha.rev, ha.len, ha.ended, ha.pos⟩, rfl, rfl, rfl⟩
    · cases hrb : w.rebuilt with
      | true =>
        simp only [lwatch_snoc, lwatch1, hw, hrb, Option.map_some, if_true]
        rw [← hrb]
      | false => simp [lwatch_snoc, lwatch1, hw, hrb, hr]
    · simp only [IterSD.rebuilt]; omega
    · simp [IterSD.rebuilt, hne]
    · simpa [IterSD.rebuilt, hne] using ha.items
  | nothing t r hwf hi hal hr =>
    refine ⟨w, ?_, ⟨ha.obj, ha.rebuilt, ha.items, ha.rev, ha.len, ha.ended, ha.pos⟩, rfl, rfl, rfl⟩
    cases hrb : w.rebuilt with
    | true => simp [lwatch_snoc, lwatch1, hw, hrb]
    | false =>
      have hc : it.obj = s.cur := by have := ha.rebuilt; rw [hrb] at this; simpa using this
      have hit : t.items = w.items := by rw [hi, ← h.cur, ← hc, ha.items]
      simp only [lwatch_snoc, lwatch1, hw, hrb, Option.map_some, Bool.false_eq_true, if_false, hr, hit]
      have heta : (⟨w.items, w.rev, w.size, w.given, false, w.ended⟩ : LWatch V) = w := by rw [← hrb]
      cases op <;> first | rfl | exact congrArg some heta

theorem LAgrees.next {it : DqIter} {w : LWatch V} (ha : LAgrees s it w) : (s.listNext it).1 = w.answer ∧
    ∀ t : IterSD K V, t.cur = s.cur → t.objs = s.objs →
      LAgrees t (s.listNext it).2 { w with given := w.given + 1, ended := w.ended || decide (w.answer matches .stop) } := by
  have hkeep : ∀ t : IterSD K V, t.cur = s.cur → t.objs = s.objs → LAgrees t it w := fun t h1 h2 =>
    ⟨by rw [h1]; exact ha.obj, by rw [h1]; exact ha.rebuilt, by rw [h2]; exact ha.items, ha.rev, ha.len, ha.ended, ha.pos⟩
  cases hd : it.done with
  | true =>
    have he : w.ended = true := by rw [ha.ended, hd]
    have hn : s.listNext it = (.stop, it) := by simp [listNext, hd]
    have hans : w.answer = .stop := by simp [LWatch.answer, he]
    rw [hn, hans]
    refine ⟨rfl, fun t h1 h2 => ?_⟩
    have hk := hkeep t h1 h2
    exact ⟨hk.obj, hk.rebuilt, hk.items, hk.rev, hk.len, by simp [hd], fun h => by simp at h⟩
  | false =>
    have he : w.ended = false := by rw [ha.ended, hd]
    have hp := ha.pos he
    have key : (if it.rev then (if it.pos < it.len then (s.objs it.obj).1[it.len - 1 - it.pos]? else none) else (s.objs it.obj).1[it.pos]?) =
        (if w.rev && decide (w.size ≤ w.given) then none else w.items[if w.rev then w.size - 1 - w.given else w.given]?) := by
      rw [ha.rev, ha.len, ← hp, ha.items]
      cases it.rev <;> simp
      by_cases hc : it.pos < it.len
      · simp [hc, Nat.not_le.2 hc]
      · simp [hc, Nat.not_lt.1 hc]
    have hans : w.answer = match (if w.rev && decide (w.size ≤ w.given) then none else w.items[if w.rev then w.size - 1 - w.given else w.given]?) with
        | some v => .item v
        | none => .stop := by
      rw [LWatch.answer, he, Bool.false_or]
      split <;> rfl
    rw [← key] at hans
    have hlist : s.listNext it = match (if it.rev then (if it.pos < it.len then (s.objs it.obj).1[it.len - 1 - it.pos]? else none) else (s.objs it.obj).1[it.pos]?) with
        | some x => (.item x, { it with pos := it.pos + 1 })
        | none => (.stop, { it with done := true }) := by
      rw [listNext, if_neg (by rw [hd]; exact Bool.false_ne_true)]; rfl
    rw [hlist, hans]
    cases (if it.rev then (if it.pos < it.len then (s.objs it.obj).1[it.len - 1 - it.pos]? else none) else (s.objs it.obj).1[it.pos]?) with
    | some x =>
      refine ⟨rfl, fun t h1 h2 => ?_⟩
      have hk := hkeep t h1 h2
      exact ⟨hk.obj, hk.rebuilt, hk.items, hk.rev, hk.len, by simp [he, hd], fun _ => by simp [hp]⟩
    | none =>
      refine ⟨rfl, fun t h1 h2 => ?_⟩
      have hk := hkeep t h1 h2
      exact ⟨hk.obj, hk.rebuilt, hk.items, hk.rev, hk.len, by simp, fun h => by simp at h⟩

theorem LSeen.step (h : LSeen s) {a : ItAct K V} (hs : s.step true a = some s') : LSeen s' := by
  cases a with
  | call op =>
    simp only [IterSD.step, Option.some.injEq] at hs
    subst hs
    refine ⟨h.sound.call op, fun i it hi => ?_⟩
    rw [call_its] at hi
    obtain ⟨w, hw, ha⟩ := h.agrees i it hi
    obtain ⟨w', h1, h2, -⟩ := ha.call h.sound hw op
    exact ⟨w', h1, h2⟩
  | iter i rev =>
    · simp only [IterSD.step, Option.some.injEq] at hs
      subst hs
      refine ⟨⟨h.sound.wf, h.sound.cur⟩, fun j it hj => ?_⟩
      simp only at hj
      simp only [lwatch_snoc, lwatch1]
      by_cases hc : j = i
      · subst hc
        simp only [if_true, Option.some.injEq] at hj
        subst hj
        refine ⟨_, by simp only [if_true]; rfl, ?_⟩
        exact ⟨Nat.le_refl _, by simp, by simp [h.sound.cur], rfl, rfl, rfl, fun _ => rfl⟩
      · simp only [hc, if_false] at hj
        obtain ⟨w, hw, ha⟩ := h.agrees j it hj
        exact ⟨w, by rw [if_neg (Ne.symm hc)]; exact hw, ha.obj, ha.rebuilt, ha.items, ha.rev, ha.len, ha.ended, ha.pos⟩
  | next i =>
    simp only [IterSD.step] at hs
    cases hit : s.its i with
    | none => rw [hit] at hs; cases hs
    | some it =>
      rw [hit] at hs
      simp only [if_true, Option.some.injEq] at hs
      subst hs
      refine ⟨⟨h.sound.wf, h.sound.cur⟩, fun j jt hj => ?_⟩
      simp only at hj
      simp only [lwatch_snoc, lwatch1]
      by_cases hc : j = i
      · subst hc
        simp only [if_true, Option.some.injEq] at hj
        subst hj
        obtain ⟨w, hw, ha⟩ := h.agrees j it hit
        refine ⟨_, by simp only [if_true, hw, Option.map_some]; rfl, ?_⟩
        rw [ha.next.1]
        exact ha.next.2 _ rfl rfl
      · simp only [hc, if_false] at hj
        obtain ⟨w, hw, ha⟩ := h.agrees j jt hj
        exact ⟨w, by rw [if_neg (Ne.symm hc)]; exact hw, ha.obj, ha.rebuilt, ha.items, ha.rev, ha.len, ha.ended, ha.pos⟩

theorem lseen (he : (new l key kn m).exec true as = some s) : LSeen s :=
  exec_ind (fun _ _ _ h hs => h.step hs) ⟨sound_new _ _ _ _, fun i it h => by simp [new] at h⟩ he

/-- **C161** SortedCollection: the k-th `next` of an iterator gives the item that is at position k of the collection at that moment, of `reversed` the one at position
n - k, where n is how many there were when it was made (of the collection as it was before it was last cleared or given another key, if that has happened since); once it has ended it stays ended. -/
theorem C161_collection (he : (new l key kn m).exec true as = some s) (i : Nat) (hs : s.step true (.next i) = some s') :
    ∃ w, lwatch i s.log = some w ∧ s'.log = s.log ++ [.next i w.answer] ∧ (w.rebuilt = false → w.items = s.sd.items) := by
  simp only [step] at hs
  cases hit : s.its i with
  | none => rw [hit] at hs; cases hs
  | some it =>
    rw [hit] at hs
    simp only [if_true, Option.some.injEq] at hs
    subst hs
    obtain ⟨w, hw, ha⟩ := (lseen he).agrees i it hit
    refine ⟨w, hw, by simp [ha.next.1], fun hr => ?_⟩
    have hc : it.obj = s.cur := by have := ha.rebuilt; rw [hr] at this; simpa using this
    rw [← ha.items, hc, (lseen he).sound.cur]

omit [BEq V] [LT V] [DecidableLT V] in
theorem behind (key : V → K) (l : List V) (g : Nat) (hg : g ≤ l.length) (p q : V → Bool) (hpq : ∀ u, q u = !p u) (hp : ∀ u ∈ l.take g, p u = true) (v : V) :
    (l.filter p ++ v :: l.filter q).take g = l.take g ∧ ((l.filter p ++ v :: l.filter q).drop g).Perm (v :: l.drop g) := by
  have h1 : (l.take g).filter p = l.take g := List.filter_eq_self.2 hp
  have h2 : (l.take g).filter q = [] := List.filter_eq_nil_iff.2 fun u hu => by simp [hpq, hp u hu]
  have h3 : l.filter p ++ v :: l.filter q = l.take g ++ ((l.drop g).filter p ++ v :: (l.drop g).filter q) := by
    conv_lhs => rw [← List.take_append_drop g l]
    rw [List.filter_append, List.filter_append, h1, h2]
    simp
  have hlen : (l.take g).length = g := by simp [hg]
  rw [h3]
  refine ⟨by rw [List.take_append_of_le_length (by omega), List.take_of_length_le (by omega)], ?_⟩
  rw [List.drop_append_of_le_length (by omega), List.drop_of_length_le (by omega), List.nil_append]
  refine List.perm_middle.trans (List.Perm.cons v ?_)
  have : (l.drop g).filter q = (l.drop g).filter (fun u => !p u) := by apply List.filter_congr; intro u _; exact hpq u
  rw [this]
  exact List.filter_append_perm p _

/-- **C161** SortedCollection, forward: an item inserted behind all that the iterator gave (a larger key) leaves those in place and joins what is still to come; so nothing is
given twice or left out. (Everything the iterator gave must still be there: it has not gone past the end.) -/
theorem C161_insert_behind (he : (new l key kn m).exec true as = some s) (i : Nat) (w : LWatch V) (hi : (s.its i).isSome) (hw : lwatch i s.log = some w)
    (hf : w.rev = false) (hr : w.rebuilt = false) (hg : w.given ≤ w.items.length) (v : V) (op : SD.Op K V) (hop : op = .insert v ∨ op = .insertRight v) (hm : s.sd.maxlen = none)
    (hv : ∀ u ∈ w.items.take w.given, s.sd.key u < s.sd.key v) :
    ∃ w', lwatch i (s.call op).log = some w' ∧ w'.items = (s.call op).sd.items ∧ w'.given = w.given ∧ w'.ended = w.ended ∧
      w'.rev = false ∧ w'.items.take w.given = w.items.take w.given ∧ (w'.items.drop w.given).Perm (v :: w.items.drop w.given) := by
  have hseen := lseen he
  obtain ⟨it, hit⟩ := Option.isSome_iff_exists.1 hi
  obtain ⟨w0, hw0, ha⟩ := hseen.agrees i it hit
  obtain rfl : w0 = w := by rw [hw] at hw0; exact (Option.some.inj hw0).symm
  have hc : it.obj = s.cur := by have := ha.rebuilt; rw [hr] at this; simpa using this
  have hitems : w0.items = s.sd.items := by rw [← ha.items, hc, hseen.sound.cur]
  obtain ⟨w', h1, h2, h3, h4, h5⟩ := ha.call hseen.sound hw op
  have hnew : w'.items = (s.call op).sd.items := by
    have hcur : (s.call op).cur = s.cur := by
      rcases hop with rfl | rfl <;> simp only [call] <;> split <;> simp [inPlace]
    have := (hseen.sound.call op).cur
    rw [hcur, ← hc, h2.items] at this
    exact this
  refine ⟨w', h1, hnew, h3, h4, by rw [h5, hf], ?_⟩
  rw [hnew]
  rcases hop with rfl | rfl
  · have hx := SD.insert_eq hseen.sound.wf v
    rw [if_neg (by rw [hm]; simp)] at hx
    have hy : (s.call (.insert v)).sd.items = s.sd.items.filter (fun u => decide (s.sd.key u < s.sd.key v)) ++ v :: s.sd.items.filter (fun u => decide (s.sd.key v ≤ s.sd.key u)) := by
      simp only [call, SD.apply, hx, inPlace]
    rw [hy, ← hitems]
    exact behind s.sd.key _ _ hg _ _ (fun u => by simp [← not_lt]) (fun u hu => by simpa using hv u hu) v
  · have hx := SD.insertRight_eq hseen.sound.wf v
    rw [if_neg (by rw [hm]; simp)] at hx
    have hy : (s.call (.insertRight v)).sd.items = s.sd.items.filter (fun u => decide (s.sd.key u ≤ s.sd.key v)) ++ v :: s.sd.items.filter (fun u => decide (s.sd.key v < s.sd.key u)) := by
      simp only [call, SD.apply, hx, inPlace]
    rw [hy, ← hitems]
    exact behind s.sd.key _ _ hg _ _ (fun u => by simp [← not_le]) (fun u hu => by simpa using le_of_lt (hv u hu)) v

end IterSD
end S2P
