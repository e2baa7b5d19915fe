import Verif.Props.LineSource
import Verif.Props.CounterLoop
/-
C112: `range` over a file stream. C113: its buffer grows for ever.
-/
namespace S2P
open Spec
namespace LineSrc
variable {L : Type} {d : Disk L} {eof : L}
variable [BEq (Nat × L)] [ReflBEq (Nat × L)] {cfg : SBCfg Nat (Nat × L)} {xs : List (ObjAct Nat (Nat × L) Unit)} {s : ObjSB (St L) Nat (Nat × L) Unit}

theorem range_filter (a z m : Nat) (hz : z < m) : (List.range m).filter (fun j => decide (a ≤ j) && decide (j ≤ z)) = List.range' a (z + 1 - a) := by
  refine List.Perm.eq_of_pairwise (le := (· < ·)) ?_ ?_ ?_ ?_
  · intro a b _ _ h1 h2; omega
  · exact List.pairwise_lt_range.sublist List.filter_sublist
  · exact List.pairwise_lt_range'
  · refine (List.perm_ext_iff_of_nodup ?_ ?_).2 fun j => ?_
    · exact List.nodup_range.sublist List.filter_sublist
    · exact List.nodup_range'
    · simp only [List.mem_filter, List.mem_range, Bool.and_eq_true, decide_eq_true_eq, List.mem_range'_1]
      omega

/-- **C112** `range(start=a, stop=z)` of any reader, once line `z` is stored, gives the lines numbered `a` to `z`. -/
theorem C112_range (hf : ObjSB.Fits (lines d eof) cfg) (hm : cfg.maxlen = none) (hd : cfg.autoDrop = true)
    (he : (ObjSB.init new).exec (lines d eof) cfg xs = some s)
    (hcalm : (ObjSB.init new : ObjSB (St L) Nat (Nat × L) Unit).Calm (lines d eof) cfg xs)
    (b : Nat) (c : Cons Nat (Nat × L)) (hv : s.sb.view b = some c) (hb : Ev.launched b ∈ s.sb.log)
    (r : Reader Nat (Nat × L)) (a z : Nat) (haz : a ≤ z) (hz : z < (storedIn b s.sb.log).length) (peek : Bool) (ign : Option Bool) :
    ∃ l items, d b = .ok l ∧ (r.range c.ch.buf a z none peek ign false false false).1 = .ok (.many items) ∧
      items.map .ok = (List.range' a (z + 1 - a)).map fun j => (lineAt eof l j).map fun x => (j, x) := by
  obtain ⟨l, n, h1, h2, -⟩ := C112_lines hf he hcalm b hb
  obtain ⟨bs, hbs, -⟩ := (ObjSB.acc he (ObjSB.calm_settled he hcalm)).real
  have hret := SB.C44_unbounded_auto_partial hm hd hbs b
  obtain ⟨x, hx, rfl⟩ := Option.map_eq_some_iff.1 hv
  obtain ⟨hwf, hk, -⟩ := (SB.good hbs).bufs.buf hx
  have hitems : s.sb.items b = x.cons.ch.buf.items := by simp only [SB.items, hx]
  rw [hitems] at hret
  have hkey : x.cons.ch.buf.key = fun v => v.1 := by
    rw [hk]; funext v; exact hf v _ rfl
  rw [← hret] at h2 hz
  generalize hI : x.cons.ch.buf.items = I at h2 hz hret
  have hI2 : I.map .ok = (List.range I.length).map fun j => (lineAt eof l j).map fun x => (j, x) := by
    have hlen := congrArg List.length h2
    simp only [List.map_append, List.length_append, List.length_map, List.length_range] at hlen
    have := congrArg (List.take I.length) h2
    rw [List.map_append, List.take_left' (by simp), ← List.map_take, List.take_range] at this
    rwa [show min I.length n = I.length by omega] at this
  have hok : ∀ j, j < I.length → ∃ y, lineAt eof l j = .ok y := by
    intro j hj
    have := congrArg (fun l => l[j]?) hI2
    simp only [List.getElem?_map, List.getElem?_eq_getElem hj, List.getElem?_range hj, Option.map_some, Option.some.injEq] at this
    cases h : lineAt eof l j with
    | ok y => exact ⟨y, rfl⟩
    | error e => rw [h] at this; simp [Except.map] at this
  have hbet : (Spec.between (fun v : Nat × L => v.1) a z I).map .ok = (List.range' a (z + 1 - a)).map fun j => (lineAt eof l j).map fun x => (j, x) := by
    let p' : Py (Nat × L) → Bool := fun | .ok v => decide (a ≤ v.1) && decide (v.1 ≤ z) | .error _ => false
    have e1 : (Spec.between (fun v : Nat × L => v.1) a z I).map .ok = (I.map .ok).filter p' := by
      rw [List.filter_map]; rfl
    rw [e1, hI2, List.filter_map, ← range_filter a z _ hz]
    congr 1
    refine List.filter_congr fun j hj => ?_
    obtain ⟨y, hy⟩ := hok j (List.mem_range.1 hj)
    simp [p', hy, Except.map]
  refine ⟨l, _, h1, ?_, hbet⟩
  have hne : Spec.between (fun v : Nat × L => v.1) a z I ≠ [] := by
    intro h
    rw [h] at hbet
    have := congrArg List.length hbet
    simp at this
    omega
  have hrng := SD.range_some hwf.wf a z none
  rw [hI, hkey] at hrng
  simp only [Reader.range, Reader.rangeStart, Reader.roundStart, Reader.roundStop, Bool.false_and, Bool.false_eq_true, if_false, hrng]
  cases peek with
  | true => simp
  | false =>
    simp only [Bool.not_false, if_true]
    cases hl : dqLast (Spec.between (fun v : Nat × L => v.1) a z I) with
    | ok v => rfl
    | error e =>
      exfalso
      rw [dqLast_eq, List.getLast?_eq_some_getLast hne] at hl
      simp at hl

/-- The `LineSourceReader` and buffer of the documentation: `maxlen=None`. -/
def docCfg : SBCfg Nat (Nat × L) :=
  { maxlen := none, autoDrop := true, key := fun v => v.1, keyNone := .error .typeError,
    rdCfg := fun _ => { n := 1, peek := false, ignore := true, strict := false } }

/-- `start()`, up to the launch of the thread. -/
def gStart : List (ObjAct Nat (Nat × L) Unit) :=
  [.other .start, .other .startGo, .other .startGo, .other .startGo, .other .startGo, .other .startGo, .open', .buf, .other .startGo]

/-- The thread reads and stores once. -/
def gItem : List (ObjAct Nat (Nat × L) Unit) := [.other (.thr 0), .other (.thr 0), .read 0, .other (.thr 0), .store 0]

def gMany : Nat → List (ObjAct Nat (Nat × L) Unit)
  | 0 => gStart
  | n + 1 => gMany n ++ gItem

omit [BEq (Nat × L)] [ReflBEq (Nat × L)] in
theorem gItem_quiet : ∀ x ∈ (gItem : List (ObjAct Nat (Nat × L) Unit)), x ≠ .other .start := by
  intro x hx
  simp only [gItem, List.mem_cons, List.not_mem_nil, or_false] at hx
  rcases hx with rfl | rfl | rfl | rfl | rfl <;> simp

omit [ReflBEq (Nat × L)] in
theorem calm_quiet (ys : List (ObjAct Nat (Nat × L) Unit)) (hq : ∀ x ∈ ys, x ≠ .other .start) :
    ∀ s : ObjSB (St L) Nat (Nat × L) Unit, s.Calm (lines d eof) cfg ys := by
  induction ys with
  | nil => intro s; trivial
  | cons y ys ih => exact fun s => ⟨fun h => absurd h (hq y (by simp)), fun s' _ => ih (fun x hx => hq x (by simp [hx])) s'⟩

omit [ReflBEq (Nat × L)] in
theorem calm_append (xs ys : List (ObjAct Nat (Nat × L) Unit)) (hq : ∀ x ∈ ys, x ≠ .other .start) :
    ∀ s : ObjSB (St L) Nat (Nat × L) Unit, s.Calm (lines d eof) cfg xs → s.Calm (lines d eof) cfg (xs ++ ys) := by
  induction xs with
  | nil => exact fun s _ => calm_quiet ys hq s
  | cons x xs ih => exact fun s h => ⟨h.1, fun s' hs' => ih s' (h.2 s' hs')⟩

/-- Where the thread is between two reads. -/
structure Between (l : List L) (n : Nat) (s : ObjSB (St L) Nat (Nat × L) Unit) : Prop where
  thr : s.sb.thr 0 = .check
  evt : s.sb.stopEvent = some 0
  flag : s.sb.flag 0 = false
  buf : s.sb.sourceBuffer = some 0
  st : s.st = ⟨n, .opened ((l.drop n).map .ok), 1⟩
  len : (storedIn 0 s.sb.log).length = n

/-- After `start()`. -/
def gStarted (l : List L) : ObjSB (St L) Nat (Nat × L) Unit :=
  { st := ⟨0, .opened (l.map .ok), 1⟩,
    sb := { (SB.init : SB Nat (Nat × L) Unit) with
      thr := fun j => if j = 0 then .check else if j = 0 then .fresh else .unborn, n := 1, thread := some 0, stopEvent := some 0, sourceBuffer := some 0,
      buf := fun j => if j = 0 then some (SB.newSess docCfg 0 ()) else none, log := [.opened 0, .bufferMade 0 (), .launched 0] },
    opened := fun k => if k + 1 = 1 then some ⟨0, .opened (l.map .ok), 1⟩ else none }

omit [ReflBEq (Nat × L)] in
theorem grows_zero (l : List L) (eof : L) : (ObjSB.init new).exec (lines (fun _ => .ok (l.map .ok)) eof) docCfg gStart = some (gStarted l) := rfl

theorem grows (l : List L) (eof : L) (n : Nat) :
    ∃ s, (ObjSB.init new).exec (lines (fun _ => .ok (l.map .ok)) eof) docCfg (gMany n) = some s ∧
      (ObjSB.init new : ObjSB (St L) Nat (Nat × L) Unit).Calm (lines (fun _ => .ok (l.map .ok)) eof) docCfg (gMany n) ∧ Between l n s := by
  induction n with
  | zero =>
    refine ⟨gStarted l, grows_zero l eof, ?_, ⟨rfl, rfl, rfl, rfl, rfl, rfl⟩⟩
    refine ⟨fun _ t => rfl, fun s' _ => calm_quiet _ ?_ s'⟩
    intro x hx
    simp only [List.mem_cons, List.not_mem_nil, or_false] at hx
    rcases hx with rfl | rfl | rfl | rfl | rfl | rfl | rfl | rfl <;> simp
  | succ n ih =>
    obtain ⟨s, he, hc, h⟩ := ih
    generalize hd : (fun _ => .ok (l.map .ok) : Disk L) = d at he hc ⊢
    have hc' : (ObjSB.init new : ObjSB (St L) Nat (Nat × L) Unit).Calm (lines d eof) docCfg (gMany (n + 1)) := calm_append _ _ gItem_quiet _ hc
    -- the value read
    obtain ⟨st', hr, hst'⟩ : ∃ st', read eof s.st = (.ok (some (n, l[n]?.getD eof)), st') ∧ st' = ⟨n + 1, .opened ((l.drop (n + 1)).map .ok), 1⟩ := by
      rw [h.st]
      cases hl : l.drop n with
      | nil =>
        have hlen : l.length ≤ n := List.drop_eq_nil_iff.1 hl
        refine ⟨_, by rw [List.getElem?_eq_none hlen]; rfl, ?_⟩
        rw [List.drop_eq_nil_of_le (by omega)]
      | cons x l' =>
        have h1 : l[n]? = some x := by
          have := congrArg (fun l => l[0]?) hl
          simpa using this
        have h2 : l.drop (n + 1) = l' := by
          rw [← List.drop_drop, hl]; rfl
        refine ⟨_, by rw [h1]; rfl, by rw [h2]⟩
    generalize hv : (n, l[n]?.getD eof) = v at hr
    let y1 := s.sb.setThr 0 .cap
    let y2 := y1.setThr 0 .reading
    let y3 := (y2.setThr 0 (.appending v)).say (.read 0 (some v))
    let y4 := y3.setThr 0 (.storing 0 v)
    have hs4 : s.exec (lines d eof) docCfg [.other (.thr 0), .other (.thr 0), .read 0, .other (.thr 0)] = some { st := st', sb := y4, opened := s.opened } := by
      have k1 : s.step (lines d eof) docCfg (.other (.thr 0)) = some { s with sb := y1 } := by
        simp [ObjSB.step, ObjSB.act, SBAct.notSource, SB.stores, h.thr, SB.step, SB.thrGo, h.evt, h.flag, y1]
      have t1 : y1.thr 0 = .cap := by simp [y1, SB.setThr]
      have k2 : ({ s with sb := y1 } : ObjSB (St L) Nat (Nat × L) Unit).step (lines d eof) docCfg (.other (.thr 0)) = some { s with sb := y2 } := by
        simp [ObjSB.step, ObjSB.act, SBAct.notSource, SB.stores, t1, SB.step, SB.thrGo, docCfg, y2]
      have t2 : y2.thr 0 = .reading := by simp [y2, SB.setThr]
      have k3 : ({ s with sb := y2 } : ObjSB (St L) Nat (Nat × L) Unit).step (lines d eof) docCfg (.read 0) = some { st := st', sb := y3, opened := s.opened } := by
        simp [ObjSB.step, ObjSB.act, lines, hr, t2, SB.step, y3]
      have t3 : y3.thr 0 = .appending v := by simp [y3, SB.setThr, SB.say]
      have b3 : y3.sourceBuffer = some 0 := h.buf
      have k4 : ({ st := st', sb := y3, opened := s.opened } : ObjSB (St L) Nat (Nat × L) Unit).step (lines d eof) docCfg (.other (.thr 0)) =
          some { st := st', sb := y4, opened := s.opened } := by
        simp [ObjSB.step, ObjSB.act, SBAct.notSource, SB.stores, t3, SB.step, SB.thrGo, b3, y4]
      simp only [ObjSB.exec, k1, k2, k3, k4]
    have he4 : (ObjSB.init new).exec (lines d eof) docCfg (gMany n ++ [.other (.thr 0), .other (.thr 0), .read 0, .other (.thr 0)]) =
        some { st := st', sb := y4, opened := s.opened } := by
      rw [ObjSB.exec_append, he]; exact hs4
    have hc4 : (ObjSB.init new : ObjSB (St L) Nat (Nat × L) Unit).Calm (lines d eof) docCfg (gMany n ++ [.other (.thr 0), .other (.thr 0), .read 0, .other (.thr 0)]) := by
      refine calm_append _ _ ?_ _ hc
      intro x hx
      simp only [List.mem_cons, List.not_mem_nil, or_false] at hx
      rcases hx with rfl | rfl | rfl | rfl <;> simp
    have hacc := ObjSB.acc he4 (ObjSB.calm_settled he4 hc4)
    obtain ⟨bs, hbs, hset⟩ := hacc.real
    have t4 : y4.thr 0 = .storing 0 v := by simp [y4, SB.setThr]
    have hfits : ObjSB.Fits (lines d eof) docCfg := by intro v k hk; simp only [lines, Except.ok.injEq] at hk; exact hk
    obtain ⟨-, -, hmay⟩ := SB.may_of_increasing hbs hset 0 0 v t4 ((rising d eof).inc hfits hacc 0)
    have hd2 := SB.C40_decision hbs 0 0 v t4
    obtain ⟨x, hx⟩ := Option.isSome_iff_exists.1 ((SB.good hbs).inv.storing 0 0 v t4)
    obtain ⟨y5, hy5, -, hdec⟩ := hd2
    rcases hdec with ⟨-, hlog, -, hthr⟩ | ⟨hno, -⟩
    swap
    · exact absurd hmay (by simp [hno])
    have hy5' := hy5
    simp only [SB.step, SB.thrGo, t4] at hy5'
    have hrest : y5.stopEvent = some 0 ∧ y5.flag 0 = false ∧ y5.sourceBuffer = some 0 := by
      have e1 : y4.stopEvent = some 0 := h.evt
      have e2 : y4.flag 0 = false := h.flag
      have e3 : y4.sourceBuffer = some 0 := h.buf
      rw [show y4.buf 0 = some x from hx] at hy5'
      dsimp only at hy5'
      split at hy5' <;> (injection hy5' with hy5'; subst hy5'; exact ⟨e1, e2, e3⟩)
    refine ⟨{ st := st', sb := y5, opened := s.opened }, ?_, hc', ⟨hthr, hrest.1, hrest.2.1, hrest.2.2, hst', ?_⟩⟩
    · rw [show gMany (n + 1) = (gMany n ++ [.other (.thr 0), .other (.thr 0), .read 0, .other (.thr 0)]) ++ [.store 0] by simp [gMany, gItem],
        ObjSB.exec_append, he4]
      simp [ObjSB.exec, ObjSB.step, ObjSB.act, t4, lines, hy5]
    · rw [hlog, storedIn_append]
      have : storedIn 0 y4.log = storedIn 0 s.sb.log := by
        simp [y4, y3, y2, y1, SB.setThr, SB.say, storedIn_append, storedIn]
      rw [List.length_append, show storedIn 0 ({ st := st', sb := y4, opened := s.opened } : ObjSB (St L) Nat (Nat × L) Unit).sb.log = storedIn 0 y4.log from rfl, this, h.len]
      simp [storedIn]

/-- **C113** is false: with `maxlen=None`, as the documentation advises for files, the buffer grows for ever, whatever the file: after its last line
`readline()` gives empty lines, which are numbered and stored. For every `n` there is an execution after which `n` items are retained. -/
theorem C113_refuted (l : List L) (eof : L) (n : Nat) :
    ∃ xs s, (ObjSB.init new).exec (lines (fun _ => .ok (l.map .ok)) eof) (docCfg (L := L)) xs = some s ∧
      (ObjSB.init new : ObjSB (St L) Nat (Nat × L) Unit).Calm (lines (fun _ => .ok (l.map .ok)) eof) docCfg xs ∧ (s.sb.items 0).length = n := by
  obtain ⟨s, h1, h2, h3⟩ := grows l eof n
  obtain ⟨bs, hbs, -⟩ := (ObjSB.acc h1 (ObjSB.calm_settled h1 h2)).real
  exact ⟨_, s, h1, h2, by rw [SB.C44_unbounded_auto_partial rfl rfl hbs 0, h3.len]⟩

end LineSrc
end S2P
