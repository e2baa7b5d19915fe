import Verif.Spec.NotedCalls
import Verif.Props.AgedReader
/-
C175: items that change while they are in a session buffer, all calls on readers.
-/
namespace S2P
open Spec
variable {K V : Type} [LinearOrder K]

omit [LinearOrder K] in
theorem dqGetInt_map {α β : Type} (f : α → β) (l : List α) (i : Int) : dqGetInt (l.map f) i = (dqGetInt l i).map f := by
  unfold dqGetInt
  simp only [List.length_map, dqGet_map]
  split
  · rfl
  · split <;> rfl

omit [LinearOrder K] in
theorem dqGet_mem {α : Type} {l : List α} {i : Nat} {x : α} (h : dqGet l i = .ok x) : x ∈ l := by
  unfold dqGet at h
  split at h
  · rename_i hx; injection h with h; subst h; exact List.mem_of_getElem? hx
  · cases h

omit [LinearOrder K] in
theorem dqGetInt_mem {α : Type} {l : List α} {i : Int} {x : α} (h : dqGetInt l i = .ok x) : x ∈ l := by
  unfold dqGetInt at h
  split at h
  · exact dqGet_mem h
  · split at h
    · exact dqGet_mem h
    · cases h

omit [LinearOrder K] in
theorem everyNth_mem {α : Type} {n c : Nat} {l : List α} {x : α} (h : x ∈ everyNth n c l) : x ∈ l := by
  induction l generalizing c with
  | nil => cases c <;> simp [everyNth] at h
  | cons y l ih =>
    cases c with
    | zero =>
      rcases List.mem_cons.1 h with h | h
      · simp [h]
      · exact List.mem_cons_of_mem _ (ih h)
    | succ c => exact List.mem_cons_of_mem _ (ih h)

namespace SD
variable {s : SD K V} {p : Noted K V}

theorem Keeps.islice (h : s.Keeps p) (i j : Nat) (st : Option Int) :
    s.rangeByIndex i j st = ((pairs s p).rangeByIndex i j st).map (List.map Prod.snd) := by
  unfold rangeByIndex S2P.islice
  rw [h.items, show (pairs s p).items = p.notes from rfl]
  cases st with
  | none => simp [Except.map, List.map_take, List.map_drop]
  | some n =>
    simp only
    split
    · rfl
    · simp only [Except.map, ← List.map_take, ← List.map_drop, everyNth_map]

theorem Keeps.range (h : s.Keeps p) (a b : Option K) (st : Option Int) :
    s.range a b st = ((pairs s p).range a b st).map (List.map Prod.snd) := by
  simp only [SD.range, bind, Except.bind, show (pairs s p).keys = s.keys from rfl]
  cases bisectLeft s.keys a with
  | error e => rfl
  | ok i =>
    cases bisectRight s.keys b with
    | error e => rfl
    | ok j => exact h.islice i j st

theorem range_mem {a b : Option K} {st : Option Int} {l : List V} (h : s.range a b st = .ok l) {x : V} (hx : x ∈ l) : x ∈ s.items := by
  simp only [SD.range, bind, Except.bind] at h
  split at h
  · cases h
  · split at h
    · cases h
    · unfold rangeByIndex S2P.islice at h
      split at h
      · injection h with h; subst h; exact List.mem_of_mem_take (List.mem_of_mem_drop hx)
      · split at h
        · cases h
        · injection h with h; subst h; exact List.mem_of_mem_take (List.mem_of_mem_drop (everyNth_mem hx))

theorem Keeps.findLe (h : s.Keeps p) (k : Option K) : s.findLe k = ((pairs s p).findLe k).map Prod.snd := by
  simp only [SD.findLe, show (pairs s p).keys = s.keys from rfl, show (pairs s p).items = p.notes from rfl, h.items, bind, Except.bind]
  cases bisectRight s.keys k with
  | error e => rfl
  | ok i =>
    simp only [dqGet_map]
    split <;> rfl

theorem Keeps.findGe (h : s.Keeps p) (k : Option K) : s.findGe k = ((pairs s p).findGe k).map Prod.snd := by
  have hl : s.len = (pairs s p).len := h.len
  simp only [SD.findGe, show (pairs s p).keys = s.keys from rfl, show (pairs s p).items = p.notes from rfl, hl, h.items, bind, Except.bind]
  cases bisectLeft s.keys k with
  | error e => rfl
  | ok i =>
    simp only [dqGet_map]
    by_cases hx : i ≠ (pairs s p).len
    · simp only [if_pos hx]
    · simp only [if_neg hx]; rfl

theorem findLe_mem {k : Option K} {x : V} (h : s.findLe k = .ok x) : x ∈ s.items := by
  simp only [SD.findLe, bind, Except.bind] at h
  split at h
  · cases h
  · split at h
    · exact dqGet_mem h
    · cases h

theorem findGe_mem {k : Option K} {x : V} (h : s.findGe k = .ok x) : x ∈ s.items := by
  simp only [SD.findGe, bind, Except.bind] at h
  split at h
  · cases h
  · split at h
    · exact dqGet_mem h
    · cases h

theorem Keeps.getItem (h : s.Keeps p) (i : Int) : s.getItem i = ((pairs s p).getItem i).map Prod.snd := by
  simp only [SD.getItem, h.items, show (pairs s p).items = p.notes from rfl, dqGetInt_map]

theorem Keeps.findLastGt (h : s.Keeps p) (k : Option K) : s.findLastGt k = ((pairs s p).findLastGt k).map Prod.snd := by
  simp only [SD.findLastGt, show (pairs s p).keys = s.keys from rfl, show (pairs s p).items = p.notes from rfl, h.items, dqLast, dqGetInt_map]
  cases dqGetInt s.keys (-1) with
  | error e => simp only; split <;> rfl
  | ok l =>
    simp only
    cases ltPy k (some l) with
    | error e => rfl
    | ok b => cases b <;> rfl

theorem findLastGt_mem {k : Option K} {x : V} (h : s.findLastGt k = .ok x) : x ∈ s.items := by
  unfold SD.findLastGt at h
  split at h
  · split at h
    · cases h
    · exact dqGetInt_mem h
    · cases h
  · split at h <;> cases h

end SD

namespace Reader
open SD
variable {s : SD K V} {p : Noted K V} {r : Reader K V} {cur : Option (K × V)}

/-- The reader of notes. -/
def ofCur (r : Reader K V) (cur : Option (K × V)) : Reader K (K × V) := ⟨cur, r.lastKey, r.cfg⟩

theorem Stands.coherent (hr : r.Stands cur) : (ofCur r cur).Coherent (pairs s p) := hr.key

theorem Stands.set (h : s.Keeps p) (hk : ∀ n ∈ p.notes, p.key n.2 = n.1) {x : K × V} (hx : x ∈ p.notes) : (r.setLast s x.2).Stands (some x) :=
  ⟨by simp [setLast, h.key, hk x hx], rfl⟩

theorem read_kept {eq : V → V → Bool} (he : ∀ v, eq v v = true) (h : s.Keeps p) (hs : (pairs s p).SWF) (hk : ∀ n ∈ p.notes, p.key n.2 = n.1)
    (hr : r.Stands cur) (n : Option Int) (pk i st : Option Bool) :
    let a := Spec.read nkey p.notes cur (n.getD r.cfg.n) (i.getD r.cfg.ignore) (st.getD r.cfg.strict)
    (@Reader.read K V _ _ ⟨eq⟩ s r n pk i st).1 = plain a ∧
    (@Reader.read K V _ _ ⟨eq⟩ s r n pk i st).2.Stands (move (pk.getD false) cur a) ∧
    (@Reader.read K V _ _ ⟨eq⟩ s r n pk i st).2.cfg = r.cfg := by
  have hst : p.notes.Pairwise (fun a b => a.1 < b.1) := hs.strict
  obtain ⟨b, hb⟩ := AgedCh.unread_part hst cur
  have hk' : ∀ n ∈ unread nkey p.notes cur, p.key n.2 = n.1 := fun n hn => hk n (by rw [hb]; simp [hn])
  obtain ⟨k1, k2, k3⟩ := read_aged (eq := eq) h hs hr n pk i st
  simp only [AgedCh.agedRead_kept hst cur hk' he, AgedCh.agedMove_kept cur hk'] at k1 k2
  exact ⟨k1, k2, k3⟩

theorem rangeStart_kept {eq : V → V → Bool} (he : ∀ v, eq v v = true) [BEq (K × V)] [ReflBEq (K × V)] (h : s.Keeps p) (hs : (pairs s p).SWF)
    (hk : ∀ n ∈ p.notes, p.key n.2 = n.1) (hr : r.Stands cur) (start : K) (ig on : Bool) :
    @Reader.rangeStart K V _ _ ⟨eq⟩ s r start ig on = Reader.rangeStart (pairs s p) (ofCur r cur) start ig on := by
  have hst : p.notes.Pairwise (fun a b => a.1 < b.1) := hs.strict
  obtain ⟨b, hb⟩ := AgedCh.unread_part hst cur
  obtain ⟨k1, -, -⟩ := read_kept he h hs hk hr (some 1) (some true) (some ig) none
  obtain ⟨q1, -, -, -⟩ := read_eq hs (hr.coherent (s := s) (p := p)) (some 1) (some true) (some ig) none
  have hsub := (read_prefix nkey p.notes cur 1 ig r.cfg.strict).1.subset
  simp only [Option.getD_some, Option.getD_none] at k1 q1
  unfold Reader.rangeStart
  simp only [k1, q1, show (ofCur r cur).lastKey = r.lastKey from rfl, show (ofCur r cur).cfg = r.cfg from rfl, show (ofCur r cur).lastItem = cur from rfl,
    show (pairs s p).key = nkey from rfl, show (pairs s p).items = p.notes from rfl, show (pairs s p).keyNone = s.keyNone from rfl]
  split
  · cases ha : Spec.read nkey p.notes cur 1 ig r.cfg.strict with
    | error e => rfl
    | ok v =>
      cases v with
      | none => rfl
      | many vs => rfl
      | one x =>
        have hx : x ∈ p.notes := by
          rw [hb]
          refine List.mem_append_right _ (hsub ?_)
          rw [ha]; simp [outItems, Ret.items]
        simp only [plain, Except.map, Ret.map, h.key, hk x hx]
  · rfl

theorem roundStart_kept (h : s.Keeps p) (hk : ∀ n ∈ p.notes, p.key n.2 = n.1) (start : K) (le : Bool) :
    roundStart s start le = roundStart (pairs s p) start le := by
  unfold roundStart
  rw [h.findLe]
  cases hf : (pairs s p).findLe (some start) with
  | error e => cases e <;> rfl
  | ok x =>
    have hx : x ∈ p.notes := findLe_mem hf
    simp only [Except.map, h.key, hk x hx]
    rfl

theorem roundStop_kept (h : s.Keeps p) (hk : ∀ n ∈ p.notes, p.key n.2 = n.1) (stop : K) (ig ge : Bool) :
    roundStop s stop ig ge = roundStop (pairs s p) stop ig ge := by
  unfold roundStop
  rw [h.findGe]
  cases hf : (pairs s p).findGe (some stop) with
  | error e => cases e <;> rfl
  | ok x =>
    have hx : x ∈ p.notes := findGe_mem hf
    simp only [Except.map, h.key, hk x hx]
    rfl

theorem range_kept {eq : V → V → Bool} (he : ∀ v, eq v v = true) [BEq (K × V)] [ReflBEq (K × V)] (h : s.Keeps p) (hs : (pairs s p).SWF)
    (hk : ∀ n ∈ p.notes, p.key n.2 = n.1) (hr : r.Stands cur) (a b : K) (st : Option Int) (pk : Bool) (ig : Option Bool) (on le ge : Bool) :
    (@Reader.range K V _ _ ⟨eq⟩ s r a b st pk ig on le ge).1 = plain (Reader.range (pairs s p) (ofCur r cur) a b st pk ig on le ge).1 ∧
    (@Reader.range K V _ _ ⟨eq⟩ s r a b st pk ig on le ge).2.Stands (Reader.range (pairs s p) (ofCur r cur) a b st pk ig on le ge).2.lastItem ∧
    (@Reader.range K V _ _ ⟨eq⟩ s r a b st pk ig on le ge).2.cfg = r.cfg := by
  unfold Reader.range
  simp only [rangeStart_kept he h hs hk hr, roundStart_kept h hk, roundStop_kept h hk, h.range, show (ofCur r cur).cfg = r.cfg from rfl]
  cases Reader.rangeStart (pairs s p) (ofCur r cur) a (ig.getD r.cfg.ignore) on with
  | error e => exact ⟨rfl, hr, rfl⟩
  | ok o =>
    cases o with
    | none => exact ⟨rfl, hr, rfl⟩
    | some a' =>
      simp only
      cases roundStart (pairs s p) a' le with
      | error e => exact ⟨rfl, hr, rfl⟩
      | ok a'' =>
        simp only
        cases roundStop (pairs s p) b (ig.getD r.cfg.ignore) ge with
        | error e => exact ⟨rfl, hr, rfl⟩
        | ok o' =>
          cases o' with
          | none => exact ⟨rfl, hr, rfl⟩
          | some b' =>
            simp only
            cases hrg : (pairs s p).range (some a'') (some b') st with
            | error e => exact ⟨rfl, hr, rfl⟩
            | ok l =>
              simp only [Except.map]
              cases pk with
              | true => exact ⟨rfl, hr, rfl⟩
              | false =>
                simp only [dqLast, dqGetInt_map, Bool.not_false, if_true]
                cases hl : dqGetInt l (-1) with
                | error e =>
                  simp only [Except.map]
                  cases ig.getD r.cfg.ignore <;> exact ⟨rfl, hr, rfl⟩
                | ok x => exact ⟨rfl, Stands.set h hk (range_mem hrg (dqGetInt_mem hl)), rfl⟩

theorem head_kept (h : s.Keeps p) (hk : ∀ n ∈ p.notes, p.key n.2 = n.1) (hr : r.Stands cur) (pk : Bool) :
    (r.head s pk).1 = plain ((ofCur r cur).head (pairs s p) pk).1 ∧ (r.head s pk).2.Stands ((ofCur r cur).head (pairs s p) pk).2.lastItem ∧
    (r.head s pk).2.cfg = r.cfg := by
  unfold Reader.head
  rw [h.getItem]
  cases hg : (pairs s p).getItem 0 with
  | error e => exact ⟨rfl, hr, rfl⟩
  | ok x =>
    cases pk with
    | true => exact ⟨rfl, hr, rfl⟩
    | false => exact ⟨rfl, Stands.set h hk (dqGetInt_mem hg), rfl⟩

theorem tail_kept (h : s.Keeps p) (hk : ∀ n ∈ p.notes, p.key n.2 = n.1) (hr : r.Stands cur) (pk ig on : Bool) :
    (r.tail s pk ig on).1 = plain ((ofCur r cur).tail (pairs s p) pk ig on).1 ∧
    (r.tail s pk ig on).2.Stands ((ofCur r cur).tail (pairs s p) pk ig on).2.lastItem ∧ (r.tail s pk ig on).2.cfg = r.cfg := by
  unfold Reader.tail
  rw [h.getItem, h.findLastGt, hr.item, show (ofCur r cur).lastKey = r.lastKey from rfl, show (ofCur r cur).lastItem = cur from rfl]
  have fin : ∀ x ∈ p.notes, (if (!pk) = true then ((.ok (.one x.2) : Py (Ret V)), r.setLast s x.2) else (.ok (.one x.2), r)).1 =
        plain (if (!pk) = true then ((.ok (.one x) : Py (Ret (K × V))), (ofCur r cur).setLast (pairs s p) x) else (.ok (.one x), ofCur r cur)).1 ∧
      (if (!pk) = true then ((.ok (.one x.2) : Py (Ret V)), r.setLast s x.2) else (.ok (.one x.2), r)).2.Stands
        (if (!pk) = true then ((.ok (.one x) : Py (Ret (K × V))), (ofCur r cur).setLast (pairs s p) x) else (.ok (.one x), ofCur r cur)).2.lastItem ∧
      (if (!pk) = true then ((.ok (.one x.2) : Py (Ret V)), r.setLast s x.2) else (.ok (.one x.2), r)).2.cfg = r.cfg := by
    intro x hx
    cases pk with
    | true => exact ⟨rfl, hr, rfl⟩
    | false => exact ⟨rfl, Stands.set h hk hx, rfl⟩
  have hg : ∀ x, (pairs s p).getItem (-1) = .ok x → x ∈ p.notes := fun x hx => dqGetInt_mem hx
  cases on with
  | false =>
    simp only [Bool.false_eq_true, if_false]
    cases hq : (pairs s p).getItem (-1) with
    | error e => cases ig <;> exact ⟨rfl, hr, rfl⟩
    | ok x => exact fin x (hg x hq)
  | true =>
    simp only [if_true]
    cases hf : (pairs s p).findLastGt r.lastKey with
    | ok x => exact fin x (findLastGt_mem hf)
    | error e =>
      cases e <;> simp only [Except.map]
      case valueError => cases ig <;> exact ⟨rfl, hr, rfl⟩
      case typeError =>
        cases cur with
        | some n => exact ⟨rfl, hr, rfl⟩
        | none =>
          simp only [Option.map_none]
          cases hq : (pairs s p).getItem (-1) with
          | error e => exact ⟨rfl, hr, rfl⟩
          | ok x => exact fin x (hg x hq)
      all_goals first | exact ⟨rfl, hr, rfl⟩ | exact ⟨rfl, hr, trivial⟩

end Reader

theorem Ch.rdStep_kept {s : SD K V} {p : Noted K V} {r : Reader K V} {cur : Option (K × V)} {eq : V → V → Bool} (he : ∀ v, eq v v = true)
    (h : s.Keeps p) (hs : (SD.pairs s p).SWF) (hk : ∀ n ∈ p.notes, p.key n.2 = n.1) (hr : r.Stands cur) (op : RdOp K V) :
    let a := Spec.rdStep nkey s.keyNone p.notes r.cfg cur (noteOp p.key op)
    (@Ch.rdStep K V _ _ ⟨eq⟩ s r op).1 = plain a.1 ∧ (@Ch.rdStep K V _ _ ⟨eq⟩ s r op).2.Stands a.2 ∧ (@Ch.rdStep K V _ _ ⟨eq⟩ s r op).2.cfg = r.cfg := by
  classical
  letI : BEq (K × V) := ⟨fun a b => decide (a = b)⟩
  haveI : ReflBEq (K × V) := ⟨fun {a} => by simp [BEq.beq]⟩
  have hN := Ch.rdStep_eq hs (hr.coherent (s := s) (p := p)) (noteOp p.key op)
  intro a
  have ha1 : (Ch.rdStep (SD.pairs s p) (Reader.ofCur r cur) (noteOp p.key op)).1 = a.1 := hN.1
  have ha2 : (Ch.rdStep (SD.pairs s p) (Reader.ofCur r cur) (noteOp p.key op)).2.lastItem = a.2 := hN.2.1
  cases op with
  | read n pk i st => exact Reader.read_kept he h hs hk hr n pk i st
  | nextMethod n pk i st => exact Reader.read_kept he h hs hk hr (some n) (some pk) (some i) (some st)
  | readForNext => exact Reader.read_kept he h hs hk hr (some _) (some _) (some _) (some _)
  | range x y st pk i o le ge => rw [← ha1, ← ha2]; exact Reader.range_kept he h hs hk hr x y st pk i o le ge
  | tail pk i o => rw [← ha1, ← ha2]; exact Reader.tail_kept h hk hr pk i o
  | head pk => rw [← ha1, ← ha2]; exact Reader.head_kept h hk hr pk
  | setLast v => exact ⟨rfl, ⟨by simp [Ch.rdStep, Reader.setLast, h.key, a, noteOp, Spec.rdStep], rfl⟩, rfl⟩
  | delLast => exact ⟨rfl, ⟨rfl, rfl⟩, rfl⟩

theorem dropLoop_keyNone : ∀ (n : Nat) (s : SD K V), (SD.dropLoop n s).1.keyNone = s.keyNone
  | 0, _ => rfl
  | n + 1, s => by
    unfold SD.dropLoop
    cases dqDel s.keys 0 with
    | error e => rfl
    | ok ks =>
      cases dqDel s.items 0 with
      | error e => rfl
      | ok is => exact dropLoop_keyNone n _

theorem drop_keyNone (s : SD K V) (n : Int) : (s.drop n).1.keyNone = s.keyNone := dropLoop_keyNone _ s

namespace AgedCh

/-- The buffer and all readers are as the reference on notes says. -/
structure RelAll (key : V → K) (kn : Py (Option K)) (m : Option Nat) (cfg : Nat → Cfg) (c : AgedCh K V) (W : Window (K × V)) : Prop where
  keeps : c.ch.buf.Keeps ⟨W.items, key, m⟩
  strict : W.items.Pairwise (fun a b => a.1 < b.1)
  kn : c.ch.buf.keyNone = kn
  eq : ∀ v, c.eq v v = true
  stands : ∀ j, (c.ch.readers j).Stands (W.cur j)
  cfg : ∀ j, (c.ch.readers j).cfg = cfg j

variable {key : V → K} {kn : Py (Option K)} {m : Option Nat} {cfg : Nat → Cfg} {c : AgedCh K V} {W : Window (K × V)}

theorem RelAll.step (h : RelAll key kn m cfg c W) (x : Happening K V) (hx : ∀ j op, x = .call (.rd j op) → ∀ n ∈ W.items, key n.2 = n.1)
    (he : ∀ k e, x = .change k e → ∀ v, e v v = true) :
    RelAll (keyAfter key [x]) kn m cfg (c.step x).1 (Window.run nkey kn m cfg W (notedAll key [x])).1 ∧
    (match (c.step x).2 with | some o => [o] | none => []) = (Window.run nkey kn m cfg W (notedAll key [x])).2.map plain := by
  obtain ⟨h1, h2, h3, h4, h5, h6⟩ := h
  cases x with
  | change k e =>
    exact ⟨⟨⟨h1.keys, h1.items, rfl, h1.maxlen, h1.sorted, h1.bounded⟩, h2, h3, he k e rfl, fun j => ⟨(h5 j).key, (h5 j).item⟩, h6⟩, rfl⟩
  | call op =>
    cases op with
    | append v =>
      obtain ⟨k1, k2⟩ := h1.append v
      have hkn := (c.ch.buf.append_key v).2.2
      simp only [AgedCh.step, Ch.step, notedAll, keyAfter, Window.run, Window.step]
      split
      · rename_i hm
        rw [if_pos hm] at k1 k2
        exact ⟨⟨k1, append_notes_strict h2 _ hm, hkn.trans h3, h4, h5, h6⟩, by rw [k2]; rfl⟩
      · rename_i hm
        rw [if_neg hm] at k1 k2
        exact ⟨⟨k1, h2, hkn.trans h3, h4, h5, h6⟩, by rw [k2]; rfl⟩
    | drop n =>
      obtain ⟨k1, k2⟩ := h1.drop n
      refine ⟨⟨k1, h2.drop, ?_, h4, h5, h6⟩, ?_⟩
      · exact (drop_keyNone c.ch.buf n).trans h3
      · simp only [AgedCh.step, Ch.step, notedAll, Window.run, Window.step, k2]
        split <;> rfl
    | rd j op =>
      have hs : (SD.pairs c.ch.buf ⟨W.items, key, m⟩).SWF := ⟨h1.wf, h2⟩
      obtain ⟨k1, k2, k3⟩ := Ch.rdStep_kept (eq := c.eq) h4 h1 hs (hx j op rfl) (h5 j) op
      rw [h3, h6 j] at k1 k2
      simp only [AgedCh.step, Ch.step, notedAll, keyAfter, Window.run, Window.step]
      refine ⟨⟨h1, h2, h3, h4, fun i => ?_, fun i => ?_⟩, ?_⟩
      · by_cases hi : i = j
        · subst hi; simp only [if_true]; exact k2
        · simp only [if_neg hi]; exact h5 i
      · by_cases hi : i = j
        · subst hi; simp only [if_true]; rw [k3]; exact h6 i
        · simp only [if_neg hi]; exact h6 i
      · simp only [List.map_cons, List.map_nil]
        rw [← k1]

theorem notedAll_cons (key : V → K) (x : Happening K V) (hs : List (Happening K V)) :
    notedAll key (x :: hs) = notedAll key [x] ++ notedAll (keyAfter key [x]) hs := by
  cases x with
  | change k e => rfl
  | call op => cases op <;> rfl

theorem notedAll_append (key : V → K) (xs hs : List (Happening K V)) :
    notedAll key (xs ++ hs) = notedAll key xs ++ notedAll (keyAfter key xs) hs := by
  induction xs generalizing key with
  | nil => rfl
  | cons x xs ih =>
    rw [List.cons_append, notedAll_cons, notedAll_cons key x xs, ih, List.append_assoc]
    cases x with
    | change k e => rfl
    | call op => cases op <;> rfl

theorem RelAll.run {hs : List (Happening K V)} (hu : RetainedKept key kn m cfg hs) (he : ∀ k e, Happening.change k e ∈ hs → ∀ v, e v v = true) :
    ∀ (hs2 hs1 : List (Happening K V)) (c : AgedCh K V), hs = hs1 ++ hs2 →
      RelAll (keyAfter key hs1) kn m cfg c (Window.run nkey kn m cfg Window.init (notedAll key hs1)).1 →
      RelAll (keyAfter key hs) kn m cfg (c.run hs2).1 (Window.run nkey kn m cfg Window.init (notedAll key hs)).1 ∧
      (c.run hs2).2 = (Window.run nkey kn m cfg (Window.run nkey kn m cfg Window.init (notedAll key hs1)).1 (notedAll (keyAfter key hs1) hs2)).2.map plain := by
  intro hs2
  induction hs2 with
  | nil =>
    intro hs1 c e1 h
    rw [List.append_nil] at e1
    subst e1
    exact ⟨h, rfl⟩
  | cons x hs2 ih =>
    intro hs1 c e1 h
    have hsplit : hs = (hs1 ++ [x]) ++ hs2 := by rw [e1]; simp
    obtain ⟨k1, k2⟩ := h.step x (fun j op hx => hu hs1 j op hs2 (by rw [e1, hx])) (fun k e hx => he k e (by rw [e1, hx]; simp))
    have hw : (Window.run nkey kn m cfg Window.init (notedAll key (hs1 ++ [x]))).1 =
        (Window.run nkey kn m cfg (Window.run nkey kn m cfg Window.init (notedAll key hs1)).1 (notedAll (keyAfter key hs1) [x])).1 := by
      rw [notedAll_append, window_run_append]
    obtain ⟨k3, k4⟩ := ih (hs1 ++ [x]) (c.step x).1 hsplit (by rw [keyAfter_append, hw]; exact k1)
    refine ⟨k3, ?_⟩
    rw [notedAll_cons, window_run_append]
    rw [hw, keyAfter_append] at k4
    rw [List.map_append, ← k2, ← k4]
    simp only [AgedCh.run]
    cases (c.step x).2 <;> rfl

theorem RelAll.init (key : V → K) {eq : V → V → Bool} (he : ∀ v, eq v v = true) (kn : Py (Option K)) (m : Option Nat) (cfg : Nat → Cfg) :
    RelAll key kn m cfg (AgedCh.init key eq kn m cfg) Window.init :=
  ⟨⟨rfl, rfl, rfl, rfl, .nil, fun _ _ => Nat.zero_le _⟩, .nil, rfl, he, fun _ => ⟨rfl, rfl⟩, fun _ => rfl⟩

/-- **C175** items may change while they are in the buffer: if whenever a reader is called those in the buffer have the keys they were stored with, every
call on the buffer and on every reader has the outcome it would have if no item ever changed (by the reference semantics of C11), and the items in the
buffer are those. -/
theorem C175_as_if_unchanged (key : V → K) (eq : V → V → Bool) (kn : Py (Option K)) (m : Option Nat) (cfg : Nat → Cfg) (hs : List (Happening K V))
    (he : ∀ v, eq v v = true) (hc : ∀ k e, Happening.change k e ∈ hs → ∀ v, e v v = true) (hu : RetainedKept key kn m cfg hs) :
    ((AgedCh.init key eq kn m cfg).run hs).2 =
      (Window.run (fun n : K × V => n.1) kn m cfg Window.init (notedAll key hs)).2.map plain ∧
    ((AgedCh.init key eq kn m cfg).run hs).1.ch.buf.items =
      (Window.run (fun n : K × V => n.1) kn m cfg Window.init (notedAll key hs)).1.items.map Prod.snd ∧
    ∀ j, (((AgedCh.init key eq kn m cfg).run hs).1.ch.readers j).lastItem =
      ((Window.run (fun n : K × V => n.1) kn m cfg Window.init (notedAll key hs)).1.cur j).map Prod.snd := by
  obtain ⟨h1, h2⟩ := RelAll.run hu hc hs [] _ rfl (RelAll.init key he kn m cfg)
  exact ⟨h2, h1.keeps.items, fun j => (h1.stands j).item⟩

end AgedCh
end S2P
