import Verif.Model.AgedReader
import Verif.Props.Aged
import Verif.Proofs.Reader
import Verif.Proofs.EndToEnd
/-
C171, C172: items that change while they are in a session buffer.
-/
namespace S2P
open Spec
variable {K V : Type} [LinearOrder K]

/-- The key a note was made with. -/
abbrev nkey : K × V → K := fun n => n.1

namespace SD
variable {s : SD K V} {p : Noted K V}

theorem Keeps.findGt (h : s.Keeps p) (k : Option K) : s.findGt k = ((pairs s p).findGt k).map Prod.snd := by
  have hl : s.len = (pairs s p).len := h.len
  have hk : (pairs s p).keys = s.keys := rfl
  have hi : (pairs s p).items = p.notes := rfl
  simp only [SD.findGt, hk, hi, hl, h.items, bind, Except.bind]
  cases bisectRight s.keys k with
  | error e => rfl
  | ok i =>
    simp only [dqGet_map]
    by_cases hx : i ≠ (pairs s p).len
    · simp only [if_pos hx]
    · simp only [if_neg hx]; rfl

theorem Keeps.index' (h : s.Keeps p) (eq : V → V → Bool) (v : V) :
    @SD.index K V _ _ ⟨eq⟩ s v = match p.notes.findIdx? (fun m => decide (m.1 = p.key v) && eq m.2 v) with | some i => .ok i | none => .error .valueError := by
  letI : BEq V := ⟨eq⟩
  rw [h.index v, @position_eq _ noteEq]
  rfl

end SD

namespace Reader
open SD
variable {s : SD K V} {p : Noted K V} {r : Reader K V}

/-- The reader `r` stands where a reader of notes that saw `cur` last stands. -/
structure Stands (r : Reader K V) (cur : Option (K × V)) : Prop where
  key : r.lastKey = cur.map Prod.fst
  item : r.lastItem = cur.map Prod.snd

theorem Stands.nextItem (h : s.Keeps p) (hs : (pairs s p).SWF) {cur : Option (K × V)} (hr : r.Stands cur) (ig : Bool) :
    r.nextItem s ig = match unread nkey p.notes cur with
      | [] => if ig then .ok none else .error .valueError
      | n :: _ => .ok (some n.2) := by
  have hn := nextItem_eq (s := pairs s p) (r := ⟨cur, r.lastKey, r.cfg⟩) hs hr.key ig
  rw [show unread (pairs s p).key (pairs s p).items (⟨cur, r.lastKey, r.cfg⟩ : Reader K (K × V)).lastItem = unread nkey p.notes cur from rfl] at hn
  have hg : r.nextItem s ig = (Reader.nextItem (pairs s p) ⟨cur, r.lastKey, r.cfg⟩ ig).map (Option.map Prod.snd) := by
    simp only [Reader.nextItem, h.findGt]
    cases hf : (pairs s p).findGt r.lastKey with
    | ok n => rfl
    | error e =>
      have h0 : s.getItem 0 = ((pairs s p).getItem 0).map Prod.snd := by
        rw [getItem_zero, getItem_zero]
        rw [h.items, List.head?_map]
        rw [show (pairs s p).items = p.notes from rfl]
        cases p.notes.head? <;> rfl
      cases e <;> simp only [Except.map]
      case valueError => cases ig <;> rfl
      case typeError =>
        rw [hr.item]
        cases cur with
        | some n => rfl
        | none =>
          simp only [Option.map_none, h0]
          cases (pairs s p).getItem 0 <;> rfl
  rw [hg, hn]
  cases unread nkey p.notes cur with
  | nil => cases ig <;> rfl
  | cons n ns => rfl

/-- `read`, exactly, whatever has changed. -/
theorem read_aged {eq : V → V → Bool} (h : s.Keeps p) (hs : (pairs s p).SWF) {cur : Option (K × V)} (hr : r.Stands cur) (n : Option Int)
    (pk i st : Option Bool) :
    let a := agedRead p.key eq p.notes cur (n.getD r.cfg.n) (i.getD r.cfg.ignore) (st.getD r.cfg.strict)
    (@Reader.read K V _ _ ⟨eq⟩ s r n pk i st).1 = plain a ∧
    (@Reader.read K V _ _ ⟨eq⟩ s r n pk i st).2.Stands (agedMove p.key (pk.getD false) cur a) ∧
    (@Reader.read K V _ _ ⟨eq⟩ s r n pk i st).2.cfg = r.cfg := by
  letI : BEq V := ⟨eq⟩
  intro a
  subst a
  unfold read agedRead
  simp only [hr.nextItem h hs]
  generalize n.getD r.cfg.n = n
  generalize i.getD r.cfg.ignore = i
  generalize st.getD r.cfg.strict = st
  generalize pk.getD false = pk
  have hset : ∀ x : K × V, (r.setLast s x.2).Stands (some (p.key x.2, x.2)) := fun x => ⟨by simp [setLast, h.key], rfl⟩
  cases hu : unread nkey p.notes cur with
  | nil =>
    have hu' : unread (fun n : K × V => n.1) p.notes cur = [] := hu
    simp only [hu']
    cases i <;> cases pk <;> exact ⟨rfl, hr, rfl⟩
  | cons x xs =>
    have hu' : unread (fun n : K × V => n.1) p.notes cur = x :: xs := hu
    simp only [hu']
    by_cases hn : n ≤ 1
    · have hn' : ¬ n > 1 := by omega
      simp only [hn, hn', if_true, if_false]
      cases pk
      · exact ⟨rfl, hset x, rfl⟩
      · exact ⟨rfl, hr, rfl⟩
    · have hn' : n > 1 := by omega
      simp only [hn, hn', if_true, if_false]
      rw [h.index' eq x.2]
      cases hf : p.notes.findIdx? (fun m => decide (m.1 = p.key x.2) && eq m.2 x.2) with
      | none => cases pk <;> exact ⟨rfl, hr, rfl⟩
      | some j =>
        have hlen : s.len = p.notes.length := h.len
        have hj : j < p.notes.length := (List.findIdx?_eq_some_iff_findIdx_eq.1 hf).1
        have hrg : s.rangeByIndex j ((j : Int) + n).toNat none = .ok (((p.notes.drop j).take n.toNat).map Prod.snd) := by
          unfold rangeByIndex islice
          have : ((j : Int) + n).toNat = j + n.toNat := by omega
          rw [this, h.items, ← List.map_take, ← List.map_drop, List.drop_take]
          simp
        simp only [hrg, hlen]
        by_cases hst : st = true ∧ (p.notes.length : Int) ≤ j + n
        · have : (st && decide ((j : Int) + n ≥ (p.notes.length : Int))) = true := by simpa using hst
          rw [if_pos this, if_pos hst]
          cases pk <;> exact ⟨rfl, hr, rfl⟩
        · have : (st && decide ((j : Int) + n ≥ (p.notes.length : Int))) = false := by
            rw [← Bool.not_eq_true]; simpa using hst
          rw [if_neg (by rw [this]; simp), if_neg hst]
          cases pk with
          | true => exact ⟨rfl, hr, rfl⟩
          | false =>
            have hne : (p.notes.drop j).take n.toNat ≠ [] := by
              intro h0
              have := congrArg List.length h0
              simp at this
              omega
            obtain ⟨z, hz⟩ : ∃ z, ((p.notes.drop j).take n.toNat).getLast? = some z := by
              cases hq : ((p.notes.drop j).take n.toNat).getLast? with
              | none => exact absurd (by simpa using hq) hne
              | some z => exact ⟨z, rfl⟩
            simp only [dqLast_eq, List.getLast?_map, hz, Option.map_some, agedMove]
            exact ⟨rfl, hset z, rfl⟩

end Reader

/-! ### Histories -/

namespace Ch
variable {eq : V → V → Bool} {s : SD K V} {p : Noted K V} {r : Reader K V}

theorem rdStep_aged (h : s.Keeps p) (hs : (SD.pairs s p).SWF) {cur : Option (K × V)} (hr : r.Stands cur) {op : RdOp K V} {n : Int} {pk i st : Bool}
    (ha : readArgs r.cfg op = some (n, pk, i, st)) :
    (@Ch.rdStep K V _ _ ⟨eq⟩ s r op).1 = plain (agedRead p.key eq p.notes cur n i st) ∧
    (@Ch.rdStep K V _ _ ⟨eq⟩ s r op).2.Stands (agedMove p.key pk cur (agedRead p.key eq p.notes cur n i st)) ∧
    (@Ch.rdStep K V _ _ ⟨eq⟩ s r op).2.cfg = r.cfg := by
  cases op <;> simp only [readArgs, Option.some.injEq, Prod.mk.injEq, reduceCtorEq] at ha
  case read n' p' i' s' =>
    obtain ⟨rfl, rfl, rfl, rfl⟩ := ha
    exact Reader.read_aged h hs hr n' p' i' s'
  case nextMethod n' p' i' s' =>
    obtain ⟨rfl, rfl, rfl, rfl⟩ := ha
    exact Reader.read_aged h hs hr (some n') (some p') (some i') (some s')
  case readForNext =>
    obtain ⟨rfl, rfl, rfl, rfl⟩ := ha
    exact Reader.read_aged h hs hr (some _) (some _) (some _) (some _)

end Ch

namespace AgedCh

/-- The buffer and reader `i` are as the reference says. -/
structure Rel (i : Nat) (m : Option Nat) (cf : Cfg) (c : AgedCh K V) (w : AgedWin K V) : Prop where
  keeps : c.ch.buf.Keeps ⟨w.notes, w.key, m⟩
  strict : w.notes.Pairwise (fun a b => a.1 < b.1)
  eq : c.eq = w.eq
  stands : (c.ch.readers i).Stands w.cur
  cfg : (c.ch.readers i).cfg = cf

variable {i : Nat} {m : Option Nat} {cf : Cfg} {c : AgedCh K V} {w : AgedWin K V}

theorem append_notes_strict {l : List (K × V)} (hs : l.Pairwise (fun a b => a.1 < b.1)) (x : K × V) (hm : mayAppend nkey l x = true) :
    (newest m (l ++ [x])).Pairwise (fun a b => a.1 < b.1) := by
  refine List.Pairwise.sublist (show List.Sublist (newest m (l ++ [x])) (l ++ [x]) by unfold newest; cases m; exact List.Sublist.refl _; exact List.drop_sublist _ _) ?_
  refine List.pairwise_append.2 ⟨hs, List.pairwise_singleton _ _, fun a ha b hb => ?_⟩
  simp only [List.mem_singleton] at hb; subst hb
  unfold mayAppend at hm
  cases hl : l.getLast? with
  | none => simp [List.getLast?_eq_none_iff.1 hl] at ha
  | some z =>
    rw [hl] at hm
    simp only [decide_eq_true_eq] at hm
    obtain ⟨l', rfl⟩ := List.getLast?_eq_some_iff.1 hl
    rcases List.mem_append.1 ha with ha | ha
    · exact lt_trans ((List.pairwise_append.1 hs).2.2 a ha z (by simp)) hm
    · simp only [List.mem_singleton] at ha; subst ha; exact hm

/-- The outcome of a call, if it is one on the buffer or on reader `i`. -/
def mine (i : Nat) : Happening K V → List (Py (Ret V)) → List (Py (Ret V))
  | .change _ _, _ => []
  | .call op, outs => restrictOuts (· == i) [op] outs

theorem Rel.step (h : Rel i m cf c w) (x : Happening K V) (hx : ∀ op, x = .call (.rd i op) → (asNoted op).isSome = true) :
    Rel i m cf (c.step x).1 (w.step i m cf x).1 ∧
    mine i x (match (c.step x).2 with | some o => [o] | none => []) = (w.step i m cf x).2.map plain := by
  obtain ⟨h1, h2, h3, h4, h5⟩ := h
  cases x with
  | change k e => exact ⟨⟨⟨h1.keys, h1.items, rfl, h1.maxlen, h1.sorted, h1.bounded⟩, h2, rfl, ⟨h4.key, h4.item⟩, h5⟩, rfl⟩
  | call op =>
    cases op with
    | append v =>
      obtain ⟨k1, k2⟩ := h1.append v
      simp only [AgedCh.step, Ch.step, AgedWin.step, mine, restrictOuts]
      split
      · rename_i hm
        rw [if_pos hm] at k1 k2
        exact ⟨⟨k1, append_notes_strict h2 _ hm, h3, h4, h5⟩, by rw [k2]; rfl⟩
      · rename_i hm
        rw [if_neg hm] at k1 k2
        exact ⟨⟨k1, h2, h3, h4, h5⟩, by rw [k2]; rfl⟩
    | drop n =>
      obtain ⟨k1, k2⟩ := h1.drop n
      refine ⟨⟨k1, h2.drop, h3, h4, h5⟩, ?_⟩
      simp only [AgedCh.step, Ch.step, AgedWin.step, mine, restrictOuts, k2]
      split <;> rfl
    | rd j op =>
      by_cases hj : j = i
      · subst hj
        have hop := hx op rfl
        obtain ⟨n, pk, ig, st, ha⟩ : ∃ n pk ig st, readArgs cf op = some (n, pk, ig, st) := by
          cases op <;> simp only [asNoted, Option.isSome_none, Bool.false_eq_true] at hop <;> exact ⟨_, _, _, _, rfl⟩
        have hs : (SD.pairs c.ch.buf ⟨w.notes, w.key, m⟩).SWF := ⟨h1.wf, h2⟩
        obtain ⟨k1, k2, k3⟩ := Ch.rdStep_aged (eq := c.eq) h1 hs h4 (by rw [h5]; exact ha)
        simp only [AgedWin.step, if_true, ha, ← h3]
        refine ⟨⟨h1, h2, rfl, ?_, ?_⟩, ?_⟩
        · simp only [AgedCh.step, Ch.step, if_true]; exact k2
        · simp only [AgedCh.step, Ch.step, if_true]; rw [k3]; exact h5
        · simp only [AgedCh.step, Ch.step, mine, restrictOuts, beq_self_eq_true, if_true, List.map_cons, List.map_nil, k1]
      · simp only [AgedWin.step, if_neg hj]
        refine ⟨⟨h1, h2, h3, ?_, ?_⟩, ?_⟩
        · simp only [AgedCh.step, Ch.step, if_neg (Ne.symm hj)]; exact h4
        · simp only [AgedCh.step, Ch.step, if_neg (Ne.symm hj)]; exact h5
        · simp only [AgedCh.step, Ch.step, mine, restrictOuts]
          rw [if_neg (by simpa using hj)]; rfl

theorem restrictOuts_cons (i : Nat) (op : ChOp K V) (o : Py (Ret V)) (ops : List (ChOp K V)) (outs : List (Py (Ret V))) :
    restrictOuts (· == i) (op :: ops) (o :: outs) = restrictOuts (· == i) [op] [o] ++ restrictOuts (· == i) ops outs := by
  cases op <;> simp only [restrictOuts] <;> (try split) <;> rfl

theorem Rel.run (hs : List (Happening K V)) (h : Rel i m cf c w) (hx : ∀ op, .call (.rd i op) ∈ hs → (asNoted op).isSome = true) :
    Rel i m cf (c.run hs).1 (w.run i m cf hs).1 ∧ restrictOuts (· == i) (callsOf hs) (c.run hs).2 = (w.run i m cf hs).2.map plain := by
  induction hs generalizing c w with
  | nil => exact ⟨h, rfl⟩
  | cons x hs ih =>
    obtain ⟨k1, k2⟩ := h.step x (fun op hop => hx op (by simp [hop]))
    obtain ⟨k3, k4⟩ := ih k1 (fun op hop => hx op (by simp [hop]))
    refine ⟨k3, ?_⟩
    simp only [AgedCh.run, AgedWin.run, List.map_append, ← k2, ← k4]
    cases x with
    | change k e => rfl
    | call op => exact restrictOuts_cons i op _ _ _

theorem Rel.init (key : V → K) (eq : V → V → Bool) (kn : Py (Option K)) (cfg : Nat → Cfg) :
    Rel i m (cfg i) (AgedCh.init key eq kn m cfg) ⟨[], key, eq, none⟩ :=
  ⟨⟨rfl, rfl, rfl, rfl, .nil, fun _ _ => Nat.zero_le _⟩, .nil, rfl, ⟨rfl, rfl⟩, rfl⟩

/-- **C172** exactly what `append`, `drop` and the reads of a reader do in any history in which items change at any moment and in any way. -/
theorem C172_exactly_partial (key : V → K) (eq : V → V → Bool) (kn : Py (Option K)) (m : Option Nat) (cfg : Nat → Cfg) (i : Nat) (hs : List (Happening K V))
    (hx : ∀ op, .call (.rd i op) ∈ hs → (asNoted op).isSome = true) :
    restrictOuts (· == i) (callsOf hs) ((AgedCh.init key eq kn m cfg).run hs).2 =
      (AgedWin.run i m (cfg i) ⟨[], key, eq, none⟩ hs).2.map plain :=
  ((Rel.init key eq kn cfg).run hs hx).2

/-! ### C171 -/

theorem unread_part {l : List (K × V)} (hs : l.Pairwise (fun a b => a.1 < b.1)) (cur : Option (K × V)) : ∃ a, l = a ++ unread nkey l cur := by
  have h : (⟨l.map (·.1), l, nkey, .error .typeError, none⟩ : SD K (K × V)).SWF := ⟨⟨rfl, hs.imp le_of_lt, fun _ h => by cases h⟩, hs⟩
  obtain ⟨a, ha, -⟩ := SD.unread_suffix h cur
  exact ⟨a, ha⟩

/-- When the unread items have the keys they were stored with, a read is an ordinary read of notes. -/
theorem agedRead_kept {key : V → K} {eq : V → V → Bool} {l : List (K × V)} (hs : l.Pairwise (fun a b => a.1 < b.1)) (cur : Option (K × V))
    (hk : ∀ n ∈ unread nkey l cur, key n.2 = n.1) (he : ∀ v, eq v v = true) (n : Int) (ig st : Bool) :
    agedRead key eq l cur n ig st = Spec.read nkey l cur n ig st := by
  obtain ⟨a, ha⟩ := unread_part hs cur
  unfold agedRead Spec.read
  have hkk : ∀ n ∈ unread (fun n : K × V => n.1) l cur, key n.2 = n.1 := hk
  have haa : l = a ++ unread (fun n : K × V => n.1) l cur := ha
  cases hu : unread (fun n : K × V => n.1) l cur with
  | nil => rfl
  | cons x xs =>
    rw [hu] at haa hkk
    simp only
    by_cases hn : n ≤ 1
    · simp only [hn, if_true]
    · simp only [hn, if_false]
      have hx := hkk x (by simp)
      have hf : l.findIdx? (fun m => decide (m.1 = key x.2) && eq m.2 x.2) = some a.length := by
        rw [haa] at hs ⊢
        rw [List.findIdx?_append]
        have h1 : a.findIdx? (fun m => decide (m.1 = key x.2) && eq m.2 x.2) = none := by
          rw [List.findIdx?_eq_none_iff]
          intro y hy
          have := (List.pairwise_append.1 hs).2.2 y hy x (by simp)
          rw [hx]
          simp [ne_of_lt this]
        rw [h1]
        simp [List.findIdx?_cons, hx, he]
      rw [hf]
      have hlen : (l.length : Int) = a.length + (x :: xs).length := by
        have := congrArg List.length haa
        rw [List.length_append] at this
        omega
      have hd : l.drop a.length = x :: xs := by rw [haa]; simp
      simp only [hd, hlen]
      have hc : ((a.length : Int) + (x :: xs).length ≤ a.length + n) ↔ (((x :: xs).length : Nat) : Int) ≤ n := by omega
      by_cases hst : st = true ∧ (((x :: xs).length : Nat) : Int) ≤ n
      · rw [if_pos ⟨hst.1, hc.2 hst.2⟩, if_pos hst]
      · rw [if_neg (fun h => hst ⟨h.1, hc.1 h.2⟩), if_neg hst]

theorem agedMove_kept {key : V → K} {l : List (K × V)} (cur : Option (K × V))
    (hk : ∀ n ∈ unread nkey l cur, key n.2 = n.1) (pk : Bool) (n : Int) (ig st : Bool) :
    agedMove key pk cur (Spec.read nkey l cur n ig st) = move pk cur (Spec.read nkey l cur n ig st) := by
  have hsub := (read_prefix nkey l cur n ig st).1.subset
  unfold agedMove move
  cases pk with
  | true => rfl
  | false =>
    simp only [Bool.false_eq_true, if_false]
    unfold cursorAfter
    split
    · rename_i x h
      rw [h] at hsub ⊢
      have hx : x ∈ unread nkey l cur := hsub (by simp [outItems, Ret.items])
      simp only [hk x hx]
    · rename_i xs h
      rw [h] at hsub ⊢
      simp only
      cases hq : xs.getLast? with
      | none => rfl
      | some x =>
        have hx : x ∈ unread nkey l cur := hsub (by simp only [outItems, Ret.items]; exact List.mem_of_getLast? hq)
        simp only [hk x hx]
    · rename_i h1 h2
      split
      · rename_i x h; exact absurd h (h1 x)
      · rename_i xs h; exact absurd h (h2 xs)
      · rfl

/-- One happening on the reference that knows of no changes. -/
def plainStep (i : Nat) (m : Option Nat) (cfg : Nat → Cfg) (key : V → K) (W : Window (K × V)) (x : Happening K V) :
    Window (K × V) × List (Py (Ret (K × V))) := Window.run nkey (.error .typeError) m cfg W (noted i key [x])

theorem noted_cons (i : Nat) (key : V → K) (x : Happening K V) (hs : List (Happening K V)) :
    noted i key (x :: hs) = noted i key [x] ++ noted i (keyAfter key [x]) hs := by
  cases x with
  | change k e => rfl
  | call op =>
    cases op with
    | append v => rfl
    | drop n => rfl
    | rd j op =>
      simp only [noted, keyAfter]
      split
      · split <;> rfl
      · rfl

theorem noted_append (i : Nat) (key : V → K) (xs hs : List (Happening K V)) :
    noted i key (xs ++ hs) = noted i key xs ++ noted i (keyAfter key xs) hs := by
  induction xs generalizing key with
  | nil => rfl
  | cons x xs ih =>
    rw [List.cons_append, noted_cons, noted_cons i key x xs, ih, List.append_assoc]
    cases x <;> rfl

theorem keyAfter_append (key : V → K) (xs hs : List (Happening K V)) : keyAfter key (xs ++ hs) = keyAfter (keyAfter key xs) hs := by
  induction xs generalizing key with
  | nil => rfl
  | cons x xs ih => cases x <;> exact ih _

theorem window_run_append {V : Type} (key : V → K) (kn : Py (Option K)) (m : Option Nat) (cfg : Nat → Cfg) (a b : List (ChOp K V)) (W : Window V) :
    Window.run key kn m cfg W (a ++ b) =
      ((Window.run key kn m cfg (Window.run key kn m cfg W a).1 b).1, (Window.run key kn m cfg W a).2 ++ (Window.run key kn m cfg (Window.run key kn m cfg W a).1 b).2) := by
  induction a generalizing W with
  | nil => rfl
  | cons x xs ih => simp only [List.cons_append, Window.run, ih]

theorem kept_run {i : Nat} {key : V → K} {m : Option Nat} {cfg : Nat → Cfg} {hs : List (Happening K V)} (hu : UnreadKept i key m cfg hs)
    (hx : ∀ op, .call (.rd i op) ∈ hs → (asNoted op).isSome = true) (he : ∀ k e, Happening.change k e ∈ hs → ∀ v, e v v = true) :
    ∀ (hs2 hs1 : List (Happening K V)) (w : AgedWin K V), hs = hs1 ++ hs2 → (∀ v, w.eq v v = true) → w.key = keyAfter key hs1 →
      w.notes.Pairwise (fun a b => a.1 < b.1) → w.notes = (notesAfter i key m cfg hs1).items → w.cur = (notesAfter i key m cfg hs1).cur i →
      (w.run i m (cfg i) hs2).2 = (Window.run nkey (.error .typeError) m cfg (notesAfter i key m cfg hs1) (noted i (keyAfter key hs1) hs2)).2 := by
  intro hs2
  induction hs2 with
  | nil => intro hs1 w _ _ _ _ _ _; rfl
  | cons x hs2 ih =>
    intro hs1 w e1 e2 e3 e4 e5 e6
    have hsplit : hs = (hs1 ++ [x]) ++ hs2 := by rw [e1]; simp
    have hstep : notesAfter i key m cfg (hs1 ++ [x]) = (plainStep i m cfg (keyAfter key hs1) (notesAfter i key m cfg hs1) x).1 := by
      simp only [notesAfter, noted_append, window_run_append, plainStep]
    have hkey : keyAfter key (hs1 ++ [x]) = keyAfter (keyAfter key hs1) [x] := keyAfter_append _ _ _
    rw [noted_cons, window_run_append]
    simp only [AgedWin.run]
    have main : (w.step i m (cfg i) x).2 = (plainStep i m cfg (keyAfter key hs1) (notesAfter i key m cfg hs1) x).2 ∧
        (∀ v, (w.step i m (cfg i) x).1.eq v v = true) ∧ (w.step i m (cfg i) x).1.key = keyAfter (keyAfter key hs1) [x] ∧
        (w.step i m (cfg i) x).1.notes.Pairwise (fun a b => a.1 < b.1) ∧
        (w.step i m (cfg i) x).1.notes = (plainStep i m cfg (keyAfter key hs1) (notesAfter i key m cfg hs1) x).1.items ∧
        (w.step i m (cfg i) x).1.cur = (plainStep i m cfg (keyAfter key hs1) (notesAfter i key m cfg hs1) x).1.cur i := by
      generalize hW : notesAfter i key m cfg hs1 = W at e5 e6
      cases x with
      | change k e => exact ⟨rfl, he k e (by rw [e1]; simp), rfl, e4, e5, e6⟩
      | call op =>
        cases op with
        | append v =>
          simp only [AgedWin.step, plainStep, noted, Window.run, Window.step, ← e5, ← e3]
          split
          · rename_i hm
            refine ⟨?_, e2, ?_, append_notes_strict e4 _ hm, ?_, e6⟩ <;> first | rfl | trivial | exact e3
          · refine ⟨?_, e2, ?_, e4, ?_, e6⟩ <;> first | rfl | trivial | exact e3 | exact e5
        | drop n =>
          simp only [AgedWin.step, plainStep, noted, Window.run, Window.step, ← e5, ← e3]
          refine ⟨?_, e2, ?_, e4.drop, ?_, e6⟩ <;> first | rfl | trivial | exact e3 | exact e5
        | rd j op =>
          by_cases hj : j = i
          · subst hj
            have hop := hx op (by rw [e1]; simp)
            have hk := hu hs1 op hs2 e1
            rw [hW, ← e5, ← e6, ← e3] at hk
            have hk' : ∀ n ∈ unread nkey w.notes w.cur, w.key n.2 = n.1 := hk
            cases op <;> simp only [asNoted, Option.isSome_none, Bool.false_eq_true] at hop
            all_goals
              simp only [AgedWin.step, if_true, readArgs, plainStep, noted, asNoted, Window.run, Window.step, rdStep, ← e5, ← e6]
              simp only [agedRead_kept e4 w.cur hk' e2, agedMove_kept w.cur hk']
              refine ⟨?_, e2, e3, e4, ?_, ?_⟩ <;> first | rfl | trivial | exact e5 | simp [e5]
          · simp only [AgedWin.step, if_neg hj, plainStep, noted, Window.run]
            refine ⟨?_, e2, ?_, e4, ?_, ?_⟩ <;> first | rfl | trivial | exact e3 | exact e5 | exact e6
    obtain ⟨m1, m2, m3, m4, m5, m6⟩ := main
    rw [m1]
    have := ih (hs1 ++ [x]) _ hsplit m2 (m3.trans hkey.symm) m4 (m5.trans (by rw [hstep])) (m6.trans (by rw [hstep]))
    rw [this, hstep, hkey]
    rfl

/-- **C171** as long as the items that a reader has not read yet keep their keys, it and the buffer behave as if no item ever changed: outcome by outcome
they are those of a buffer of notes, with each item under the key it was stored with. Whatever changes otherwise, whatever the other readers do. -/
theorem C171_as_if_unchanged (key : V → K) (eq : V → V → Bool) (kn : Py (Option K)) (m : Option Nat) (cfg : Nat → Cfg) (i : Nat)
    (hs : List (Happening K V)) (hx : ∀ op, .call (.rd i op) ∈ hs → (asNoted op).isSome = true)
    (he : ∀ v, eq v v = true) (hc : ∀ k e, Happening.change k e ∈ hs → ∀ v, e v v = true) (hu : UnreadKept i key m cfg hs) :
    restrictOuts (· == i) (callsOf hs) ((AgedCh.init key eq kn m cfg).run hs).2 =
      (Window.run (fun n : K × V => n.1) (.error .typeError) m cfg Window.init (noted i key hs)).2.map plain := by
  rw [C172_exactly_partial key eq kn m cfg i hs hx]
  congr 1
  exact kept_run hu hx hc hs [] ⟨[], key, eq, none⟩ rfl he rfl .nil rfl rfl

theorem consumes_noted (c : Cfg) {op : RdOp K V} {op' : RdOp K (K × V)} (h : asNoted op = some op') : consumes c op' = consumes c op := by
  cases op <;> simp only [asNoted, Option.some.injEq, reduceCtorEq] at h <;> subst h <;> rfl

theorem outItems_plain (o : Py (Ret (K × V))) : outItems (plain o) = (outItems o).map Prod.snd := by
  cases o with
  | error e => rfl
  | ok r => cases r <;> rfl

theorem run_length (hs : List (Happening K V)) (c : AgedCh K V) : (c.run hs).2.length = (callsOf hs).length := by
  induction hs generalizing c with
  | nil => rfl
  | cons x hs ih =>
    cases x with
    | change k e => simp only [AgedCh.run, callsOf, AgedCh.step, List.nil_append]; exact ih _
    | call op => simp only [AgedCh.run, callsOf, AgedCh.step, List.length_append, List.length_cons, List.length_nil, ih]; omega

theorem in_notes {i : Nat} (cfg : Nat → Cfg) (hs : List (Happening K V)) : ∀ (key : V → K) (outs : List (Py (Ret V))) (nouts : List (Py (Ret (K × V)))),
    outs.length = (callsOf hs).length → restrictOuts (· == i) (callsOf hs) outs = nouts.map plain →
    (∀ op, .call (.rd i op) ∈ hs → (asNoted op).isSome = true) →
    delivered cfg i (callsOf hs) outs = (delivered cfg i (noted i key hs) nouts).map Prod.snd ∧
      takenAll (callsOf hs) outs = (takenAll (noted i key hs) nouts).map Prod.snd := by
  induction hs with
  | nil => intro key outs nouts _ _ _; simp [callsOf, noted, delivered, takenAll]
  | cons x hs ih =>
    intro key outs nouts hl hr hx
    have hx' : ∀ op, .call (.rd i op) ∈ hs → (asNoted op).isSome = true := fun op h => hx op (List.mem_cons_of_mem _ h)
    cases x with
    | change k e => exact ih k outs nouts hl hr hx'
    | call op =>
      simp only [callsOf] at hl hr ⊢
      cases outs with
      | nil => simp at hl
      | cons o outs =>
        have hl' : outs.length = (callsOf hs).length := by simpa using hl
        cases op with
        | append v =>
          simp only [restrictOuts] at hr
          cases nouts with
          | nil => simp at hr
          | cons p nouts =>
            simp only [List.map_cons, List.cons.injEq] at hr
            obtain ⟨h1, h2⟩ := ih key outs nouts hl' hr.2 hx'
            simp only [noted, delivered, takenAll, handed, List.nil_append, List.map_append, h1, h2, hr.1, true_and]
            congr 1
            cases p <;> rfl
        | drop n =>
          simp only [restrictOuts] at hr
          cases nouts with
          | nil => simp at hr
          | cons p nouts =>
            simp only [List.map_cons, List.cons.injEq] at hr
            obtain ⟨h1, h2⟩ := ih key outs nouts hl' hr.2 hx'
            simp only [noted, delivered, takenAll, handed, List.nil_append, h1, h2, taken, and_self]
        | rd j op =>
          by_cases hj : j = i
          · subst hj
            simp only [restrictOuts, beq_self_eq_true, if_true] at hr
            cases nouts with
            | nil => simp at hr
            | cons p nouts =>
              simp only [List.map_cons, List.cons.injEq] at hr
              obtain ⟨h1, h2⟩ := ih key outs nouts hl' hr.2 hx'
              obtain ⟨op', hop⟩ := Option.isSome_iff_exists.1 (hx op (by simp))
              simp only [noted, if_true, hop, delivered, takenAll, handed, taken, List.nil_append, h1, h2, hr.1, consumes_noted _ hop, true_and, and_true,
                List.map_append]
              congr 1
              split
              · rw [outItems_plain]
              · rfl
          · have hj' : (j == i) = false := by simpa using hj
            simp only [restrictOuts, hj', Bool.false_eq_true, if_false] at hr
            obtain ⟨h1, h2⟩ := ih key outs nouts hl' hr hx'
            simp only [noted, if_neg hj, delivered, takenAll, handed, taken, List.nil_append, hj, false_and, if_false]
            exact ⟨h1, h2⟩

theorem noted_only_reads (cfg : Nat → Cfg) (i : Nat) (hs : List (Happening K V)) : ∀ key, OnlyReads cfg i (noted i key hs) := by
  induction hs with
  | nil => intro key o ho; simp [noted] at ho
  | cons x hs ih =>
    intro key o ho
    cases x with
    | change k e => exact ih k o ho
    | call op =>
      cases op with
      | append v => simp only [noted, List.mem_cons, reduceCtorEq, false_or] at ho; exact ih key o ho
      | drop n => simp only [noted, List.mem_cons, reduceCtorEq, false_or] at ho; exact ih key o ho
      | rd j op =>
        simp only [noted] at ho
        split at ho
        · split at ho
          · rename_i op' hop
            rcases List.mem_cons.1 ho with e | ho
            · cases e
              cases op <;> simp only [asNoted, Option.some.injEq, reduceCtorEq] at hop <;> subst hop <;> simp only [consumes, peeks]
              all_goals exact (by decide : ∀ b : Bool, (!b) = true ∨ b = true) _
            · exact ih key o ho
          · exact ih key o ho
        · exact ih key o ho

/-- **C171** so nothing is handed out twice or out of order, however items that were read change: what a reader is handed is, in order, a part of what was
stored. -/
theorem C171_each_once (key : V → K) (eq : V → V → Bool) (kn : Py (Option K)) (m : Option Nat) (cfg : Nat → Cfg) (i : Nat)
    (hs : List (Happening K V)) (hx : ∀ op, .call (.rd i op) ∈ hs → (asNoted op).isSome = true)
    (he : ∀ v, eq v v = true) (hc : ∀ k e, Happening.change k e ∈ hs → ∀ v, e v v = true) (hu : UnreadKept i key m cfg hs) :
    (delivered cfg i (callsOf hs) ((AgedCh.init key eq kn m cfg).run hs).2).Sublist (takenAll (callsOf hs) ((AgedCh.init key eq kn m cfg).run hs).2) := by
  have h := C171_as_if_unchanged key eq kn m cfg i hs hx he hc hu
  obtain ⟨h1, h2⟩ := in_notes cfg hs key _ _ (run_length hs _) h hx
  rw [h1, h2]
  apply List.Sublist.map
  letI : BEq (K × V) := ⟨fun _ _ => true⟩
  haveI : ReflBEq (K × V) := ⟨rfl⟩
  have hp := part_run (key := nkey) (kn := .error .typeError) (m := m) (cfg := cfg) i (noted i key hs) (noted_only_reads cfg i hs key)
  have hs' : (Ch.run (Ch.init nkey (.error .typeError) m cfg) (noted i key hs)).2 = (Window.run nkey (.error .typeError) m cfg Window.init (noted i key hs)).2 :=
    (Ch.Sim.run _ (Ch.Sim.init nkey (.error .typeError) m cfg)).1
  rw [hs'] at hp
  exact (List.sublist_append_left _ _).trans hp

end AgedCh
end S2P
