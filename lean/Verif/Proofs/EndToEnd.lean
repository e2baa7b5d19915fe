import Verif.Proofs.Session
import Verif.Props.Consumer
/- From the items appended to the items received (C63). -/
namespace S2P
open Spec
variable {K V I : Type}

theorem takenAll_append (a b : List (ChOp K V)) (x y : List (Py (Ret V))) (h : x.length = a.length) :
    takenAll (a ++ b) (x ++ y) = takenAll a x ++ takenAll b y := by
  induction a generalizing x with
  | nil => cases x with
    | nil => rfl
    | cons => simp at h
  | cons op a ih => cases x with
    | nil => simp at h
    | cons o x => simp only [List.cons_append, takenAll, ih x (by simpa using h), List.append_assoc]

theorem takenAll_snoc (a : List (ChOp K V)) (op : ChOp K V) (x : List (Py (Ret V))) (out : Py (Ret V)) (h : x.length = a.length) :
    takenAll (a ++ [op]) (x ++ [out]) = takenAll a x ++ taken op out := by
  rw [takenAll_append _ _ _ _ h]; simp [takenAll]

section
variable [LinearOrder K]

theorem unread_sublist (key : V → K) {l l' : List V} (h : l.Sublist l') (c : Option V) : (unread key l c).Sublist (unread key l' c) := by
  cases c with
  | none => exact h
  | some c => exact h.filter _

theorem unread_snoc (key : V → K) (l : List V) (v : V) (c : Option V) : (unread key (l ++ [v]) c).Sublist (unread key l c ++ [v]) := by
  cases c with
  | none => exact List.Sublist.refl _
  | some c =>
    simp only [unread, List.filter_append]
    exact List.Sublist.append_left List.filter_sublist _

variable [BEq V] [ReflBEq V] {key : V → K} {kn : Py (Option K)} {m : Option Nat} {cfg : Nat → Cfg}

/-- The part of a state that matters for what reader `i` will be handed. -/
theorem ch_step (h : Ch.Reach key kn m cfg c) (i : Nat) (op : ChOp K V) (hop : ∀ o, op = .rd i o → consumes (cfg i) o ∨ peeks (cfg i) o) :
    let c' := (c.step op).1
    let out := (c.step op).2
    (∃ v, taken op out = [v] ∧ handed cfg i op out = [] ∧ mayAppend key c.buf.items v = true ∧ c'.buf.items = newest m (c.buf.items ++ [v]) ∧
      (c'.readers i).lastItem = (c.readers i).lastItem) ∨
    (taken op out = [] ∧ handed cfg i op out = [] ∧ (∃ n, c'.buf.items = c.buf.items.drop n) ∧
      (c'.readers i).lastItem = (c.readers i).lastItem) ∨
    (taken op out = [] ∧ c'.buf.items = c.buf.items ∧ handed cfg i op out <+: unread key c.buf.items (c.readers i).lastItem ∧
      (c'.readers i).lastItem = (match (handed cfg i op out).getLast? with | some v => some v | none => (c.readers i).lastItem)) := by
  obtain ⟨s1, s2⟩ := h.sim.step op
  dsimp only
  rw [s2.items, s2.cur i, s1]
  cases op with
  | append v =>
    simp only [Window.step]
    by_cases hm : mayAppend key c.window.items v = true
    · exact .inl ⟨v, by simp [hm, taken], rfl, hm, by simp only [hm]; rfl, by simp only [hm]; rfl⟩
    · exact .inr (.inl ⟨by simp [hm, taken], rfl, ⟨0, by simp only [hm, if_false]; rfl⟩, by simp only [hm, if_false]; rfl⟩)
  | drop n => exact .inr (.inl ⟨rfl, rfl, ⟨_, rfl⟩, rfl⟩)
  | rd j o =>
    refine .inr (.inr ⟨rfl, rfl, ?_⟩)
    by_cases hj : j = i
    · subst hj
      obtain ⟨r1, r2⟩ := rdStep_reads key kn c.window.items (cfg j) (c.window.cur j) o (hop o rfl)
      simp only [Window.step, handed, true_and, if_true]
      cases hcons : consumes (cfg j) o with
      | false => exact ⟨by simp, by simp; exact r2 hcons⟩
      | true =>
        obtain ⟨p1, p2⟩ := r1 hcons
        exact ⟨by simp; exact p1, by simp; exact p2⟩
    · have : ¬ i = j := fun h => hj h.symm
      simp [handed, Window.step, hj, this, Ch.window]

/-- What was handed out so far and what is still unread is, in order, a part of what was accepted. -/
theorem part_step (h : Ch.Reach key kn m cfg c) (i : Nat) (op : ChOp K V) (hop : ∀ o, op = .rd i o → consumes (cfg i) o ∨ peeks (cfg i) o)
    {D A : List V} (hs : (D ++ unread key c.buf.items (c.readers i).lastItem).Sublist A) :
    ((D ++ handed cfg i op (c.step op).2) ++ unread key (c.step op).1.buf.items ((c.step op).1.readers i).lastItem).Sublist
      (A ++ taken op (c.step op).2) := by
  rcases ch_step h i op hop with ⟨v, h1, h2, -, h3, h4⟩ | ⟨h1, h2, ⟨n, h3⟩, h4⟩ | ⟨h1, h2, h3, h4⟩
  · rw [h1, h2, h3, h4, List.append_nil]
    refine ((((unread_sublist key (newest_suffix m _).sublist _).trans (unread_snoc key _ v _)).append_left D)).trans ?_
    rw [← List.append_assoc]
    exact hs.append_right _
  · rw [h1, h2, h3, h4, List.append_nil, List.append_nil]
    exact ((unread_sublist key (List.drop_sublist _ _) _).append_left D).trans hs
  · rw [h1, h2, h4, List.append_nil]
    obtain ⟨q, hq⟩ := h3
    have : unread key c.buf.items (match (handed cfg i op (c.step op).2).getLast? with | some v => some v | none => (c.readers i).lastItem) = q := by
      cases hl : (handed cfg i op (c.step op).2).getLast? with
      | none =>
        have : handed cfg i op (c.step op).2 = [] := by simpa using hl
        rw [this] at hq; simpa using hq.symm
      | some z => exact unread_after (Ch.Sim.strict h.sim) _ _ q z hq.symm hl
    rw [this, List.append_assoc, hq]
    exact hs

/-- State of the completeness invariant: `A` accepted, `D` handed out. -/
structure Whole (key : V → K) (items : List V) (cur : Option V) (A D : List V) : Prop where
  suf : items <:+ A
  cur : cur = D.getLast?
  pre : D <+: A

/-- If everything not handed out yet is still in the buffer, the rest is exactly what is unread. -/
theorem Whole.all {items : List V} {cur : Option V} {A D : List V} (h : Whole key items cur A D) (hA : A.Pairwise (fun v x => key v < key x))
    (hl : A.length ≤ items.length + D.length) : D ++ unread key items cur = A := by
  obtain ⟨hs, hc, hp⟩ := h
  subst hc
  obtain ⟨pre, rfl⟩ := hs
  have hd : items = (pre ++ items).drop pre.length := by simp
  have hpl : pre.length ≤ D.length := by simp at hl; omega
  have hu : unread key items D.getLast? = (pre ++ items).drop D.length := by
    cases hD : D.getLast? with
    | none => simp at hD; subst hD; simp at hpl; subst hpl; simp [unread]
    | some z =>
      have h0 : 0 < D.length := by rw [List.length_pos_iff]; rintro rfl; simp at hD
      have hz : (pre ++ items)[D.length - 1]? = some z := by
        obtain ⟨t, ht⟩ := hp
        rw [← ht, List.getElem?_append_left (by omega), ← List.getLast?_eq_getElem?, hD]
      have := filter_above hA hz pre.length
      rw [← hd] at this
      simp only [unread]
      rw [this]
      congr 1
      omega
  rw [hu]
  obtain ⟨t, ht⟩ := hp
  rw [← ht]; simp

theorem whole_step (h : Ch.Reach key kn m cfg c) (i : Nat) (op : ChOp K V) (hop : ∀ o, op = .rd i o → consumes (cfg i) o ∨ peeks (cfg i) o)
    {D A : List V} (hw : Whole key c.buf.items (c.readers i).lastItem A D) (hA : A.Pairwise (fun v x => key v < key x))
    (hl : A.length ≤ c.buf.items.length + D.length) :
    Whole key (c.step op).1.buf.items ((c.step op).1.readers i).lastItem (A ++ taken op (c.step op).2) (D ++ handed cfg i op (c.step op).2) := by
  have hall := hw.all hA hl
  obtain ⟨w1, w2, w3⟩ := hw
  rcases ch_step h i op hop with ⟨v, h1, h2, -, h3, h4⟩ | ⟨h1, h2, ⟨n, h3⟩, h4⟩ | ⟨h1, h2, h3, h4⟩
  · rw [h1, h2, h3, h4, List.append_nil]
    refine ⟨(newest_suffix _ _).trans ?_, w2, w3.trans (List.prefix_append _ _)⟩
    obtain ⟨t, ht⟩ := w1
    exact ⟨t, by rw [← ht]; simp⟩
  · rw [h1, h2, h3, h4, List.append_nil, List.append_nil]
    exact ⟨(List.drop_suffix _ _).trans w1, w2, w3⟩
  · rw [h1, h2, h4, List.append_nil]
    refine ⟨w1, ?_, ?_⟩
    · rw [List.getLast?_append]
      cases (handed cfg i op (c.step op).2).getLast? with
      | none => simpa using w2
      | some z => rfl
    · rw [← hall]
      exact (List.prefix_append_right_inj D).2 h3

/-- **C63**, one buffer: for every history of appends, drops and reads, what reader `i` was handed and what it can still read is, in order, a part of
what was accepted. -/
theorem part_run (i : Nat) (ops : List (ChOp K V)) (hops : OnlyReads cfg i ops) :
    (delivered cfg i ops (Ch.run (Ch.init key kn m cfg) ops).2 ++
      unread key (Ch.run (Ch.init key kn m cfg) ops).1.buf.items ((Ch.run (Ch.init key kn m cfg) ops).1.readers i).lastItem).Sublist
      (takenAll ops (Ch.run (Ch.init key kn m cfg) ops).2) := by
  induction ops using List.reverseRecOn with
  | nil => exact List.Sublist.refl _
  | append_singleton ops op ih =>
    have hlen := Ch.run_length (Ch.init key kn m cfg) ops
    have ih := ih (fun o ho => hops o (by simp [ho]))
    rw [Ch.run_snoc, delivered_snoc _ _ _ _ _ _ hlen, takenAll_snoc _ _ _ _ hlen]
    exact part_step ⟨ops, rfl⟩ i op (fun o ho => hops o (by simp [ho])) ih

end

theorem Cons.step_readers [LT K] [DecidableLT K] [BEq V] {cfg : Nat → Cfg} {s s' : Cons K V} {a : CAct K V} (ha : a.isReaders = true)
    (h : s.step cfg a = some s') :
    (s'.ch = s.ch ∧ s'.ops = s.ops ∧ s'.outs = s.outs) ∨
    ∃ i o, s'.ch = (s.ch.step (.rd i o)).1 ∧ s'.ops = s.ops ++ [.rd i o] ∧ s'.outs = s.outs ++ [(s.ch.step (.rd i o)).2] := by
  cases a with
  | call op =>
    cases op with
    | rd i o => simp only [Cons.step, Option.some.injEq] at h; subst h; exact .inr ⟨i, o, rfl, rfl, rfl⟩
    | append v => simp [CAct.isReaders] at ha
    | drop n => simp [CAct.isReaders] at ha
  | setStop => simp [CAct.isReaders] at ha
  | callNext i | callIter i | callRead i n p st | leave i =>
    simp only [Cons.step] at h
    split at h
    · injection h with h; subst h; exact .inl ⟨rfl, rfl, rfl⟩
    · simp at h
  | go i =>
    simp only [Cons.step, Cons.go] at h
    split at h
    · simp at h
    · split at h <;> (rename_i hc; rw [Cons.call] at hc; injection hc with h1 h2; subst h1; injection h with h; subst h
                      exact .inr ⟨_, _, rfl, rfl, rfl⟩)
    · split at h <;> (injection h with h; subst h; exact .inl ⟨rfl, rfl, rfl⟩)
    · split at h <;> (rename_i hc; rw [Cons.call] at hc; injection hc with h1 h2; subst h1; injection h with h; subst h
                      exact .inr ⟨_, _, rfl, rfl, rfl⟩)
    · split at h <;> (injection h with h; subst h; exact .inl ⟨rfl, rfl, rfl⟩)
    · split at h <;> (injection h with h; subst h; exact .inl ⟨rfl, rfl, rfl⟩)
    · injection h with h; subst h; exact .inl ⟨rfl, rfl, rfl⟩
    · injection h with h; subst h; exact .inl ⟨rfl, rfl, rfl⟩
    · split at h <;> (rename_i hc; rw [Cons.call] at hc; injection hc with h1 h2; subst h1; injection h with h; subst h
                      exact .inr ⟨_, _, rfl, rfl, rfl⟩)
    · split at h <;> (injection h with h; subst h; exact .inl ⟨rfl, rfl, rfl⟩)
    · injection h with h; subst h; exact .inl ⟨rfl, rfl, rfl⟩

/-- What a step adds to the buffer. -/
def Cons.takes [LT K] [DecidableLT K] [BEq V] (c : Cons K V) : CAct K V → List V
  | .call op => taken op (c.ch.step op).2
  | _ => []

namespace SB
variable [LT K] [DecidableLT K] [BEq V] {cfg : SBCfg K V} {s s' : SB K V I} {a : SBAct K V I}

/-- Reader `i` of buffer `b` is used by one consumer only, which does not peek, and nobody attaches another reader under its name. -/
def OneUser (b i : Nat) : SBAct K V I → Prop
  | .rd b' a => b' = b → S2P.OneUser i a
  | .attach _ _ j => j ≠ i
  | _ => True

/-- Which step of the consumer machine of buffer `b` a step of the stream buffer is, and what it adds to the buffer. -/
inductive ViewStep (cfg : SBCfg K V) (b i : Nat) (s s' : SB K V I) : Cons K V → Prop
  | same (c) (hv : s.view b = some c) (hl : storedIn b s'.log = storedIn b s.log) : ViewStep cfg b i s s' c
  | step (c c' a) (hv : s.view b = some c) (hs : c.step cfg.rdCfg a = some c') (ha : S2P.OneUser i a)
      (hl : storedIn b s'.log = storedIn b s.log ++ c.takes a)
      (hr : a.isReaders = true ∨ a = .setStop ∨ ∃ op, a = .call op) : ViewStep cfg b i s s' c'
  | new (hv : s.view b = none) (f) (hl : storedIn b s'.log = storedIn b s.log) :
      ViewStep cfg b i s s' { Cons.init cfg.key cfg.keyNone cfg.maxlen cfg.rdCfg with stopped := f }

theorem view_step' (h : s.Inv) (b i : Nat) (hu : OneUser b i a) (hs : s.step cfg a = some s') (c' : Cons K V) (hv : s'.view b = some c') :
    ViewStep cfg b i s s' c' := by
  have hst := step_to hs
  clear hs
  have hset : ∀ (e : Nat) (t : SB K V I), t.view b = some c' → (∀ b, t.buf b = s.buf b) → (∀ j, t.flag j = if j = e then true else s.flag j) →
      storedIn b t.log = storedIn b s.log → ViewStep cfg b i s t c' := by
    intro e t hv h1 h2 h3
    simp only [view, h1, Option.map_eq_some_iff] at hv
    obtain ⟨x, hx, rfl⟩ := hv
    rw [h2]
    split
    · exact .step { x.cons with stopped := s.flag x.evt } _ .setStop (by simp only [view, hx, Option.map_some]) rfl trivial
        (by simpa [Cons.takes] using h3) (.inr (.inl rfl))
    · exact .same _ (by simp only [view, hx, Option.map_some]) h3
  have hsame : ∀ (t : SB K V I), t.view b = some c' → (∀ b, t.buf b = s.buf b) → (∀ j, t.flag j = s.flag j) →
      storedIn b t.log = storedIn b s.log → ViewStep cfg b i s t c' := by
    intro t hv h1 h2 h3
    simp only [view, h1, h2] at hv
    exact .same c' hv h3
  have hcall : ∀ (t : SB K V I) (b' : Nat) (x : Sess K V I) (op : ChOp K V), t.view b = some c' → s.buf b' = some x →
      (∀ j, t.buf j = if j = b' then some { x with cons := (x.cons.call op).1 } else s.buf j) → (∀ j, t.flag j = s.flag j) →
      S2P.OneUser i (.call op : CAct K V) →
      storedIn b t.log = storedIn b s.log ++ (if b' = b then taken op (x.cons.call op).2 else []) → ViewStep cfg b i s t c' := by
    intro t b' x op hv hx h1 h2 h3 h4
    simp only [view, h1, h2] at hv
    by_cases hb : b = b'
    · subst hb
      simp only [if_true, Option.map_some, Option.some.injEq] at hv h4
      exact .step { x.cons with stopped := s.flag x.evt } _ (.call op) (by simp only [view, hx, Option.map_some]) (by rw [← hv]; rfl) h3 h4
        (.inr (.inr ⟨op, rfl⟩))
    · rw [if_neg hb] at hv
      rw [if_neg (Ne.symm hb), List.append_nil] at h4
      exact .same c' hv h4
  cases hst with
  | set1 e _ _ | set2 e _ _ => exact hset e _ hv (fun _ => rfl) (fun _ => rfl) (by simp [storedIn, setEvent, say])
  | stop e _ | fin2 _ e _ _ => exact hset e _ hv (fun _ => rfl) (fun _ => rfl) (by simp [storedIn, setEvent, say, setThr])
  | stored _ b' v x r _ hx hr =>
    refine hcall _ b' x _ hv hx (fun _ => rfl) (fun _ => rfl) trivial ?_
    rw [hr]
    simp only [say, setThr, setBuf, storedIn_append, taken]
    simp only [storedIn, List.filterMap_cons, List.filterMap_nil]
    split <;> simp_all
  | refused _ b' v x r _ hx hr =>
    refine hcall _ b' x _ hv hx (fun _ => rfl) (fun _ => rfl) trivial ?_
    rw [hr]
    simp [say, setThr, setBuf, storedIn, taken]
  | drop _ _ b' x _ hx =>
    refine hcall _ b' x _ hv hx (fun _ => rfl) (fun _ => rfl) trivial ?_
    simp [say, setThr, setBuf, setDrop, storedIn, taken]
  | attach _ _ j b' _ x' _ _ _ hx' op _ =>
    refine hcall _ b' x' _ hv hx' (fun _ => rfl) (fun _ => rfl) hu ?_
    simp [say, setThr, setBuf, storedIn, taken]
  | bufOk info e hp he =>
    by_cases hb : b = s.n - 1
    · subst hb
      simp only [view, say, setBuf, if_true, Option.map_some, newSess, Option.some.injEq] at hv
      subst hv
      refine .new ?_ _ (by simp [say, setThr, setBuf, storedIn])
      have := h.ph
      rw [hp] at this
      simp only [PhaseOk] at this
      simp [view, this.2.2.2.1]
    · refine .same c' ?_ (by simp [say, setThr, setBuf, storedIn])
      simpa only [view, say, setBuf, if_neg hb] using hv
  | rd b' a' x c ha hx hs =>
    by_cases hb : b = b'
    · subst hb
      refine .step { x.cons with stopped := s.flag x.evt } _ a' (by simp only [view, hx, Option.map_some]) ?_ (hu rfl) ?_ (.inl ha)
      · simp only [view, setBuf, if_true, Option.map_some, Option.some.injEq] at hv
        have := Cons.step_stopped ha hs
        rw [hs, ← hv]
        simp only at this
        simp only [← this]
      · cases a' with
        | call op => cases op with
          | rd i o => simp [setBuf, taken, Cons.takes]
          | append v => simp [CAct.isReaders] at ha
          | drop n => simp [CAct.isReaders] at ha
        | _ => simp [setBuf, Cons.takes]
    · refine .same c' ?_ (by simp [setBuf])
      simpa only [view, setBuf, if_neg hb] using hv
  | _ => exact hsame _ hv (fun _ => rfl) (fun _ => rfl) (by simp [storedIn, setThr, say, setNext, setDrop, setInfo])

end SB
end S2P
