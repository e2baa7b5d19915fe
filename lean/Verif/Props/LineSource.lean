import Verif.Model.LineSource
import Verif.Props.Broken
/-
C112, C113: the `LineSourceReader` of the package documentation.
-/
namespace S2P
open Spec
variable {σ K V I : Type}

namespace ObjSB
section
variable [LinearOrder K] [BEq V] [ReflBEq V] {o : SrcObj σ K V I} {cfg : SBCfg K V} {s s' : ObjSB σ K V I} {x : ObjAct K V I} {xs : List (ObjAct K V I)}

/-- An object that counts its calls of `open`. -/
structure Counts (o : SrcObj σ K V I) (c : σ → Nat) : Prop where
  open' : ∀ x, c (o.open' x).2 = c x + 1
  read : ∀ x, c (o.read x).2 = c x
  close : ∀ x, c (o.close x).2 = c x

structure OpensAt (c : σ → Nat) (s : ObjSB σ K V I) : Prop where
  count : c s.st + (if s.sb.start = some .mkEvt ∨ s.sb.start = some .opening then 1 else 0) = s.sb.n
  at' : ∀ t st, s.opened t = some st → c st = t + 1

omit [ReflBEq V] in
theorem OpensAt.step {c : σ → Nat} (hc : Counts o c) (h : OpensAt c s) (hb : Below o cfg s s' x) : OpensAt c s' := by
  obtain ⟨h1, h2⟩ := h
  have h3 : ∀ t st, s'.opened t = some st → c st = t + 1 := by
    intro t st ht
    rcases opened_step hb t st ht with ht | ⟨-, k1, k2, k3⟩
    · exact h2 t st ht
    · have := hc.open' s.st
      rw [k3] at this
      rw [k2] at h1
      simp at h1 this ⊢
      omega
  refine ⟨?_, h3⟩
  cases hb with
  | other a hx ha hk hr hs e1 e2 =>
    rw [e1]
    refine opens_count hs _ ⟨?_, ?_⟩ h1 <;> (rintro rfl; simp [SBAct.noCall] at ha)
  | openOk hx hs h0 e2 =>
    have hop := hc.open' s.st
    rw [h0] at hop
    dsimp only at hop
    have hst := SB.step_to hs
    clear hs
    generalize s'.sb = y at hst
    cases hst
    rename_i hst
    rw [hst] at h1
    simp [SB.say] at h1 ⊢
    omega
  | openRaise hx e hs h0 e2 =>
    have hop := hc.open' s.st
    rw [h0] at hop
    dsimp only at hop
    have hst := SB.step_to hs
    clear hs
    generalize s'.sb = y at hst
    cases hst
    rename_i hst
    rw [hst] at h1
    simp [SB.say] at h1 ⊢
    omega
  | bufOk hx i hs h0 e1 e2 => rw [e1]; exact opens_count hs _ (by simp) h1
  | bufRaise hx e hs h0 e1 e2 => rw [e1]; exact opens_count hs _ (by simp) h1
  | readOk t hx r hs h0 e2 =>
    have := hc.read s.st
    rw [h0] at this
    dsimp only at this
    rw [this]; exact opens_count hs _ (by simp) h1
  | readRaise t hx e hs h0 e2 =>
    have := hc.read s.st
    rw [h0] at this
    dsimp only at this
    rw [this]; exact opens_count hs _ (by simp) h1
  | close t hx ok hs h0 hok e2 =>
    have := hc.close s.st
    rw [h0] at this
    rw [this]; exact opens_count hs _ (by simp) h1

theorem opensAt {c : σ → Nat} (hc : Counts o c) {st : σ} (h0 : c st = 0) (he : (ObjSB.init st).exec o cfg xs = some s)
    (hcalm : (ObjSB.init st : ObjSB σ K V I).Calm o cfg xs) : OpensAt c s := by
  refine exec_ind_settled (P := fun s : ObjSB σ K V I => OpensAt c s) (fun _ _ _ _ h hs _ => h.step hc (below hs)) ⟨?_, ?_⟩ he (calm_settled he hcalm)
  · simp [ObjSB.init, SB.init, h0]
  · intro t st h; simp [ObjSB.init] at h

end
end ObjSB

namespace Spec
variable {L : Type}

/-- What the `j`-th `readline()` of a file gives: its `j`-th line (or the exception raised in reading it), after the last one the empty line. -/
def lineAt (eof : L) (l : List (Py L)) (j : Nat) : Py L := l[j]?.getD (.ok eof)

end Spec

namespace LineSrc
variable {L : Type} {d : Disk L} {eof : L}

theorem counts (d : Disk L) (eof : L) : ObjSB.Counts (lines d eof) St.opens := by
  refine ⟨fun x => ?_, fun x => ?_, fun x => ?_⟩
  · simp only [lines, open']; split <;> rfl
  · simp only [lines, read]; split <;> rfl
  · simp only [lines, close]; split <;> rfl

theorem answers_lines (n : Nat) : ∀ (l : List (Py L)) (k opens : Nat),
    (∀ j e, j + 1 < n → (answers (read eof) ⟨k, .opened l, opens⟩ n)[j]? ≠ some (.error e)) →
    answers (read eof) ⟨k, .opened l, opens⟩ n = (List.range n).map fun (j : Nat) => ((lineAt eof l j).map fun x => (k + j, x)).map some := by
  induction n with
  | zero => intros; rfl
  | succ n ih =>
    intro l k opens h
    rw [answers, List.range_succ_eq_map, List.map_cons, List.map_map]
    have hshift : ∀ l' : List (Py L), (∀ j, lineAt eof l (j + 1) = lineAt eof l' j) →
        ((fun (j : Nat) => ((lineAt eof l j).map fun x => (k + j, x)).map some) ∘ Nat.succ) =
          fun (j : Nat) => ((lineAt eof l' j).map fun x => (k + 1 + j, x)).map some := by
      intro l' hl'
      funext j
      simp only [Function.comp, Nat.succ_eq_add_one, hl', show k + (j + 1) = k + 1 + j by omega]
    cases l with
    | nil =>
      rw [hshift [] fun j => rfl]
      congr 1
      refine ih [] (k + 1) opens fun j e hj => ?_
      exact h (j + 1) e (by omega)
    | cons p l =>
      cases p with
      | ok x =>
        rw [hshift l fun j => rfl]
        congr 1
        refine ih l (k + 1) opens fun j e hj => ?_
        exact h (j + 1) e (by omega)
      | error e =>
        cases n with
        | zero => rfl
        | succ n => exact absurd rfl (h 0 e (by omega))

theorem read_count (s : St L) : s.lineCount ≤ (read eof s).2.lineCount ∧
    ∀ v, (read eof s).1 = .ok (some v) → v.1 = s.lineCount ∧ (read eof s).2.lineCount = s.lineCount + 1 := by
  unfold read
  split <;> simp

theorem numbers (n : Nat) : ∀ s : St L, (∀ v ∈ dataOf (answers (read eof) s n), s.lineCount ≤ v.1) ∧
    (dataOf (answers (read eof) s n)).Pairwise fun v u => v.1 < u.1 := by
  induction n with
  | zero => intro s; simp [answers, dataOf]
  | succ n ih =>
    intro s
    have hr := read_count (eof := eof) s
    obtain ⟨i1, i2⟩ := ih (read eof s).2
    rw [answers]
    cases ha : (read eof s).1 with
    | error e =>
      simp only [dataOf, List.filterMap_cons] at i1 i2 ⊢
      exact ⟨fun v hv => le_trans hr.1 (i1 v hv), i2⟩
    | ok r =>
      cases r with
      | none =>
        simp only [dataOf, List.filterMap_cons] at i1 i2 ⊢
        exact ⟨fun v hv => le_trans hr.1 (i1 v hv), i2⟩
      | some v =>
        obtain ⟨e1, e2⟩ := hr.2 v ha
        simp only [dataOf, List.filterMap_cons] at i1 i2 ⊢
        refine ⟨fun u hu => ?_, List.pairwise_cons.2 ⟨fun u hu => ?_, i2⟩⟩
        · rcases List.mem_cons.1 hu with rfl | hu
          · exact le_of_eq e1.symm
          · exact le_trans hr.1 (i1 u hu)
        · have := i1 u hu
          omega

theorem rising (d : Disk L) (eof : L) : ObjSB.Rising (lines d eof) := by
  refine ⟨fun x st n v _ _ => ⟨_, rfl⟩, fun x st n _ => ?_⟩
  refine (numbers (eof := eof) n st).2.imp fun {v u} h k l hk hl => ?_
  simp only [lines, Except.ok.injEq] at hk hl
  subst hk hl
  exact h

variable [BEq (Nat × L)] [ReflBEq (Nat × L)] {cfg : SBCfg Nat (Nat × L)} {xs : List (ObjAct Nat (Nat × L) Unit)} {s : ObjSB (St L) Nat (Nat × L) Unit}

/-- **C112** what a session of the documented `LineSourceReader` stores: `(0, line 0), (1, line 1), ...` of the file as its `open()` found it, every line once,
in order, none left out; after the last line numbered empty lines; and if reading a line raises, all lines before it. Every setting, every restart
after the end of the earlier session. -/
theorem C112_lines (hf : ObjSB.Fits (lines d eof) cfg) (he : (ObjSB.init new).exec (lines d eof) cfg xs = some s)
    (hcalm : (ObjSB.init new : ObjSB (St L) Nat (Nat × L) Unit).Calm (lines d eof) cfg xs)
    (b : Nat) (hb : Ev.launched b ∈ s.sb.log) :
    ∃ l n, d b = .ok l ∧
      (storedIn b s.sb.log ++ (s.sb.thr b).inHand).map .ok = (List.range n).map (fun j => (lineAt eof l j).map fun x => (j, x)) ∧
      ∀ e, Ev.readRaised b e ∈ s.sb.log → (s.sb.thr b).inHand = [] ∧ lineAt eof l n = .error e := by
  obtain ⟨st0, hst0, ⟨x0, hx0⟩, -⟩ := ObjSB.broken (rising d eof) hf he hcalm b hb
  have ho := opensAt' he hcalm
  have hx : open' d x0 = (.ok (), st0) := hx0
  simp only [open'] at hx
  split at hx
  · simp at hx
  rename_i l hl
  simp only [Prod.mk.injEq, true_and] at hx
  subst hx
  have hop : x0.opens = b := by have := ho.at' b _ hst0; simpa using this
  rw [hop] at hl
  obtain ⟨n, h1, h2⟩ := ObjSB.torn (rising d eof) hf he hcalm b hb hst0 (fun j => (lineAt eof l j).map fun x => (j, x)) fun n hn => by
    have := answers_lines n l 0 _ hn
    simp only [Nat.zero_add] at this
    exact this
  refine ⟨l, n, hl, h1, fun e hev => ⟨(h2 e hev).1, ?_⟩⟩
  have := (h2 e hev).2
  cases ho : lineAt eof l n <;> rw [ho] at this <;> simp_all [Except.map]
where opensAt' (he : (ObjSB.init new).exec (lines d eof) cfg xs = some s)
    (hcalm : (ObjSB.init new : ObjSB (St L) Nat (Nat × L) Unit).Calm (lines d eof) cfg xs) : ObjSB.OpensAt St.opens s :=
  ObjSB.opensAt (counts d eof) rfl he hcalm

/-- **C112** and with `maxlen=None`, as documented, this is what a consumer has got, can read, and gets next. -/
theorem C112_consumer (hf : ObjSB.Fits (lines d eof) cfg) (hm : cfg.maxlen = none) (hd : cfg.autoDrop = true) (b i : Nat) (hpk : (cfg.rdCfg i).peek = false)
    (he : (ObjSB.init new).exec (lines d eof) cfg xs = some s)
    (hcalm : (ObjSB.init new : ObjSB (St L) Nat (Nat × L) Unit).Calm (lines d eof) cfg xs)
    (hu : ∀ a, .other a ∈ xs → SB.OneUser b i a) (hb : Ev.launched b ∈ s.sb.log)
    (c : Cons Nat (Nat × L)) (hv : s.sb.view b = some c) :
    ∃ l n, d b = .ok l ∧
      (received c i ++ unreadOf c.ch i ++ (s.sb.thr b).inHand).map .ok = (List.range n).map (fun j => (lineAt eof l j).map fun x => (j, x)) ∧
      ∀ e, Ev.readRaised b e ∈ s.sb.log → (s.sb.thr b).inHand = [] ∧ lineAt eof l n = .error e := by
  obtain ⟨bs, h1, h2, h3⟩ := ObjSB.real_one he (ObjSB.calm_settled he hcalm) hu
  rw [SB.C63_unbounded hm hd b i hpk h3 h1 c hv]
  exact C112_lines hf he hcalm b hb

end LineSrc
end S2P
