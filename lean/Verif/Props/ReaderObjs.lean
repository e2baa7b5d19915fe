import Verif.Model.ReaderObjs
import Verif.Props.SBWitness
/-
C62: which session a reader object belongs to.
-/
namespace S2P
open Spec
namespace RObjs
variable {K V I : Type} [LinearOrder K] [BEq V] {cfg : SBCfg K V} {s s' : RObjs K V I} {as : List (RObjAct K V I)}

theorem made_step {t t' : SB K V I} {a : SBAct K V I} (hs : t.step cfg a = some t')
    (h : ∀ b x, t.buf b = some x → Ev.bufferMade b x.info ∈ t.log) :
    (∀ b x, t'.buf b = some x → Ev.bufferMade b x.info ∈ t'.log) ∧ (∀ b, (t.buf b).isSome → (t'.buf b).isSome) ∧
    (∀ e ∈ t.log, e ∈ t'.log) := by
  have hst := SB.step_to hs
  clear hs
  cases hst
  all_goals try simp only [SB.say, SB.setThr, SB.setBuf, SB.setEvent, SB.setNext, SB.setDrop, SB.setInfo, SB.newSess, SB.running] at *
  all_goals refine ⟨?_, ?_, ?_⟩
  all_goals first
    | exact h
    | exact fun _ h => h
    | grind

/-- The reader that the `r`-th reader made is, is what it was made as: its info is that of the session it reads. -/
structure Ok (cfg : SBCfg K V) (att : Nat → Prop) (s : RObjs K V I) : Prop where
  real : ∃ bs, SB.init.exec cfg bs = some s.sb
  made : ∀ b x, s.sb.buf b = some x → Ev.bufferMade b x.info ∈ s.sb.log
  has : ∀ o ∈ s.rds, o.evt = o.buf ∧ (s.sb.buf o.buf).isSome
  info : ∀ r o, s.rds[r]? = some o → ¬ att r → Ev.bufferMade o.buf o.info ∈ s.sb.log

theorem Ok.step {att : Nat → Prop} {a : RObjAct K V I} (h : s.Ok cfg att) (ha : ∀ r i j, a = .attach r i j → att r) (hs : s.step cfg a = some s') :
    s'.Ok cfg att := by
  obtain ⟨bs, he⟩ := h.real
  have hi := SB.inv_exec he
  have key : ∀ x y, s.sb.step cfg x = some y → (∃ bs, SB.init.exec cfg bs = some y) ∧ (∀ b z, y.buf b = some z → Ev.bufferMade b z.info ∈ y.log) ∧
      (∀ b, (s.sb.buf b).isSome → (y.buf b).isSome) ∧ ∀ e ∈ s.sb.log, e ∈ y.log := by
    intro x y hxy
    refine ⟨⟨bs ++ [x], ?_⟩, made_step hxy h.made⟩
    rw [SB.exec_append, he]; simp [SB.exec, hxy]
  unfold RObjs.step at hs
  cases a with
  | mkReader =>
    dsimp only at hs
    obtain ⟨y, hy, rfl⟩ := Option.map_eq_some_iff.1 hs
    obtain ⟨k1, k2, k3, k4⟩ := key _ _ hy
    cases hsb : s.sb.sourceBuffer with
    | none => exact ⟨k1, k2, fun o ho => ⟨(h.has o ho).1, k3 _ (h.has o ho).2⟩, fun r o ho hr => k4 _ (h.info r o ho hr)⟩
    | some b =>
      obtain ⟨z, hz⟩ := Option.isSome_iff_exists.1 (hi.sb b hsb).1
      simp only [hz]
      refine ⟨k1, k2, fun o ho => ?_, fun r o ho hr => ?_⟩
      · rcases List.mem_append.1 ho with ho | ho
        · exact ⟨(h.has o ho).1, k3 _ (h.has o ho).2⟩
        · rw [List.mem_singleton.1 ho]
          exact ⟨hi.evt b z hz, k3 b (by simp [hz])⟩
      · dsimp only at ho
        by_cases hlt : r < s.rds.length
        · rw [List.getElem?_append_left hlt] at ho
          exact k4 _ (h.info r o ho hr)
        · rw [List.getElem?_append_right (by omega)] at ho
          have : o = { buf := b, evt := z.evt, info := z.info } := List.mem_singleton.1 (List.mem_of_getElem? ho)
          subst this
          exact k4 _ (h.made b z hz)
  | attach r i j =>
    dsimp only at hs
    split at hs
    · simp at hs
    · rename_i o0 ho0
      obtain ⟨y, hy, rfl⟩ := Option.map_eq_some_iff.1 hs
      obtain ⟨k1, k2, k3, k4⟩ := key _ _ hy
      cases hsb : s.sb.sourceBuffer with
      | none => exact ⟨k1, k2, fun o ho => ⟨(h.has o ho).1, k3 _ (h.has o ho).2⟩, fun r o ho hr => k4 _ (h.info r o ho hr)⟩
      | some b =>
        obtain ⟨z, hz⟩ := Option.isSome_iff_exists.1 (hi.sb b hsb).1
        simp only [hz]
        refine ⟨k1, k2, fun o ho => ?_, fun r' o ho hr => ?_⟩
        · rcases List.mem_or_eq_of_mem_set ho with ho | rfl
          · exact ⟨(h.has o ho).1, k3 _ (h.has o ho).2⟩
          · exact ⟨hi.evt b z hz, k3 b (by simp [hz])⟩
        · have hne : r ≠ r' := by rintro rfl; exact hr (ha _ i j rfl)
          dsimp only at ho
          rw [List.getElem?_set_ne hne] at ho
          exact k4 _ (h.info r' o ho hr)
  | sb a =>
    dsimp only at hs
    split at hs
    · obtain ⟨y, hy, rfl⟩ := Option.map_eq_some_iff.1 hs
      obtain ⟨k1, k2, k3, k4⟩ := key _ _ hy
      exact ⟨k1, k2, fun o ho => ⟨(h.has o ho).1, k3 _ (h.has o ho).2⟩, fun r o ho hr => k4 _ (h.info r o ho hr)⟩
    · simp at hs

theorem ok (he : init.exec cfg as = some s) : s.Ok cfg (fun r => ∃ i j, .attach r i j ∈ as) := by
  have key : ∀ (bs : List (RObjAct K V I)) (s0 : RObjs K V I), (∀ a ∈ bs, a ∈ as) → s0.Ok cfg (fun r => ∃ i j, .attach r i j ∈ as) →
      s0.exec cfg bs = some s → s.Ok cfg (fun r => ∃ i j, .attach r i j ∈ as) := by
    intro bs
    induction bs with
    | nil => intro s0 _ h he; simp only [exec, Option.some.injEq] at he; exact he ▸ h
    | cons a bs ih =>
      intro s0 hm h he
      simp only [exec] at he
      split at he
      · exact ih _ (fun a h => hm a (List.mem_cons_of_mem _ h)) (h.step (fun r i j hr => ⟨i, j, hr ▸ hm a List.mem_cons_self⟩) ‹_›) he
      · simp at he
  exact key as init (fun _ h => h) ⟨⟨[], rfl⟩, fun b x h => by simp [init, SB.init] at h, fun o h => by simp [init] at h,
    fun r o h => by simp [init] at h⟩ he

/-- **C62** (partial: readers that were never attached): a reader's `source_reader_info` is the info that the source reported when the session that the reader
reads was opened, and no other. Every execution, every number of sessions. Missing: attached readers, see `C62_refuted`. -/
theorem C62_info_partial (he : init.exec cfg as = some s) (r : Nat) (o : RObj I) (ho : s.rds[r]? = some o) (hna : ∀ i j, .attach r i j ∉ as) :
    Ev.bufferMade o.buf o.info ∈ s.sb.log ∧ ∀ i, Ev.bufferMade o.buf i ∈ s.sb.log → i = o.info := by
  have h := ok he
  have h1 := h.info r o ho (by rintro ⟨i, j, hij⟩; exact hna i j hij)
  obtain ⟨bs, hbs⟩ := h.real
  exact ⟨h1, fun i hi => SB.C58_info_once hbs o.buf i o.info hi h1⟩

/-- Attached or not, a reader has the stop event of the session whose items it reads. -/
theorem C62_stop_event (he : init.exec cfg as = some s) (o : RObj I) (ho : o ∈ s.rds) : ∃ x, s.sb.buf o.buf = some x ∧ o.evt = x.evt := by
  have h := ok he
  obtain ⟨bs, hbs⟩ := h.real
  obtain ⟨h1, h2⟩ := h.has o ho
  obtain ⟨x, hx⟩ := Option.isSome_iff_exists.1 h2
  exact ⟨x, hx, by rw [h1, (SB.inv_exec hbs).evt _ x hx]⟩

/-- **C62** is false for attached readers: whatever the reader's info was before, it keeps it. -/
theorem C62_refuted (he : init.exec cfg as = some s) (r i j b : Nat) (o : RObj I) (ho : s.rds[r]? = some o) (hb : s.sb.sourceBuffer = some b)
    (hs : s.step cfg (.attach r i j) = some s') : ∃ o', s'.rds[r]? = some o' ∧ o'.buf = b ∧ o'.info = o.info := by
  obtain ⟨bs, hbs⟩ := (ok he).real
  obtain ⟨z, hz⟩ := Option.isSome_iff_exists.1 ((SB.inv_exec hbs).sb b hb).1
  have hlt : r < s.rds.length := by
    by_contra hlt
    rw [List.getElem?_eq_none (by omega)] at ho; simp at ho
  simp only [RObjs.step, ho] at hs
  obtain ⟨y, hy, rfl⟩ := Option.map_eq_some_iff.1 hs
  simp only [hb, hz]
  exact ⟨_, List.getElem?_set_self hlt, rfl, rfl⟩

/-- ... for instance: the source reports 1 at its first open and 2 at its second; the reader of the first session, attached to the second, says 1. -/
theorem C62_refuted_witness : ∃ (as : List (RObjAct Nat Nat Nat)) (s : RObjs Nat Nat Nat) (o : RObj Nat),
    init.exec (SB.mkCfg (some 10) true) as = some s ∧ s.rds[0]? = some o ∧ Ev.bufferMade o.buf 2 ∈ s.sb.log ∧ o.info = 1 := by
  refine ⟨(SB.wStart 1).map .sb ++ [.mkReader, .sb .stop, .sb .stopEnd, .sb (.thr 0), .sb (.thr 0), .sb (.close 0 true)] ++ (SB.wStart 2).map .sb ++
    [.attach 0 0 0], _, _, rfl, rfl, by decide, rfl⟩

/-- Two sessions and a reader of each, none attached, meet the hypotheses of `C62_info_partial`. -/
example : ∃ s : RObjs Nat Nat Nat, init.exec (SB.mkCfg (some 10) true) ((SB.wStart 1).map .sb ++ [.mkReader, .sb .stop, .sb .stopEnd] ++
    (SB.wStart 2).map .sb ++ [.mkReader]) = some s ∧ s.rds.map (fun o => (o.buf, o.info)) = [(0, 1), (1, 2)] := ⟨_, rfl, rfl⟩

end RObjs
end S2P
