import Verif.Model.Swap
import Verif.Spec.Swap
import Verif.Props.EndToEnd
/-
C177: another source is assigned to `source_reader` while the stream runs.
-/
namespace S2P.WSB
open Spec SB
variable {K V I : Type}

/-- What happens but for the assignments and looks. -/
def others (as : List (WAct K V I)) : List (SBAct K V I) := as.filterMap fun | .act a => some a | _ => none

section
variable [LT K] [DecidableLT K] [BEq V] {cfg : SBCfg K V} {s s' : WSB K V I} {as : List (WAct K V I)}

theorem exec_append (s : WSB K V I) (as bs : List (WAct K V I)) : s.exec cfg (as ++ bs) = (s.exec cfg as).bind (·.exec cfg bs) := by
  induction as generalizing s with
  | nil => rfl
  | cons a as ih =>
    simp only [List.cons_append, exec]
    cases s.step cfg a with
    | none => rfl
    | some t => exact ih t

theorem exec_ind {P : WSB K V I → Prop} {Q : WAct K V I → Prop} (hstep : ∀ s a s', P s → Q a → s.step cfg a = some s' → P s') (h : P s)
    (hq : ∀ a ∈ as, Q a) (he : s.exec cfg as = some s') : P s' := by
  induction as generalizing s with
  | nil => simp only [exec, Option.some.injEq] at he; exact he ▸ h
  | cons a as ih =>
    simp only [exec] at he
    split at he
    · exact ih (hstep _ _ _ h (hq a (by simp)) ‹_›) (fun a ha => hq a (by simp [ha])) he
    · simp at he

/-- A step of the stream buffer adds to the log the call on the source that it ends, if any, and no other. -/
theorem newCalls {a : SBAct K V I} {x : SB K V I} (hs : s.sb.step cfg a = some x) :
    x.log.filter onSource = s.sb.log.filter onSource ++ ((s.target a).map Prod.snd).toList := by
  have h := step_to hs
  generalize hb : s.sb = b at h ⊢
  cases h <;> simp [target, hb, say, setThr, setBuf, setEvent, setNext, setDrop, setInfo, onSource]

theorem act_cases {a : SBAct K V I} (hs : s.step cfg (.act a) = some s') :
    ∃ x, s.sb.step cfg a = some x ∧ s'.sb = x ∧ s'.src = s.src ∧
      ((s.target a = none ∧ s' = { s with sb := x }) ∨
       ∃ o e, s.target a = some (some o, e) ∧ s' = { s.release a with sb := x, calls := s.calls ++ [(o, e)] }) := by
  simp only [step] at hs
  split at hs
  · obtain ⟨x, h1, rfl⟩ := Option.map_eq_some_iff.1 hs
    exact ⟨x, h1, rfl, rfl, .inl ⟨‹_›, rfl⟩⟩
  · simp at hs
  · obtain ⟨x, h1, rfl⟩ := Option.map_eq_some_iff.1 hs
    exact ⟨x, h1, rfl, by cases a <;> rfl, .inr ⟨_, _, ‹_›, rfl⟩⟩

theorem look_cases {t : Nat} (hs : s.step cfg (.look t) = some s') :
    s.held t = none ∧ s' = { s with held := fun j => if j = t then some s.src else s.held j } := by
  simp only [step] at hs
  split at hs
  · exact ⟨‹_›, (Option.some.inj hs).symm⟩
  · exact ⟨‹_›, (Option.some.inj hs).symm⟩
  · simp at hs

theorem lookOpen_cases (hs : s.step cfg .lookOpen = some s') : s.sb.start = some .opening ∧ s' = { s with heldOpen := some s.src } := by
  simp only [step] at hs
  split at hs
  · exact ⟨(‹_ ∧ _›).1, (Option.some.inj hs).symm⟩
  · simp at hs

theorem exec_sb (he : s.exec cfg as = some s') : s.sb.exec cfg (others as) = some s'.sb := by
  induction as generalizing s with
  | nil => simp only [exec, Option.some.injEq] at he; subst he; rfl
  | cons a as ih =>
    simp only [exec] at he
    split at he
    · rename_i s1 h1
      have := ih he
      cases a with
      | assign o => simp only [step, Option.some.injEq] at h1; subst h1; exact this
      | look t => obtain ⟨-, rfl⟩ := look_cases h1; exact this
      | lookOpen => obtain ⟨-, rfl⟩ := lookOpen_cases h1; exact this
      | act a =>
        obtain ⟨x, h2, h3, -⟩ := act_cases h1
        show (match s.sb.step cfg a with | some s' => s'.exec cfg (others as) | none => none) = _
        rw [h2, ← h3]
        exact this
    · simp at he

/-- **C177** for everybody but the sources it is as if there was one: the stream buffer does what it does in the execution without the assignments, with one source that
answers what the several ones answer. -/
theorem C177_as_if (o : Nat) (he : (init o).exec cfg as = some s) :
    SB.init.exec cfg (others as) = some s.sb ∧ s.calls.map Prod.snd = s.sb.log.filter onSource := by
  refine ⟨exec_sb he, ?_⟩
  refine exec_ind (Q := fun _ => True) (P := fun s : WSB K V I => s.calls.map Prod.snd = s.sb.log.filter onSource) ?_ rfl (fun _ _ => trivial) he
  intro s a s' h _ hs
  cases a with
  | assign o => simp only [step, Option.some.injEq] at hs; subst hs; exact h
  | look t => obtain ⟨-, rfl⟩ := look_cases hs; exact h
  | lookOpen => obtain ⟨-, rfl⟩ := lookOpen_cases hs; exact h
  | act a =>
    obtain ⟨x, h2, -, -, ⟨h3, rfl⟩ | ⟨o, e, h3, rfl⟩⟩ := act_cases hs
    · rw [newCalls h2, h3]; simpa using h
    · simp only [List.map_append, List.map_cons, List.map_nil]
      rw [newCalls h2, h3, h]; rfl

/-- **C177** a source that is not assigned any more, and on which no call is in progress, is left alone for ever: if it is open, it stays open, unless it is assigned
again. -/
theorem C177_left_alone {o : Nat} {s1 s2 : WSB K V I} (hsrc : s1.src ≠ o) (hheld : ∀ t, s1.held t ≠ some o) (hopen : s1.heldOpen ≠ some o)
    (hno : ∀ a ∈ as, a ≠ .assign o) (he : s1.exec cfg as = some s2) : callsOn o s2.calls = callsOn o s1.calls := by
  have := exec_ind (cfg := cfg) (Q := fun a : WAct K V I => a ≠ .assign o)
    (P := fun s : WSB K V I => s.src ≠ o ∧ (∀ t, s.held t ≠ some o) ∧ s.heldOpen ≠ some o ∧ callsOn o s.calls = callsOn o s1.calls) ?_
    ⟨hsrc, hheld, hopen, rfl⟩ hno he
  · exact this.2.2.2
  intro s a s' ⟨h1, h2, h3, h4⟩ hq hs
  cases a with
  | assign o' =>
    simp only [step, Option.some.injEq] at hs; subst hs
    exact ⟨fun h => hq (by rw [← h]), h2, h3, h4⟩
  | look t =>
    obtain ⟨-, rfl⟩ := look_cases hs
    refine ⟨h1, fun j => ?_, h3, h4⟩
    simp only
    split
    · exact fun h => h1 (Option.some.inj h)
    · exact h2 j
  | lookOpen =>
    obtain ⟨-, rfl⟩ := lookOpen_cases hs
    exact ⟨h1, h2, fun h => h1 (Option.some.inj h), h4⟩
  | act a =>
    obtain ⟨x, -, -, -, ⟨h5, rfl⟩ | ⟨o', e, h5, rfl⟩⟩ := act_cases hs
    · exact ⟨h1, h2, h3, h4⟩
    · have ho : o' ≠ o := by
        rintro rfl
        cases a <;> simp [target] at h5
        · exact h3 h5.1
        · exact h3 h5.1
        · exact h1 h5.1
        · exact h1 h5.1
        · exact h2 _ h5.1
        · exact h2 _ h5.1
        · exact h2 _ h5.1
      refine ⟨by cases a <;> exact h1, fun t => ?_, ?_, ?_⟩
      · cases a <;> simp only [release] <;> first | exact h2 t | (split <;> first | exact h2 t | exact nofun)
      · cases a <;> simp only [release] <;> first | exact h3 | exact nofun
      · show callsOn o (s.calls ++ [(o', e)]) = _
        rw [callsOn, List.filterMap_append, ← callsOn, h4]
        simp [ho]

/-- **C177** the reading goes over to the new source at once: until the next assignment, every thread ends at most one more call on another source, the one that it had in
progress. -/
theorem C177_at_once {s1 s2 : WSB K V I} (t : Nat) (hno : ∀ a ∈ as, ∀ o, a ≠ .assign o) (he : s1.exec cfg as = some s2) :
    (elsewhere t s1.src s2.calls).length ≤ (elsewhere t s1.src s1.calls).length + 1 ∧
    (s1.held t = none → elsewhere t s1.src s2.calls = elsewhere t s1.src s1.calls) := by
  have := exec_ind (cfg := cfg) (Q := fun a : WAct K V I => ∀ o, a ≠ .assign o)
    (P := fun s : WSB K V I => s.src = s1.src ∧
      ((s.held t = s1.held t ∧ elsewhere t s1.src s.calls = elsewhere t s1.src s1.calls) ∨
       (s1.held t ≠ none ∧ (s.held t = none ∨ s.held t = some s1.src) ∧ (elsewhere t s1.src s.calls).length ≤ (elsewhere t s1.src s1.calls).length + 1) ∨
       (s1.held t = none ∧ (s.held t = none ∨ s.held t = some s1.src) ∧ elsewhere t s1.src s.calls = elsewhere t s1.src s1.calls))) ?_
    ⟨rfl, .inl ⟨rfl, rfl⟩⟩ hno he
  · obtain ⟨-, ⟨-, h⟩ | ⟨h1, -, h⟩ | ⟨h1, -, h⟩⟩ := this
    · exact ⟨by rw [h]; omega, fun _ => h⟩
    · exact ⟨h, fun hn => absurd hn h1⟩
    · exact ⟨by rw [h]; omega, fun _ => h⟩
  intro s a s' ⟨h1, h2⟩ hq hs
  cases a with
  | assign o => exact absurd rfl (hq o)
  | lookOpen => obtain ⟨-, rfl⟩ := lookOpen_cases hs; exact ⟨h1, h2⟩
  | look j =>
    obtain ⟨h3, rfl⟩ := look_cases hs
    refine ⟨h1, ?_⟩
    by_cases hj : t = j
    · subst hj
      simp only [if_true, h1]
      rcases h2 with ⟨k1, k2⟩ | ⟨k1, k2, k3⟩ | ⟨k1, k2, k3⟩
      · exact .inr (.inr ⟨by rw [← k1, h3], .inr trivial, k2⟩)
      · exact .inr (.inl ⟨k1, .inr trivial, k3⟩)
      · exact .inr (.inr ⟨k1, .inr trivial, k3⟩)
    · simp only [if_neg hj]; exact h2
  | act a =>
    obtain ⟨x, -, -, h4, ⟨h5, rfl⟩ | ⟨o', e, h5, rfl⟩⟩ := act_cases hs
    · exact ⟨h1, h2⟩
    · refine ⟨h4.trans h1, ?_⟩
      have hel : elsewhere t s1.src (s.calls ++ [(o', e)]) = elsewhere t s1.src s.calls ++ (if o' ≠ s1.src ∧ callBy t e = true then [(o', e)] else []) := by
        simp only [elsewhere, List.filter_append, List.filter_cons, List.filter_nil, Bool.and_eq_true, decide_eq_true_eq]
      by_cases hb : callBy t e = true
      · -- a call of this thread has ended
        have hheld : s.held t = some o' ∧ (s.release a).held t = none := by
          cases a <;> simp [target] at h5 <;> obtain ⟨k1, rfl⟩ := h5 <;> simp [callBy] at hb
          all_goals subst hb; exact ⟨k1, by simp [release]⟩
        simp only [hheld.2]
        rw [hel]
        rcases h2 with ⟨k1, k2⟩ | ⟨k1, k2, k3⟩ | ⟨k1, k2, k3⟩
        · refine .inr (.inl ⟨by rw [← k1, hheld.1]; simp, .inl trivial, ?_⟩)
          rw [k2, List.length_append]
          split <;> simp
        · rw [hheld.1] at k2
          have : o' = s1.src := by simpa using k2
          refine .inr (.inl ⟨k1, .inl trivial, ?_⟩)
          rw [if_neg (by simp [this]), List.append_nil]
          exact k3
        · rw [hheld.1] at k2
          have : o' = s1.src := by simpa using k2
          refine .inr (.inr ⟨k1, .inl trivial, ?_⟩)
          rw [if_neg (by simp [this]), List.append_nil]
          exact k3
      · have hheld : (s.release a).held t = s.held t := by
          cases a <;> simp [target] at h5 <;> obtain ⟨k1, rfl⟩ := h5 <;> simp [callBy] at hb <;> simp [release] <;>
            exact fun h => absurd h.symm hb
        simp only [hheld]
        rw [hel, if_neg (by simp [hb]), List.append_nil]
        exact h2

/-- **C177** a source that is assigned is not opened for that: while no `start()` is called, `open` is not called. -/
theorem C177_not_opened {s1 s2 : WSB K V I} (hst : s1.sb.start = none) (hno : ∀ a ∈ as, a ≠ .act .start) (he : s1.exec cfg as = some s2) :
    s2.calls.filter (fun p => isOpened p.2) = s1.calls.filter (fun p => isOpened p.2) := by
  have := exec_ind (cfg := cfg) (Q := fun a : WAct K V I => a ≠ .act .start)
    (P := fun s : WSB K V I => s.sb.start = none ∧ s.calls.filter (fun p => isOpened p.2) = s1.calls.filter (fun p => isOpened p.2)) ?_
    ⟨hst, rfl⟩ hno he
  · exact this.2
  intro s a s' ⟨h1, h2⟩ hq hs
  cases a with
  | assign o => simp only [step, Option.some.injEq] at hs; subst hs; exact ⟨h1, h2⟩
  | look t => obtain ⟨-, rfl⟩ := look_cases hs; exact ⟨h1, h2⟩
  | lookOpen => obtain ⟨-, rfl⟩ := lookOpen_cases hs; exact ⟨h1, h2⟩
  | act a =>
    obtain ⟨x, k1, k2, -, k3⟩ := act_cases hs
    have hx : x.start = none ∧ a ≠ .openOk := by
      have h := step_to k1
      generalize s.sb = b at h h1
      cases h <;> simp_all [say, setThr, setBuf, setEvent, setNext, setDrop, setInfo]
    refine ⟨k2 ▸ hx.1, ?_⟩
    rcases k3 with ⟨-, rfl⟩ | ⟨o, e, k3, rfl⟩
    · exact h2
    · have : isOpened e = false := by
        cases a <;> simp [target] at k3 <;> obtain ⟨-, rfl⟩ := k3 <;> first | rfl | exact absurd rfl hx.2
      simp only [List.filter_append, h2, List.filter_cons, this, List.filter_nil]
      simp

end

section
variable [LinearOrder K] [BEq V] [ReflBEq V] {cfg : SBCfg K V} {s : WSB K V I} {as : List (WAct K V I)}

omit [LinearOrder K] [BEq V] [ReflBEq V] in
theorem dataRead_filter (t : Nat) (l : List (Ev V I)) : dataRead t (l.filter onSource) = dataRead t l := by
  induction l with
  | nil => rfl
  | cons e l ih =>
    rw [List.filter_cons]
    split
    · simp only [dataRead, List.filterMap_cons] at ih ⊢
      rw [ih]
    · rename_i h
      rw [ih]
      cases e <;> first | rfl | exact absurd rfl h

/-- **C177** and what a consumer is given, with what it can still read, is, in order and each once, a part of what the sources, one after the other, have
returned to the thread of that session (if restarts find the earlier thread ended). -/
theorem C177_consumer (o b i : Nat) (hpk : (cfg.rdCfg i).peek = false) (hu : ∀ a ∈ others as, SB.OneUser b i a)
    (he : (init o).exec cfg as = some s) (hset : SB.init.Settled cfg (others as)) (c : Cons K V) (hv : s.sb.view b = some c) :
    (received c i ++ unreadOf c.ch i).Sublist (dataRead b (s.calls.map Prod.snd)) := by
  obtain ⟨h1, h2⟩ := C177_as_if o he
  rw [h2, dataRead_filter]
  exact C84_part_of_read_partial b i hpk hu h1 hset c hv

end
end S2P.WSB
