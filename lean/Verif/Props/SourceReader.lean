import Verif.Model.SourceReader
/-
C49, C50: SourceReader, and iteration over sources.
-/
namespace S2P
open Spec
namespace SR

theorem srcOpen_snoc (l : List OCEv) (e : OCEv) : srcOpen (l ++ [e]) =
    (match e with | .opened true => true | .closed true => false | _ => srcOpen l) := by
  simp only [srcOpen, List.foldl_append, List.foldl_cons, List.foldl_nil]
  cases e with
  | opened ok => cases ok <;> rfl
  | closed ok => cases ok <;> rfl

/-- C49 for QuickSourceReader: whatever mixture of `open`, `close`, `with` and StreamBuffer calls, raising or not, `closed` is False exactly while
the source is open. -/
theorem C49_quick (as : List SRAct) : (init.run .quick as).closedFlag = !srcOpen (init.run .quick as).log := by
  have key : ∀ (as : List SRAct) (s : SR), s.closedFlag = (!srcOpen s.log) → (s.run .quick as).closedFlag = !srcOpen (s.run .quick as).log := by
    intro as
    induction as with
    | nil => exact fun s h => h
    | cons a as ih =>
      intro s h
      refine ih _ ?_
      cases a with
      | «open» ok => cases ok <;> simp [step, SR.open, srcOpen_snoc, h]
      | close ok => cases ok <;> simp [step, SR.close, srcOpen_snoc, h]
      | enter ok => cases ok <;> simp [step, SR.open, srcOpen_snoc, h]
      | exit ok => cases ok <;> simp [step, SR.close, srcOpen_snoc, h]
  exact key as init rfl

/-- Only `with` blocks, not `open()` and `close()`. -/
def onlyWith : SRAct → Bool
  | .enter _ | .exit _ => true
  | _ => false

/-- C80 (partial: opened and closed by `with` only) for any SourceReader. -/
theorem C80_with_partial (k : SRKind) (as : List SRAct) (h : ∀ a ∈ as, onlyWith a = true) :
    (init.run k as).closedFlag = !srcOpen (init.run k as).log := by
  have key : ∀ (as : List SRAct) (s : SR), (∀ a ∈ as, onlyWith a = true) → s.closedFlag = (!srcOpen s.log) →
      (s.run k as).closedFlag = !srcOpen (s.run k as).log := by
    intro as
    induction as with
    | nil => exact fun s _ h => h
    | cons a as ih =>
      intro s ha h
      refine ih _ (fun a h => ha a (by simp [h])) ?_
      have := ha a (by simp)
      cases a with
      | «open» ok => simp [onlyWith] at this
      | close ok => simp [onlyWith] at this
      | enter ok => cases ok <;> simp [step, SR.open, srcOpen_snoc, h]
      | exit ok => cases ok <;> simp [step, SR.close, srcOpen_snoc, h]
  exact key as init h rfl

/-- C80 is false for SourceReader subclasses that do not set `_closed` themselves (all those in the package but QuickSourceReader): as long as there
is no `with` block, i.e. in every use by `open()`/`close()` or by a StreamBuffer, `closed` is True. -/
theorem C80_refuted (as : List SRAct) (h : ∀ a ∈ as, onlyWith a = false) : (init.run .plain as).closedFlag = true := by
  have key : ∀ (as : List SRAct) (s : SR), (∀ a ∈ as, onlyWith a = false) → s.closedFlag = true → (s.run .plain as).closedFlag = true := by
    intro as
    induction as with
    | nil => exact fun s _ h => h
    | cons a as ih =>
      intro s ha h
      refine ih _ (fun a h => ha a (by simp [h])) ?_
      have := ha a (by simp)
      cases a with
      | «open» ok => simp [step, SR.open, h]
      | close ok => simp [step, SR.close, h]
      | enter ok => simp [onlyWith] at this
      | exit ok => simp [onlyWith] at this
  exact key as init h rfl

/-- The hypotheses are met with an open source: StreamBuffer opens it, `closed` is True. -/
theorem C80_refuted_witness : ∃ as : List SRAct, (∀ a ∈ as, onlyWith a = false) ∧ srcOpen (init.run .plain as).log = true ∧
    (init.run .plain as).closedFlag = true := ⟨[.open true], by simp [onlyWith], rfl, rfl⟩

/-- C80 is false after mixed use as well: entered by `with`, closed by `close()`, the source is not open but `closed` is False. -/
theorem C80_refuted_mixed : ∃ as : List SRAct, srcOpen (init.run .plain as).log = false ∧ (init.run .plain as).closedFlag = false :=
  ⟨[.enter true, .close true], rfl, rfl⟩

/-- Histories with raising calls and re-opening meet the hypotheses. -/
example : (∀ a ∈ [SRAct.enter false, .enter true, .exit false, .exit true, .enter true], onlyWith a = true) ∧
    (init.run .plain [.enter false, .enter true, .exit false, .exit true, .enter true]).closedFlag = false := by decide

end SR

/-! ### C50 -/
section
variable {D V : Type}

theorem iterYields_ok (valid : D → Bool) (d : D) (rs : List (Py D)) :
    iterYields valid (.ok d :: rs) = if valid d then d :: iterYields valid rs else iterYields valid rs := by
  simp only [iterYields, List.takeWhile_cons, Except.isOk, Except.toBool, if_true, List.filterMap_cons, Except.toOption, List.filter_cons]

/-- C50: iterating a QuickSourceReader yields exactly the valid results of `read()`, in order, none dropped or repeated, for every `is_valid_data`
and as long as `when_no_data` does not raise. -/
theorem C50_quick (valid : D → Bool) (reads : List (Py D)) : (iterQuick valid (fun _ => none) reads).1 = iterYields valid reads := by
  induction reads with
  | nil => rfl
  | cons r rs ih =>
    cases r with
    | error e => rfl
    | ok d =>
      simp only [iterQuick, iterYields_ok]
      split
      · exact congrArg (d :: ·) ih
      · exact ih

/-- C50: ... and with a `when_no_data` that raises, exactly those before the exception, which leaves the iteration. -/
theorem C50_quick_raising (valid : D → Bool) (noData : D → Option PyErr) (reads : List (Py D)) :
    ∃ k, (iterQuick valid noData reads).1 = iterYields valid (reads.take k) ∧
      (k < reads.length → ∃ e, (iterQuick valid noData reads).2 = .raised e) ∧
      ∀ d, .ok d ∈ reads.take (k - 1) → valid d = true ∨ noData d = none := by
  induction reads with
  | nil => exact ⟨0, rfl, by simp, by simp⟩
  | cons r rs ih =>
    cases r with
    | error e => exact ⟨0, rfl, fun _ => ⟨e, rfl⟩, by simp⟩
    | ok d =>
      obtain ⟨k, h1, h2, h3⟩ := ih
      simp only [iterQuick]
      by_cases hv : valid d = true
      · refine ⟨k + 1, ?_, ?_, ?_⟩
        · simp only [hv, if_true, List.take_succ_cons, iterYields_ok]; rw [h1]
        · simp only [hv, if_true, List.length_cons]; intro hk; exact h2 (by omega)
        · intro d' hd'
          cases k with
          | zero => simp at hd'
          | succ k =>
            simp only [Nat.add_sub_cancel, List.take_succ_cons, List.mem_cons] at hd' h3
            rcases hd' with hd' | hd'
            · cases hd'; exact .inl hv
            · exact h3 d' hd'
      · simp only [hv]
        cases hn : noData d with
        | some e =>
          refine ⟨1, ?_, fun _ => ⟨e, rfl⟩, by simp⟩
          rw [List.take_succ_cons, iterYields_ok, if_neg hv]; rfl
        | none =>
          refine ⟨k + 1, ?_, ?_, ?_⟩
          · simp only [List.take_succ_cons, iterYields_ok, hv]; exact h1
          · simp only [List.length_cons]; intro hk; exact h2 (by omega)
          · intro d' hd'
            cases k with
            | zero => simp at hd'
            | succ k =>
              simp only [Nat.add_sub_cancel, List.take_succ_cons, List.mem_cons] at hd' h3
              rcases hd' with hd' | hd'
              · cases hd'; exact .inr hn
              · exact h3 d' hd'

/-- C50: iterating a SourceReader yields exactly the results of `read()` that are not None, and never ends unless `read()` raises. -/
theorem C50_plain (reads : List (Py (Option V))) : (iterPlain reads).1 = iterYields Option.isSome reads ∧
    ((∀ r ∈ reads, ∃ d, r = .ok d) → (iterPlain reads).2 = .looping) := by
  refine ⟨C50_quick _ _, ?_⟩
  induction reads with
  | nil => exact fun _ => rfl
  | cons r rs ih =>
    intro h
    obtain ⟨d, rfl⟩ := h r (by simp)
    have := ih (fun r hr => h r (by simp [hr]))
    simp only [iterPlain, iterQuick] at this ⊢
    split <;> exact this

/-- C81 (partial: `read()` never returns None): iterating a StreamSource yields every result in order. -/
theorem C81_source_partial (st : Option (Nat → Bool)) (vs : List V) (i : Nat) :
    iterSource st i (vs.map fun v => .ok (some v)) = (vs, .looping) := by
  induction vs generalizing i with
  | nil => rfl
  | cons v vs ih => simp only [List.map_cons, iterSource, ih]

/-- C81 (partial: for a subclass that defines `is_stopped`): iterating a StreamSource yields the data read up to the first `None` at which
`is_stopped` holds, and ends there. -/
theorem C81_source_stopped_partial (f : Nat → Bool) (i : Nat) (reads : List (Option V)) :
    ∃ k, (iterSource (some f) i (reads.map .ok)).1 = (reads.take k).filterMap id ∧
      ((k = reads.length ∧ (iterSource (some f) i (reads.map .ok)).2 = .looping) ∨
       (reads[k]? = some none ∧ f (i + k) = true ∧ (iterSource (some f) i (reads.map .ok)).2 = .returned)) ∧
      ∀ j, j < k → reads[j]? = some none → f (i + j) = false := by
  induction reads generalizing i with
  | nil => exact ⟨0, rfl, .inl ⟨rfl, rfl⟩, by simp⟩
  | cons r rs ih =>
    obtain ⟨k, h1, h2, h3⟩ := ih (i + 1)
    cases r with
    | some v =>
      refine ⟨k + 1, ?_, ?_, ?_⟩
      · simp only [List.map_cons, iterSource, List.take_succ_cons, List.filterMap_cons, id, h1]
      · simp only [List.map_cons, iterSource, List.length_cons, List.getElem?_cons_succ]
        rcases h2 with ⟨h2, h4⟩ | ⟨h2, h4, h5⟩
        · exact .inl ⟨by omega, h4⟩
        · exact .inr ⟨h2, by rw [← h4]; congr 1; omega, h5⟩
      · intro j hj hjr
        cases j with
        | zero => simp at hjr
        | succ j => rw [← h3 j (by omega) (by simpa using hjr)]; congr 1; omega
    | none =>
      by_cases hf : f i = true
      · exact ⟨0, by simp [iterSource, hf], .inr ⟨rfl, hf, by simp [iterSource, hf]⟩, by simp⟩
      · refine ⟨k + 1, ?_, ?_, ?_⟩
        · simp only [List.map_cons, iterSource, hf, List.take_succ_cons, List.filterMap_cons, id]; exact h1
        · simp only [List.map_cons, iterSource, hf, List.length_cons, List.getElem?_cons_succ]
          rcases h2 with ⟨h2, h4⟩ | ⟨h2, h4, h5⟩
          · exact .inl ⟨by omega, h4⟩
          · exact .inr ⟨h2, by rw [← h4]; congr 1; omega, h5⟩
        · intro j hj hjr
          cases j with
          | zero => simpa using hf
          | succ j => rw [← h3 j (by omega) (by simpa using hjr)]; congr 1; omega

/-- C81 is false for a StreamSource: at the first `None` the iteration raises AttributeError (`is_stopped` is not an attribute of StreamSource). -/
theorem C81_refuted (vs : List V) (rs : List (Py (Option V))) (i : Nat) :
    iterSource none i ((vs.map fun v => .ok (some v)) ++ .ok none :: rs) = (vs, .raised .attributeError) := by
  induction vs generalizing i with
  | nil => rfl
  | cons v vs ih => simp only [List.map_cons, List.cons_append, iterSource, ih]

/-- Concrete iterations: `None`s are skipped, zeros are invalid, a StreamSource raises where a SourceReader goes on. -/
example : iterPlain [.ok (some 3), .ok none, .ok (some 1), .error (.other 0)] = ([some 3, some 1], .raised (.other 0)) ∧
    iterQuick (fun d : Nat => d != 0) (fun _ => none) [.ok 4, .ok 0, .ok 4, .ok 5] = ([4, 4, 5], .looping) ∧
    iterSource (V := Nat) none 0 [.ok (some 3), .ok none, .ok (some 1)] = ([3], .raised .attributeError) ∧
    iterSource (V := Nat) (some fun i => i == 3) 0 [.ok (some 3), .ok none, .ok (some 1), .ok none] = ([3, 1], .returned) := by decide

end
end S2P
