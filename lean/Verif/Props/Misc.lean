import Verif.Model.Misc
import Verif.Props.StreamBuffer
/-
C54-C56, C60, C61: sleep time, ContextualizeCall, HTTPResponseReader.
-/
namespace S2P
open Spec

/-! ### C54 -/

/-- **C54**: the explicit argument if it is a number, also `0`, a negative one or a boolean; else the source's value if it is a number; else the default. -/
theorem C54_sleep_time {F : Type} (dflt arg source : PyNum F) : sleepTime dflt arg source = firstNum [arg, source] dflt := by
  cases arg <;> cases source <;> simp [sleepTime, firstNum, isIntOrFloat, isNum, List.find?]

/-- `0` and `False` count, `None` and other objects do not. -/
example : sleepTime (.float 3) (.int 0) (.int 7) = (.int 0 : PyNum Nat) ∧ sleepTime (.float 3) (.bool false) (.int 7) = (.bool false : PyNum Nat) ∧
    sleepTime (.float 3) .none (.int 0) = (.int 0 : PyNum Nat) ∧ sleepTime (.float 3) (.other 1) .none = (.float 3 : PyNum Nat) := by decide

/-! ### C55 -/
namespace PyObj

/-- An ordinary callable: not made by ContextualizeCall, and without attributes called `func`, `enter_func`, `exit_func`. -/
def Plain (o : PyObj) : Prop := o.isCtx = false ∧ o.func = none ∧ o.enter = none ∧ o.exit = none

/-- Ordinary callables, and what ContextualizeCall makes of them, to any depth. -/
inductive Made : PyObj → Prop
  | plain (o) (h : Plain o) : Made o
  | ctx (id f e x o) (hf : Made f) (h : contextualize id f e x = .ok o) : Made o

theorem contextualize_ok {id : Nat} {f e x o : PyObj} (h : contextualize id f e x = .ok o) :
    o.isCtx = true ∧ o.sig = f.sig ∧ o.func = (f.func <|> some f) ∧ o.enter = (f.enter <|> some e) ∧ o.exit = (f.exit <|> some x) ∧
    f.sig.isSome ∧ e.enterValid = .ok true ∧ x.exitValid = .ok true := by
  unfold contextualize at h
  split at h
  · simp at h
  · split at h
    · simp at h
    · simp at h
    · split at h
      · simp at h
      · simp at h
      · rename_i hs _ he _ hx
        simp only [Except.ok.injEq] at h
        subst h
        exact ⟨rfl, rfl, rfl, rfl, rfl, by simp [hs], he, hx⟩

theorem calls_plain {o : PyObj} (h : o.isCtx = false) : o.calls = o := by
  cases o with
  | mk id s c f e x => simp only [isCtx] at h; subst h; unfold calls; rfl

theorem calls_ctx {o f : PyObj} (h : o.isCtx = true) (hf : o.func = some f) : o.calls = f.calls := by
  cases o with
  | mk id s c g e x => simp only [isCtx, func] at h hf; subst h; subst hf; rw [calls]

/-- Made objects have all three attributes or none. -/
theorem Made.attrs {o : PyObj} (h : Made o) : (Plain o) ∨ (o.isCtx = true ∧ o.func.isSome ∧ o.enter.isSome ∧ o.exit.isSome) := by
  cases h with
  | plain _ h => exact .inl h
  | ctx id f e x _ hf h =>
    obtain ⟨h1, h2, h3, h4, h5, -⟩ := contextualize_ok h
    refine .inr ⟨h1, ?_, ?_, ?_⟩
    · rw [h3]; cases f.func <;> simp
    · rw [h4]; cases f.enter <;> simp
    · rw [h5]; cases f.exit <;> simp

/-- **C55**, calls: calling the wrapper calls what calling the wrapped object calls, for every wrapped object made from ordinary callables, to any depth. -/
theorem C55_call_partial (id : Nat) (f e x o : PyObj) (hf : Made f) (h : contextualize id f e x = .ok o) : o.calls = f.calls := by
  obtain ⟨h1, -, h3, -⟩ := contextualize_ok h
  rcases hf.attrs with hp | ⟨hc, hs, -⟩
  · rw [hp.2.1] at h3
    exact calls_ctx h1 h3
  · obtain ⟨g, hg⟩ := Option.isSome_iff_exists.1 hs
    rw [hg] at h3
    rw [calls_ctx h1 h3, calls_ctx hc hg]

/-- **C55**, context (partial: the wrapped object is an ordinary callable): entering calls the given enter function on the wrapped object, leaving the given
exit function on it. Missing: wrapping an object that is already wrapped, see `C55_refuted_nested`. -/
theorem C55_context_partial (id : Nat) (f e x o : PyObj) (hf : Plain f) (h : contextualize id f e x = .ok o) :
    o.entering = some (e, f) ∧ o.leaving = some (x, f) := by
  obtain ⟨-, -, h3, h4, h5, -⟩ := contextualize_ok h
  rw [hf.2.1] at h3
  rw [hf.2.2.1] at h4
  rw [hf.2.2.2] at h5
  simp [entering, leaving, h3, h4, h5]

/-- **C55** is false when wrapping an object that is already wrapped, to any depth: the outer enter and exit functions are never called; entering and leaving do
what the inner object's do. -/
theorem C55_refuted_nested (id : Nat) (f e x o : PyObj) (hf : Made f) (hc : f.isCtx = true) (h : contextualize id f e x = .ok o) :
    o.entering = f.entering ∧ o.leaving = f.leaving := by
  obtain ⟨-, -, h3, h4, h5, -⟩ := contextualize_ok h
  rcases hf.attrs with hp | ⟨-, hs, he, hx⟩
  · rw [hp.1] at hc; simp at hc
  · obtain ⟨g, hg⟩ := Option.isSome_iff_exists.1 hs
    obtain ⟨g', hg'⟩ := Option.isSome_iff_exists.1 he
    obtain ⟨g'', hg''⟩ := Option.isSome_iff_exists.1 hx
    rw [hg] at h3
    rw [hg'] at h4
    rw [hg''] at h5
    simp [entering, leaving, h3, h4, h5, hg, hg', hg'']

/-- A function with parameters `ps`. -/
def fn (id : Nat) (ps : List PKind) : PyObj := .mk id (some (some ps)) false none none none

/-- ... for instance: the second `with` block runs functions 1 and 2, not 3 and 4. -/
theorem C55_refuted_nested_witness : ∃ f e1 x1 e2 x2 o1 o2 : PyObj, Plain f ∧ contextualize 10 f e1 x1 = .ok o1 ∧ contextualize 11 o1 e2 x2 = .ok o2 ∧
    o2.entering = some (e1, f) ∧ o2.leaving = some (x1, f) ∧ o2.calls = f ∧ e1 ≠ e2 ∧ x1 ≠ x2 :=
  ⟨fn 0 [.posOrKw false], fn 1 [.posOrKw false], fn 2 [.posOrKw false, .varPos], fn 3 [.posOrKw false], fn 4 [.posOrKw false, .varPos], _, _,
    ⟨rfl, rfl, rfl, rfl⟩, rfl, rfl, rfl, rfl, rfl, by simp [fn], by simp [fn]⟩

/-- **C55**, calls, is false for a callable that has an attribute called `func`: the wrapper calls that attribute. -/
theorem C55_refuted_attribute (id : Nat) (f g e x o : PyObj) (hc : f.isCtx = false) (hg : f.func = some g) (h : contextualize id f e x = .ok o) :
    o.calls = g.calls ∧ f.calls = f := by
  obtain ⟨h1, -, h3, -⟩ := contextualize_ok h
  rw [hg] at h3
  exact ⟨calls_ctx h1 h3, calls_plain hc⟩

theorem C55_refuted_attribute_witness : ∃ f g e x o : PyObj, f.isCtx = false ∧ f.func = some g ∧ contextualize 10 f e x = .ok o ∧ o.calls = g ∧ g ≠ f :=
  ⟨.mk 0 (some (some [])) false (some (fn 1 [])) none none, fn 1 [], fn 2 [.varPos], fn 3 [.varPos], _, rfl, rfl, rfl, rfl, by simp [fn]⟩

/-- **C55**, validation (partial): things that are not callable are rejected, in each of the three places. -/
theorem C55_rejects_partial (id : Nat) (f e x : PyObj) (h : f.sig = none ∨ e.sig = none ∨ x.sig = none) (he : e.sig ≠ some none) :
    contextualize id f e x = .error .typeError := by
  unfold contextualize
  cases hf : f.sig with
  | none => rfl
  | some s =>
    rw [hf] at h
    simp only [reduceCtorEq, false_or] at h
    cases hes : e.sig with
    | none => simp [enterValid, hes]
    | some s' =>
      rw [hes] at h he
      simp only [reduceCtorEq, false_or] at h
      cases s' with
      | none => simp at he
      | some ps => cases hps : decide (ps.length ≥ 1) <;> simp only [enterValid, hes, exitValid, h, hps]

/-- **C55**, validation (partial): a function that can take the object is accepted as enter function, one that can take the object and the exception information
as exit function. -/
theorem C55_accepts_partial (id : Nat) (f e x : PyObj) (pe px : List PKind) (hf : f.sig.isSome) (he : e.sig = some (some pe))
    (hx : x.sig = some (some px)) (he1 : canTake pe 1) (_hx4 : canTake px 4) : ∃ o, contextualize id f e x = .ok o := by
  have hpe : pe.length ≥ 1 := by
    rcases he1.1 with h | h
    · exact Nat.le_trans h (List.length_filter_le _ _)
    · exact List.length_pos_of_mem h
  obtain ⟨s, hs⟩ := Option.isSome_iff_exists.1 hf
  exact ⟨_, by simp only [contextualize, hs, enterValid, he, exitValid, hx, decide_eq_true hpe]; rfl⟩

/-- **C55**, validation, is false: a callable exit function is never rejected, whatever its parameters. -/
theorem C55_refuted_exit_validation (id : Nat) (f e x : PyObj) (hf : f.sig.isSome) (he : e.enterValid = .ok true) (hx : x.sig.isSome) :
    ∃ o, contextualize id f e x = .ok o := by
  obtain ⟨s, hs⟩ := Option.isSome_iff_exists.1 hf
  obtain ⟨s', hs'⟩ := Option.isSome_iff_exists.1 hx
  exact ⟨_, by simp only [contextualize, hs, he, exitValid, hs']; rfl⟩

/-- ... for instance one that takes no arguments; leaving such a context raises. -/
theorem C55_refuted_exit_witness : ∃ f e x o : PyObj, Plain f ∧ x.sig = some (some []) ∧ ¬ canTake [] 4 ∧ contextualize 10 f e x = .ok o ∧
    o.leaving = some (x, f) := ⟨fn 0 [], fn 1 [.posOrKw false], fn 2 [], _, ⟨rfl, rfl, rfl, rfl⟩, rfl, by decide, rfl, rfl⟩

/-- The default enter and exit functions (util.py 24-29) are what the theorem asks for. -/
example : canTake [.posOrKw false] 1 ∧ canTake [.posOrKw false, .varPos] 4 := by decide

end PyObj

/-! ### C56 -/

/-- **C56**, requests: `open()` sends the configured request iff the method is `GET` (in capitals). Otherwise method and body are ignored. -/
theorem C56_request_partial (c : HttpCfg) : c.openSends = c.request ↔ c.method = GET := by
  constructor
  · intro h
    have := congrArg Req.method h
    simpa [HttpCfg.openSends, HttpCfg.request] using this.symm
  · intro h
    have hu : GET.map Char.toUpper = GET := by decide
    simp [HttpCfg.openSends, HttpCfg.request, h, hu]

/-- **C56**, requests, is false: whatever method and body were configured, GET without a body is sent. -/
theorem C56_refuted (c : HttpCfg) (h : c.method ≠ GET) : c.openSends ≠ c.request ∧ c.openSends.method = GET ∧ c.openSends.body = none :=
  ⟨fun hc => h ((C56_request_partial c).1 hc), rfl, rfl⟩

theorem C56_refuted_witness : ∃ c : HttpCfg, c.method = ['P', 'O', 'S', 'T'] ∧ c.request.body = some ['x'] ∧ c.openSends.body = none :=
  ⟨⟨['h'], ['P', 'O', 'S', 'T'], [], ['x']⟩, rfl, by decide, rfl⟩

namespace Http

/-- What is known of the responses. -/
structure Ok (s : Http) : Prop where
  lt : ∀ k ∈ s.exited, k < s.n
  cur : ∀ k, s.response = .resp k → k + 1 = s.n

theorem Ok.step (h : Ok s) (a : HttpAct) : Ok (s.step a) := by
  cases a with
  | «open» ok =>
    cases ok
    · exact h
    · refine ⟨fun k hk => Nat.lt_succ_of_lt (h.lt k hk), ?_⟩
      intro k hk
      simp only [Http.step, if_true, HttpResp.resp.injEq] at hk ⊢
      omega
  | close ok =>
    simp only [Http.step]
    split
    · rename_i k hk
      have hlt : k < s.n := by have := h.cur k hk; omega
      cases ok
      · refine ⟨fun j hj => ?_, fun j hj => h.cur j hj⟩
        rcases List.mem_append.1 hj with hj | hj
        · exact h.lt j hj
        · rw [List.mem_singleton.1 hj]; exact hlt
      · refine ⟨fun j hj => ?_, fun j hj => by simp at hj⟩
        rcases List.mem_append.1 hj with hj | hj
        · exact h.lt j hj
        · rw [List.mem_singleton.1 hj]; exact hlt
    · exact h
  | read r =>
    cases r with
    | none => exact h
    | some m =>
      simp only [Http.step]
      split
      · exact ⟨h.lt, h.cur⟩
      · exact h

theorem ok_run (as : List HttpAct) : Ok (init.run as) := by
  have : ∀ as s, Ok s → Ok (run s as) := by
    intro as
    induction as with
    | nil => exact fun _ h => h
    | cons a as ih => exact fun s h => ih _ (h.step a)
  exact this as _ ⟨by simp [init], by simp [init]⟩

/-- **C83**, close: after any history, a second `close()` does nothing; after a `close()` that returned the latest response (if there was one) has been
closed, and the reader is as before the first `open()`: reading it raises. -/
theorem C83_close_idempotent (as : List HttpAct) (ok : Bool) :
    ((init.run as).step (.close true)).step (.close ok) = (init.run as).step (.close true) ∧
    (∀ k, ((init.run as).step (.close true)).response ≠ .resp k) ∧
    (∀ k, (init.run as).response = .resp k → k ∈ ((init.run as).step (.close true)).exited) := by
  generalize init.run as = s
  cases hr : s.response with
  | emptyStr => simp [Http.step, hr]
  | pyNone => simp [Http.step, hr]
  | resp k => simp [Http.step, hr]

/-- The responses whose close did not raise and returned to `close()`: every response is closed at most once if no close raises. -/
theorem C83_closed_once (as : List HttpAct) (h : ∀ ok, .close ok ∈ as → ok = true) : (init.run as).exited.Nodup := by
  have key : ∀ (as : List HttpAct) (s : Http), (∀ ok, .close ok ∈ as → ok = true) → Ok s → s.exited.Nodup →
      (∀ k, s.response = .resp k → k ∉ s.exited) → (s.run as).exited.Nodup := by
    intro as
    induction as with
    | nil => exact fun _ _ _ h _ => h
    | cons a as ih =>
      intro s hc hok hn hcur
      refine ih _ (fun ok h => hc ok (List.mem_cons_of_mem _ h)) (hok.step a) ?_ ?_
      · cases a with
        | «open» ok => cases ok <;> exact hn
        | close ok =>
          have := hc ok List.mem_cons_self
          subst this
          simp only [Http.step]
          split
          · rename_i k hk
            simp only [if_true]
            exact List.nodup_append.2 ⟨hn, by simp, by
              intro a ha b hb; rw [List.mem_singleton.1 hb]; rintro rfl; exact hcur _ hk ha⟩
          · exact hn
        | read r =>
          cases r with
          | none => exact hn
          | some m => simp only [Http.step]; split <;> exact hn
      · cases a with
        | «open» ok =>
          cases ok
          · exact hcur
          · intro k hk hm
            simp only [Http.step, if_true, HttpResp.resp.injEq] at hk hm
            have := hok.lt k hm
            omega
        | close ok =>
          have := hc ok List.mem_cons_self
          subst this
          simp only [Http.step]
          split
          · simp
          · exact hcur
        | read r =>
          cases r with
          | none => exact hcur
          | some m => simp only [Http.step]; split <;> exact hcur
  exact key as init h ⟨by simp [init], by simp [init]⟩ (by simp [init]) (by simp [init])

/-- A history with two sessions, double close, and reads. -/
example : (init.run [.close true, .open true, .read (some 5), .close true, .close true, .open false, .open true, .close true]).exited = [0, 1] := by decide

/-! ### C60, C61 -/

/-- **C61** is false: `info['n_bytes_read']` is 0 whatever has been read. -/
theorem C61_refuted (as : List HttpAct) : (init.run as).bytesRead = 0 := by
  have key : ∀ (as : List HttpAct) (s : Http), s.bytesRead = 0 → (s.run as).bytesRead = 0 := by
    intro as
    induction as with
    | nil => exact fun _ h => h
    | cons a as ih =>
      intro s h
      refine ih _ ?_
      cases a with
      | «open» ok => cases ok <;> exact h
      | close ok => simp only [Http.step]; split <;> (try split) <;> exact h
      | read r => cases r with
        | none => exact h
        | some m => simp only [Http.step]; split <;> exact h
  exact key as init rfl

theorem C61_refuted_witness : ∃ as, (init.run as).got = 5 ∧ (init.run as).bytesRead = 0 := ⟨[.open true, .read (some 5)], rfl, rfl⟩

section
variable {K T B I : Type} [LinearOrder K] [BEq (T × B)] [ReflBEq (T × B)] {cfg : SBCfg K (T × B)} {s : SB K (T × B) I} {as : List (SBAct K (T × B) I)}

/-- **C60** is false for an HTTPResponseReader in a bounded StreamBuffer: at the end of the response `read()` returns (time, b'') again and again, never `None`
(`readValue`), and once `maxlen` of these have been stored, nothing else is left in the buffer. Every execution. -/
theorem C60_refuted (m : Nat) (hm : cfg.maxlen = some m) (ha : cfg.autoDrop = true) (he : SB.init.exec cfg as = some s) (b : Nat) (empty : B)
    (data : List (T × B)) (ts : List T) (hst : storedIn b s.log = data ++ ts.filterMap (fun t => readValue t empty)) (hlen : m ≤ ts.length) :
    ∀ v ∈ s.items b, v.2 = empty := by
  intro v hv
  rw [(SB.C34_only_eviction ha he b).1, hm, hst] at hv
  have hl : (ts.filterMap (fun t => readValue t empty)).length = ts.length := by
    have : (fun t : T => readValue t empty) = some ∘ fun t => (t, empty) := rfl
    rw [this, List.filterMap_eq_map]; simp
  simp only [newest, List.length_append, hl] at hv
  rw [List.drop_append] at hv
  rcases List.mem_append.1 hv with h | h
  · rw [List.drop_eq_nil_of_le (by omega)] at h; simp at h
  · have := List.mem_of_mem_drop h
    simp only [List.mem_filterMap, readValue, Option.some.injEq] at this
    obtain ⟨t, -, rfl⟩ := this
    rfl

end

/-- ... for instance: a buffer of two items, a response with one chunk `7`, then two reads at its end: the chunk is gone. -/
theorem C60_refuted_witness : ∃ (cfg : SBCfg Nat (Nat × Nat)) (as : List (SBAct Nat (Nat × Nat) Nat)) (s : SB Nat (Nat × Nat) Nat),
    cfg.maxlen = some 2 ∧ cfg.autoDrop = true ∧ SB.init.exec cfg as = some s ∧ storedIn 0 s.log = [(1, 7), (2, 0), (3, 0)] ∧
    s.items 0 = [(2, 0), (3, 0)] ∧ s.running = true := by
  refine ⟨{ maxlen := some 2, autoDrop := true, key := Prod.fst, keyNone := .error .typeError, rdCfg := fun _ => Cfg.default },
    [.start, .startGo, .startGo, .startGo, .startGo, .startGo, .openOk, .bufOk 0, .startGo] ++
    [.thr 0, .thr 0, .readOk 0 (readValue 1 7), .thr 0, .thr 0] ++ [.thr 0, .thr 0, .readOk 0 (readValue 2 0), .thr 0, .thr 0] ++
    [.thr 0, .thr 0, .readOk 0 (readValue 3 0), .thr 0, .thr 0], _, rfl, rfl, rfl, rfl, rfl, rfl⟩

end Http
end S2P
