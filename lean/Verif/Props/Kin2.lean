import Verif.Props.Kin
import Verif.Props.Lifecycle
/-
C123, C126, C127 (see Props/Kin.lean).
-/
namespace S2P
open Spec

/-! ### C123 -/
namespace RW
variable {D Op : Type}

/-- A history in which no thread asks for the reader lock while it is inside a reader section: no `range(only_new_items=True)` of a reader that has a cursor
(buffer_reader.py 261-265). -/
def Flat (as : List (Act Op)) : Prop := ∀ i, Act.nest i ∉ as

theorem arrive_outer (body : Op → D → List (D → D)) (d : D) (t : Th D Op) (pc' : PC) (h : t.outer = 0) : (t.arrive body d pc').outer = 0 := by
  unfold Th.arrive
  split
  · split
    · exact h
    · simp [h]
  all_goals exact h

theorem flat_step {body : Op → D → List (D → D)} {m m' : M D Op} {a : Act Op} (ha : ∀ i, a ≠ .nest i) (hn : NoNesting m)
    (hs : m.step body a = some m') : NoNesting m' := by
  have put : ∀ (i : Nat) (t : Th D Op) (l : Lk) (d : D) (ds : List Op), t.outer = 0 → NoNesting (⟨(m.put i t).th, l, d, ds⟩ : M D Op) := by
    intro i t l d ds ht x hx
    simp only [M.put] at hx
    rcases List.mem_or_eq_of_mem_set hx with h | h
    · exact hn x h
    · rw [h]; exact ht
  cases a with
  | nest i => exact absurd rfl (ha i)
  | beginRead i =>
    simp only [M.step] at hs
    repeat' split at hs
    all_goals first | cases hs; done | skip
    rename_i t ht _
    simp only [Option.some.injEq] at hs; subst hs
    exact put i _ _ _ _ (hn t (List.mem_of_getElem? ht))
  | beginWrite i op =>
    simp only [M.step] at hs
    repeat' split at hs
    all_goals first | cases hs; done | skip
    rename_i t ht _
    simp only [Option.some.injEq] at hs; subst hs
    exact put i _ _ _ _ (hn t (List.mem_of_getElem? ht))
  | look i =>
    simp only [M.step] at hs
    repeat' split at hs
    all_goals first | cases hs; done | skip
    rename_i t ht _
    simp only [Option.some.injEq] at hs; subst hs
    exact put i _ _ _ _ (hn t (List.mem_of_getElem? ht))
  | go i =>
    simp only [M.step] at hs
    split at hs
    · rename_i t ht
      have h0 := hn t (List.mem_of_getElem? ht)
      simp only [M.go] at hs
      split at hs
      · simp only [Option.some.injEq] at hs; subst hs
        exact put i _ _ _ _ h0
      · split at hs
        · cases hs
        · simp only [Option.some.injEq] at hs; subst hs
          exact put i _ _ _ _ (arrive_outer _ _ _ _ h0)
    · cases hs

theorem flat_exec {body : Op → D → List (D → D)} {as : List (Act Op)} (ha : Flat as) {m m' : M D Op} (hn : NoNesting m)
    (he : m.exec body as = some m') : NoNesting m' := by
  induction as generalizing m with
  | nil => simp only [M.exec, Option.some.injEq] at he; subst he; exact hn
  | cons a as ih =>
    simp only [M.exec] at he
    split at he
    · rename_i m1 hs
      exact ih (fun i h => ha i (by simp [h])) (flat_step (fun i h => ha i (by simp [h])) hn hs) he
    · cases he

theorem flat_init (n : Nat) (d : D) : NoNesting (init n d : M D Op) := by
  intro t ht
  simp only [init, List.mem_replicate] at ht
  rw [ht.2]

/-- **C123** any number of threads, any history in which nobody asks for the reader lock from inside a reader section: as long as some thread uses or waits
for the lock, some thread can execute its next statement. -/
theorem C123_no_deadlock {body : Op → D → List (D → D)} {n : Nat} {d : D} {m : M D Op} {as : List (Act Op)} (ha : Flat as)
    (he : (init n d : M D Op).exec body as = some m) (hb : ∃ t ∈ m.th, t.pc ≠ .idle) : ∃ i m', m.step body (.go i) = some m' :=
  C30_no_deadlock_partial ⟨as, he⟩ (flat_exec ha (flat_init n d) he) hb

/-- **C123** and when nobody asks for the lock any more, every schedule comes to its end (`C30_terminates`), and then every thread is outside. -/
theorem C123_everyone_finishes {body : Op → D → List (D → D)} {n : Nat} {d : D} {m m' : M D Op} {as : List (Act Op)} (ha : Flat as)
    (he : (init n d : M D Op).exec body as = some m) (is : List Nat) (he' : m.exec body (is.map .go) = some m')
    (hstuck : ∀ i, m'.step body (.go i) = none) : ∀ t ∈ m'.th, t.pc = .idle :=
  C30_everyone_finishes_partial ⟨as, he⟩ (flat_exec ha (flat_init n d) he) is he' hstuck
end RW

/-! ### C126 -/
namespace SB
variable {K V I : Type} [LinearOrder K] [BEq V] [ReflBEq V] {cfg : SBCfg K V} {s s' s2 : SB K V I} {as bs : List (SBAct K V I)}

omit [ReflBEq V] in
theorem info_step {a : SBAct K V I} (hs : s.step cfg a = some s') (c k : Nat) (hb : s.sourceBuffer = some k)
    (h : s.infos c = .idle ∨ s.infos c = .test k ∨ s.infos c = .again) : s'.infos c = .idle ∨ s'.infos c = .test k ∨ s'.infos c = .again := by
  have hst := step_to hs
  cases hst
  all_goals try simp only [say, setThr, setBuf, setEvent, setNext, setDrop, setInfo, newSess, running] at *
  all_goals first | exact h | grind

/-- **C126** `auto_drop=True`, `maxlen` not 0: once an item of the latest session has been stored, every `source_reader_info` asked for is the info that the
source reported at the open of this session, whatever happens meanwhile (reads, evictions, `stop()`, the death of the thread) short of another `start()`; the
call always returns. -/
theorem C126_info (hd : cfg.autoDrop = true) (hm : cfg.maxlen ≠ some 0) (he : SB.init.exec cfg as = some s) (hl : s.start = none) (k : Nat)
    (hk : current s.log = some k) (hne : storedIn k s.log ≠ []) (c : Nat) (hc : s.infos c = .idle) (he2 : s.exec cfg bs = some s2)
    (hns : .start ∉ bs) :
    (s2.infos c ≠ .idle → ∃ s', s2.step cfg (.infoGo c) = some s') ∧
    ∀ a, a = .info c ∨ a = .infoGo c → s2.step cfg a = some s' → ∀ r, s'.log = s2.log ++ [.info r] → ∃ i, Ev.bufferMade k i ∈ s.log ∧ r = .ok (some i) := by
  have hsb : s.sourceBuffer = some k := by rw [(good he).log.cur (by simp [hl]), hk]
  obtain ⟨x0, hx0⟩ := Option.isSome_iff_exists.1 ((good he).inv.sb k hsb).1
  have hi0 := (good he).log.info k x0 hx0
  suffices H : ∀ (bs : List (SBAct K V I)) (s : SB K V I) (as : List (SBAct K V I)), SB.init.exec cfg as = some s → s.start = none →
      s.sourceBuffer = some k → storedIn k s.log ≠ [] → (s.infos c = .idle ∨ s.infos c = .test k ∨ s.infos c = .again) → s.exec cfg bs = some s2 →
      .start ∉ bs → (∃ as, SB.init.exec cfg as = some s2) ∧ s2.sourceBuffer = some k ∧ storedIn k s2.log ≠ [] ∧
        (s2.infos c = .idle ∨ s2.infos c = .test k ∨ s2.infos c = .again) ∧ (∀ e, e ∈ s.log → e ∈ s2.log) by
    obtain ⟨⟨as2, h1⟩, h2, h3, h4, h5⟩ := H bs s as he hl hsb hne (.inl hc) he2 hns
    have hg := good h1
    obtain ⟨x, hx⟩ := Option.isSome_iff_exists.1 (hg.inv.sb k h2).1
    have hxi : x.info = x0.info := C58_info_once h1 k _ _ (hg.log.info k x hx) (h5 _ hi0)
    have hit : x.cons.ch.buf.items ≠ [] := by
      have h6 := (C94_stored_increasing hd hm h1 k).2
      simp only [items, hx] at h6
      intro h0
      rw [h0, List.getLast?_nil] at h6
      exact h3 (List.getLast?_eq_none_iff.1 h6)
    have hlen : x.cons.ch.buf.len ≠ 0 := by simpa [SD.len] using hit
    refine ⟨fun hi => ?_, fun a ha hs r hr => ⟨x0.info, hi0, ?_⟩⟩
    · simp only [step]
      rcases h4 with h4 | h4 | h4
      · exact absurd h4 hi
      · simp [h4, hx, hlen]
      · simp [h4, h2, hx]
    · rcases ha with rfl | rfl
      · simp only [step] at hs
        rcases h4 with h4 | h4 | h4
        · simp only [h4, if_true, h2, Option.some.injEq] at hs
          subst hs
          simp [setInfo] at hr
        · simp [h4] at hs
        · simp [h4] at hs
      · simp only [step] at hs
        rcases h4 with h4 | h4 | h4
        · simp [h4] at hs
        · simp only [h4, hx, hlen, if_false, Option.some.injEq] at hs
          subst hs
          simp [setInfo] at hr
        · simp only [h4, h2, hx, Option.some.injEq] at hs
          subst hs
          simp only [say, setInfo, List.append_cancel_left_eq, List.cons.injEq, Ev.info.injEq, and_true] at hr
          rw [← hr, hxi]
  intro bs
  induction bs with
  | nil =>
    intro s as he hl hsb hne hc he2 _
    simp only [exec, Option.some.injEq] at he2
    subst he2
    exact ⟨⟨as, he⟩, hsb, hne, hc, fun _ h => h⟩
  | cons a bs ih =>
    intro s as he hl hsb hne hc he2 hns
    simp only [exec] at he2
    split at he2
    · rename_i s1 hs
      have ha : a ≠ .start := fun h => hns (by simp [h])
      obtain ⟨h1, h2, -⟩ := step_idle ha hs hl
      obtain ⟨new, hnew⟩ := step_log hs
      have hne1 : storedIn k s1.log ≠ [] := by
        rw [hnew, storedIn_append]
        simp [hne]
      obtain ⟨g1, g2, g3, g4, g5⟩ := ih s1 (as ++ [a]) (by rw [exec_append, he]; simp [exec, hs]) h1 (by rw [h2, hsb]) hne1
        (info_step hs c k hsb hc) he2 (fun h => hns (by simp [h]))
      exact ⟨g1, g2, g3, g4, fun e he => g5 e (by rw [hnew]; simp [he])⟩
    · cases he2
end SB

/-! ### C127 -/
namespace Src
variable {K V I : Type} [LT K] [DecidableLT K] [BEq V] {cfg : SrcCfg K V} {as : List (SrcAct K V I)} {s : Src K V I}

/-- The readers handed out so far, by `open_reader()` or `mk_reader()`. -/
def handedOut (log : List SrcEv) : List Nat := log.filterMap fun | .opened r _ _ => some r | .made r => some r | _ => none

theorem handedOut_snoc (l : List SrcEv) (e : SrcEv) : handedOut (l ++ [e]) =
    handedOut l ++ (match e with | .opened r _ _ => [r] | .made r => [r] | _ => []) := by
  simp only [handedOut, List.filterMap_append, List.filterMap_cons, List.filterMap_nil]
  cases e <;> rfl

/-- **C127** every reader that is handed out is a new one. Every execution. -/
theorem C127_new_readers (he : Src.init.exec cfg as = some s) : (handedOut s.log).Nodup := by
  suffices H : (handedOut s.log).Nodup ∧ ∀ r ∈ handedOut s.log, r < s.made from H.1
  refine exec_ind (P := fun s : Src K V I => (handedOut s.log).Nodup ∧ ∀ r ∈ handedOut s.log, r < s.made) ?_ (by simp [Src.init, handedOut]) he
  intro s a s' ⟨h1, h2⟩ hs
  have hst := step_to hs
  clear hs
  cases hst
  all_goals try simp only [say, setOnclose, handedOut_snoc, List.append_nil]
  all_goals first
    | exact ⟨h1, h2⟩
    | (refine ⟨List.nodup_append.2 ⟨h1, by simp, ?_⟩, ?_⟩
       · intro r hr r' hr'
         have := h2 r hr
         simp only [List.mem_singleton] at hr'
         omega
       · intro r hr
         rcases List.mem_append.1 hr with hr | hr
         · have := h2 r hr; omega
         · simp only [List.mem_singleton] at hr; omega)

/-- **C127** if no reader is closed twice and nobody replaces `onclose`: closing a reader of `open_reader()` succeeds, the source stops its stream buffer right
then exactly if no reader remains open, and at no other time; a reader that was live when it was returned stays live until it is closed, unless an exception
ends the reading thread. Every execution. -/
theorem C127_closed_once (he : Src.init.exec cfg as = some s) (hc : closedOnce s.log) (hu : ∀ r f, SrcEv.assigned r f ∉ s.log) :
    (∀ pre post r out, s.log = pre ++ .closed r out :: post → fromSource pre r →
      out = .ok () ∧ ((∃ post', post = .stopped :: post') ↔ ∀ r', ¬ isOpenReader (pre ++ [.closed r out]) r')) ∧
    (∀ pre post, s.log = pre ++ .stopped :: post → (∃ pre' r, pre = pre' ++ [.closed r (.ok ())] ∧ fromSource pre' r) ∧ ∀ r, ¬ isOpenReader pre r) ∧
    (∀ c x r b, s.sb = some (c, x) → x.log.any isDeath = false → SrcEv.opened r b true ∈ s.log → (∀ out, SrcEv.closed r out ∉ s.log) → live x b = true) :=
  ⟨fun _ _ _ _ hl hr => C45_stops_with_last_close_partial he hc hu hl hr, fun _ _ hl => C45_stops_only_on_last_close_partial he hc hu hl,
    fun _ _ _ _ hx hd ho hcl => C45_open_reader_live_partial he hc hu hx hd ho hcl⟩
end Src
end S2P
