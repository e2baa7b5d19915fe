import Verif.Proofs.StreamBuffer
/-
Each session buffer of a StreamBuffer, with its readers and consumers, is a run of the consumer machine (Model/Consumer.lean): so everything
proved about readers and consumers (C11–C27) holds for the readers of every session.
-/
namespace S2P
open Spec
variable {K V I : Type}

theorem Cons.step_stopped [LT K] [DecidableLT K] [BEq V] {cfg : Nat → Cfg} {s s' : Cons K V} {a : CAct K V} (ha : a.isReaders = true)
    (h : s.step cfg a = some s') : s'.stopped = s.stopped := by
  cases a with
  | call op => simp only [Cons.step, Option.some.injEq] at h; subst h; rfl
  | setStop => simp [CAct.isReaders] at ha
  | callNext i | callIter i | callRead i n p st | leave i =>
    simp only [Cons.step] at h
    split at h
    · injection h with h; subst h; rfl
    · simp at h
  | go i => exact (Cons.go_frame (i := i + 1) (by omega) h).stopped

/-- Readers do not change the buffer. -/
theorem Cons.step_buf [LT K] [DecidableLT K] [BEq V] {cfg : Nat → Cfg} {s s' : Cons K V} {a : CAct K V} (ha : a.isReaders = true)
    (h : s.step cfg a = some s') : s'.ch.buf = s.ch.buf := by
  cases a with
  | call op =>
    simp only [Cons.step, Option.some.injEq] at h; subst h
    cases op with
    | append v => simp [CAct.isReaders] at ha
    | drop v => simp [CAct.isReaders] at ha
    | rd i o => rfl
  | setStop => simp [CAct.isReaders] at ha
  | callNext i | callIter i | callRead i n p st | leave i =>
    simp only [Cons.step] at h
    split at h
    · injection h with h; subst h; rfl
    · simp at h
  | go i => exact (Cons.go_frame (i := i + 1) (by omega) h).buf

namespace SB
section
variable [LT K] [DecidableLT K] [BEq V] {cfg : SBCfg K V} {s s' : SB K V I} {a : SBAct K V I}

/-- How a step changes what the consumers of buffer `b` see. -/
theorem view_step (h : s.Inv) (hs : s.step cfg a = some s') (b : Nat) (c' : Cons K V) (hv : s'.view b = some c') :
    (∃ c, s.view b = some c ∧ (c' = c ∨ ∃ a, c.step cfg.rdCfg a = some c')) ∨
    (s.view b = none ∧ ∃ f, c' = { Cons.init cfg.key cfg.keyNone cfg.maxlen cfg.rdCfg with stopped := f }) := by
  have hst := step_to hs
  clear hs
  have hset : ∀ (e : Nat) (t : SB K V I), t.view b = some c' → (∀ b, t.buf b = s.buf b) → (∀ j, t.flag j = if j = e then true else s.flag j) →
      ∃ c, s.view b = some c ∧ (c' = c ∨ ∃ a, c.step cfg.rdCfg a = some c') := by
    intro e t hv h1 h2
    simp only [view, h1, Option.map_eq_some_iff] at hv ⊢
    obtain ⟨x, hx, rfl⟩ := hv
    refine ⟨_, ⟨x, hx, rfl⟩, ?_⟩
    rw [h2]
    split
    · exact .inr ⟨.setStop, rfl⟩
    · exact .inl rfl
  have hsame : ∀ (t : SB K V I), t.view b = some c' → (∀ b, t.buf b = s.buf b) → (∀ j, t.flag j = s.flag j) →
      ∃ c, s.view b = some c ∧ (c' = c ∨ ∃ a, c.step cfg.rdCfg a = some c') := by
    intro t hv h1 h2
    simp only [view, h1, h2] at hv
    exact ⟨c', hv, .inl rfl⟩
  have hcall : ∀ (t : SB K V I) (b' : Nat) (x : Sess K V I) (op : ChOp K V), t.view b = some c' → s.buf b' = some x →
      (∀ j, t.buf j = if j = b' then some { x with cons := (x.cons.call op).1 } else s.buf j) → (∀ j, t.flag j = s.flag j) →
      ∃ c, s.view b = some c ∧ (c' = c ∨ ∃ a, c.step cfg.rdCfg a = some c') := by
    intro t b' x op hv hx h1 h2
    simp only [view, h1, h2] at hv
    by_cases hb : b = b'
    · subst hb
      simp only [if_true, Option.map_some, Option.some.injEq] at hv
      refine ⟨{ x.cons with stopped := s.flag x.evt }, by simp only [view, hx, Option.map_some], .inr ⟨.call op, ?_⟩⟩
      rw [← hv]; rfl
    · rw [if_neg hb] at hv
      exact ⟨c', hv, .inl rfl⟩
  cases hst with
  | set1 e _ _ | set2 e _ _ | stop e _ | fin2 _ e _ _ => exact .inl (hset e _ hv (fun _ => rfl) (fun _ => rfl))
  | stored _ b' v x r _ hx _ => exact .inl (hcall _ b' x _ hv hx (fun _ => rfl) (fun _ => rfl))
  | refused _ b' v x r _ hx _ => exact .inl (hcall _ b' x _ hv hx (fun _ => rfl) (fun _ => rfl))
  | drop _ _ b' x _ hx => exact .inl (hcall _ b' x _ hv hx (fun _ => rfl) (fun _ => rfl))
  | attach _ _ j b' _ x' _ _ _ hx' op _ => exact .inl (hcall _ b' x' _ hv hx' (fun _ => rfl) (fun _ => rfl))
  | bufOk info e hp he =>
    by_cases hb : b = s.n - 1
    · subst hb
      refine .inr ⟨?_, s.flag e, ?_⟩
      · have := h.ph
        rw [hp] at this
        simp only [PhaseOk] at this
        simp [view, this.2.2.2.1]
      · simp only [view, say, setBuf, if_true, Option.map_some, newSess, Option.some.injEq] at hv
        exact hv.symm
    · refine .inl ⟨c', ?_, .inl rfl⟩
      simpa only [view, say, setBuf, if_neg hb] using hv
  | rd b' a' x c ha hx hs =>
    by_cases hb : b = b'
    · subst hb
      refine .inl ⟨{ x.cons with stopped := s.flag x.evt }, by simp only [view, hx, Option.map_some], .inr ⟨a', ?_⟩⟩
      simp only [view, setBuf, if_true, Option.map_some, Option.some.injEq] at hv
      have := Cons.step_stopped ha hs
      rw [hs, ← hv]
      simp only at this
      simp only [← this]
    · refine .inl ⟨c', ?_, .inl rfl⟩
      simpa only [view, setBuf, if_neg hb] using hv
  | _ => exact .inl (hsame _ hv (fun _ => rfl) (fun _ => rfl))

/-- What the consumers of buffer `b` see has been reached by a run of the consumer machine. -/
theorem view_reach {as : List (SBAct K V I)} (he : SB.init.exec cfg as = some s) (b : Nat) (c : Cons K V) (hv : s.view b = some c) :
    c.Reach cfg.key cfg.keyNone cfg.maxlen cfg.rdCfg := by
  have := exec_ind (P := fun s : SB K V I => s.Inv ∧ ∀ b c, s.view b = some c → c.Reach cfg.key cfg.keyNone cfg.maxlen cfg.rdCfg)
    (fun s a s' h hs => by
      refine ⟨h.1.step hs, fun b c' hv => ?_⟩
      rcases view_step h.1 hs b c' hv with ⟨c, hc, rfl | ⟨a, ha⟩⟩ | ⟨_, f, rfl⟩
      · exact h.2 b _ hc
      · exact (h.2 b _ hc).exec (as := [a]) (by simp only [Cons.exec, ha])
      · cases f with
        | false => exact ⟨[], rfl⟩
        | true => exact ⟨[.setStop], rfl⟩)
    (s := SB.init) (s' := s) ⟨Inv.init, fun b c hv => by simp [view, SB.init] at hv⟩ he
  exact this.2 b c hv

end

/-- The items retained in buffer `b` (none before it is made). -/
def items (s : SB K V I) (b : Nat) : List V := match s.buf b with | some x => x.cons.ch.buf.items | none => []

end SB

namespace Spec
theorem storedIn_append (b : Nat) (l l' : List (Ev V I)) : storedIn b (l ++ l') = storedIn b l ++ storedIn b l' := by simp [storedIn]
theorem droppedFrom_append (b : Nat) (l l' : List (Ev V I)) : droppedFrom b (l ++ l') = droppedFrom b l ++ droppedFrom b l' := by
  simp [droppedFrom]
theorem dataRead_append (b : Nat) (l l' : List (Ev V I)) : dataRead b (l ++ l') = dataRead b l ++ dataRead b l' := by simp [dataRead]
end Spec

namespace SB
section
variable [LinearOrder K] [BEq V] [ReflBEq V] {cfg : SBCfg K V} {s s' : SB K V I} {a : SBAct K V I}

/-- How a step changes the items of buffer `b` and what the log says about them. -/
inductive DataStep (cfg : SBCfg K V) (b : Nat) (s s' : SB K V I) : Prop
  | same (h1 : s'.items b = s.items b) (h2 : storedIn b s'.log = storedIn b s.log) (h3 : droppedFrom b s'.log = droppedFrom b s.log)
      (h4 : ∀ t v, s.thr t = .storing b v → s'.thr t = .storing b v ∨ s'.thr t = .fin1)
  | stored (t : Nat) (v : V) (h0 : s.thr t = .storing b v) (h0' : s'.thr t = .check) (hm : mayAppend cfg.key (s.items b) v = true)
      (h1 : s'.items b = newest cfg.maxlen (s.items b ++ [v])) (h2 : storedIn b s'.log = storedIn b s.log ++ [v])
      (h3 : droppedFrom b s'.log = droppedFrom b s.log) (h4 : ∀ t', t' ≠ t → s'.thr t' = s.thr t')
  | dropped (k : Nat) (ha : cfg.autoDrop = false) (hb : ∃ c n, s.drops c = some (b, n)) (h1 : s'.items b = (s.items b).drop k)
      (h2 : storedIn b s'.log = storedIn b s.log)
      (h3 : droppedFrom b s'.log = droppedFrom b s.log ++ (s.items b).take k) (h4 : s'.thr = s.thr)

theorem swf_of_reach {c : Cons K V} (h : c.Reach cfg.key cfg.keyNone cfg.maxlen cfg.rdCfg) :
    c.ch.buf.SWF ∧ c.ch.buf.key = cfg.key ∧ c.ch.buf.maxlen = cfg.maxlen :=
  ⟨h.ch.sim.swf, h.ch.sim.key, h.ch.sim.maxlen⟩

omit [LinearOrder K] [BEq V] [ReflBEq V] in
/-- Only with `auto_drop=False` does `drop()` get as far as looking up the buffer. -/
theorem drops_step [LT K] [DecidableLT K] [BEq V] (h : ∀ c, s.drops c ≠ none → cfg.autoDrop = false) (hs : s.step cfg a = some s') :
    ∀ c, s'.drops c ≠ none → cfg.autoDrop = false := by
  have hst := step_to hs
  clear hs
  cases hst
  all_goals
    try simp only [say, setThr, setBuf, setEvent, setNext, setDrop, setInfo, newSess, running] at *
  all_goals first
    | exact h
    | grind

omit [LinearOrder K] [BEq V] [ReflBEq V] in
/-- A `drop()` in progress works on the buffer it found. -/
theorem drops_new [LT K] [DecidableLT K] [BEq V] (hs : s.step cfg a = some s') (c b : Nat) (n : Int) (h : s'.drops c = some (b, n)) :
    s.drops c = some (b, n) ∨ s.sourceBuffer = some b := by
  have hst := step_to hs
  clear hs
  cases hst
  all_goals
    try simp only [say, setThr, setBuf, setEvent, setNext, setDrop, setInfo, newSess, running] at *
  all_goals first
    | exact .inl h
    | (split at h
       · first
         | (cases h; exact .inr ‹_›)
         | simp at h
       · exact .inl h)

/-- Every buffer is well-formed. -/
structure BufsOk (cfg : SBCfg K V) (s : SB K V I) : Prop where
  reach : ∀ b c, s.view b = some c → c.Reach cfg.key cfg.keyNone cfg.maxlen cfg.rdCfg
  drops : ∀ c, s.drops c ≠ none → cfg.autoDrop = false

theorem BufsOk.buf (h : s.BufsOk cfg) {b : Nat} {x : Sess K V I} (hx : s.buf b = some x) :
    x.cons.ch.buf.SWF ∧ x.cons.ch.buf.key = cfg.key ∧ x.cons.ch.buf.maxlen = cfg.maxlen := by
  have := h.reach b { x.cons with stopped := s.flag x.evt } (by simp only [view, hx, Option.map_some])
  have h2 := swf_of_reach this
  exact h2

theorem data_step (h : s.Inv) (hB : s.BufsOk cfg) (hs : s.step cfg a = some s') (b : Nat) : DataStep cfg b s s' := by
  have hst := step_to hs
  clear hs
  have hplain : ∀ (t : SB K V I) (l : List (Ev V I)), t.items b = s.items b → t.log = s.log ++ l → storedIn b l = [] → droppedFrom b l = [] →
      (∀ u v, s.thr u = .storing b v → t.thr u = .storing b v ∨ t.thr u = .fin1) → DataStep cfg b s t := by
    intro t l h1 h2 h3 h4 h5
    exact .same h1 (by rw [h2, storedIn_append, h3, List.append_nil]) (by rw [h2, droppedFrom_append, h4, List.append_nil]) h5
  have hthr : ∀ (t : Nat) (p : TPC V), (∀ b v, s.thr t ≠ .storing b v) → ∀ u v, s.thr u = .storing b v →
      (s.setThr t p).thr u = .storing b v ∨ (s.setThr t p).thr u = .fin1 := by
    intro t p h1 u v hu
    simp only [setThr]
    split
    · rename_i e; subst e; exact absurd hu (h1 _ _)
    · exact .inl hu
  have hnone : ∀ (t : SB K V I) (l : List (Ev V I)), t.items b = s.items b → t.log = s.log ++ l → storedIn b l = [] → droppedFrom b l = [] →
      t.thr = s.thr → DataStep cfg b s t := by
    intro t l h1 h2 h3 h4 h5
    exact hplain t l h1 h2 h3 h4 (fun u v hu => .inl (by rw [h5]; exact hu))
  cases hst with
  | start _ | chk1 _ | clr1 _ | chk2 _ | clr2 _ | wipe _ | mkEvt _ | stopEnd _ | next _ _ | nextMake _ _ _ _ _ | nextStore _ _ _
  | dropLook _ _ _ _ _ _ | infoLook _ _ _ _ | infoTested _ _ _ _ _ _ =>
    exact hnone _ [] rfl (by simp [setNext, setDrop, setInfo]) rfl rfl rfl
  | set1 e _ _ | set2 e _ _ => exact hnone _ [.eventSet e] rfl rfl rfl rfl rfl
  | stop e _ => exact hnone _ [.eventSet e, .stopCalled (.ok ())] rfl (by simp [say, setEvent]) rfl rfl rfl
  | openOk _ | openRaise _ | bufRaise _ | stopNone _ | dropAuto _ _ _ _ | dropNone _ _ _ _ _ | mkReader _ | attachNone _ _ _ _ _ | isRunning _
  | infoNone _ _ _ | infoEmpty _ _ _ _ _ _ | infoGone _ _ _ | infoOk _ _ _ _ _ _
  | nextNone _ _ _ _ | nextGone _ _ _ | nextUse _ _ _ _ =>
    exact hnone _ [_] rfl rfl rfl rfl rfl
  | mkThr hp =>
    refine hplain _ [] rfl (by simp [setThr]) rfl rfl (hthr s.n .fresh ?_)
    intro b v; rw [h.noThr _ (Nat.le_refl _)]; simp
  | launch t hp ht =>
    refine hplain _ [_] rfl rfl rfl rfl (hthr t .check ?_)
    intro b v
    have := h.ph
    rw [hp] at this
    simp only [PhaseOk] at this
    rw [ht] at this
    injection this.2.1 with e
    rw [e, this.2.2.1]; simp
  | check t e h1 _ => exact hplain _ [] rfl (by simp [setThr]) rfl rfl (hthr t _ (by rw [h1]; simp))
  | capAuto t h1 _ => exact hplain _ [] rfl (by simp [setThr]) rfl rfl (hthr t _ (by rw [h1]; simp))
  | capNone t h1 _ _ => exact hplain _ [_] rfl rfl rfl rfl (hthr t _ (by rw [h1]; simp))
  | capLook t _ h1 _ _ => exact hplain _ [] rfl (by simp [setThr]) rfl rfl (hthr t _ (by rw [h1]; simp))
  | capUnbounded t _ _ h1 _ _ => exact hplain _ [_] rfl rfl rfl rfl (hthr t _ (by rw [h1]; simp))
  | cap t _ _ _ h1 _ _ => exact hplain _ [] rfl (by simp [setThr]) rfl rfl (hthr t _ (by rw [h1]; simp))
  | appendNone t _ h1 _ => exact hplain _ [_] rfl rfl rfl rfl (hthr t _ (by rw [h1]; simp))
  | append t v b' h1 _ => exact hplain _ [] rfl (by simp [setThr]) rfl rfl (hthr t _ (by rw [h1]; simp))
  | sleeping t h1 => exact hplain _ [] rfl (by simp [setThr]) rfl rfl (hthr t _ (by rw [h1]; simp))
  | fin1 t _ h1 _ => exact hplain _ [] rfl (by simp [setThr]) rfl rfl (hthr t _ (by rw [h1]; simp))
  | fin2 t e h1 _ => exact hplain _ [.eventSet e] rfl rfl rfl rfl (hthr t _ (by rw [h1]; simp))
  | readSome t v h1 => exact hplain _ [_] rfl rfl rfl rfl (hthr t _ (by rw [h1]; simp))
  | readNone t h1 => exact hplain _ [_] rfl rfl rfl rfl (hthr t _ (by rw [h1]; simp))
  | readRaise t e h1 => exact hplain _ [_] rfl rfl rfl rfl (hthr t _ (by rw [h1]; simp))
  | close t ok h1 => exact hplain _ [_] rfl rfl rfl rfl (hthr t _ (by rw [h1]; simp))
  | keyRaise t e b' v h1 =>
    refine hplain _ [_] rfl rfl rfl rfl ?_
    intro u v' hu
    simp only [say, setThr]
    split
    · exact .inr rfl
    · exact .inl hu
  | bufOk info e hp he =>
    refine hnone _ [_] ?_ rfl rfl rfl rfl
    simp only [items, say, setBuf]
    by_cases hb : b = s.n - 1
    · have := h.ph
      rw [hp] at this
      simp only [PhaseOk] at this
      rw [hb, this.2.2.2.1]; simp [newSess, Cons.init, Ch.init, SD.empty]
    · simp only [if_neg hb]
  | attach b1 i j b' x x' _ _ _ hx' op _ =>
    refine hnone _ [_] ?_ rfl rfl rfl rfl
    simp only [items, say, setBuf]
    by_cases hb : b = b'
    · subst hb; simp only [if_true, hx']; rfl
    · simp only [if_neg hb]
  | rd b' a' x c ha hx hs =>
    refine hnone _ [] ?_ (by simp [setBuf]) rfl rfl rfl
    simp only [items, setBuf]
    by_cases hb : b = b'
    · subst hb
      simp only [if_true, hx]
      have := Cons.step_buf ha hs
      simp only at this
      rw [this]
    · simp only [if_neg hb]
  | stored t b' v x r h1 hx hr =>
    by_cases hb : b = b'
    · subst hb
      obtain ⟨hwf, hk, hm⟩ := hB.buf hx
      have happ := SD.append_eq hwf.wf.aligned hwf.wf.bounded v
      have hitems : s.items b = x.cons.ch.buf.items := by simp only [items, hx]
      simp only [Cons.call, Ch.step] at hr
      rw [happ] at hr
      by_cases hma : mayAppend x.cons.ch.buf.key x.cons.ch.buf.items v = true
      · refine .stored t v h1 (by simp [say, setThr]) (by rw [hitems, ← hk]; exact hma) ?_ (by
          simp only [say, setBuf, setThr, storedIn_append]; simp [storedIn]) (by
          simp only [say, setBuf, setThr, droppedFrom_append]; simp [droppedFrom]) (fun t' ht' => by simp [say, setBuf, setThr, ht'])
        rw [hitems]
        simp only [items, say, setBuf, setThr, if_true, Cons.call, Ch.step]
        rw [happ, if_pos hma]
        simp only [hm]
      · rw [if_neg hma] at hr; simp [Except.map] at hr
    · refine .same ?_ ?_ ?_ ?_
      · simp only [items, say, setBuf, setThr, if_neg hb]
      · simp only [say, setBuf, setThr, storedIn_append]; simp [storedIn, Ne.symm hb]
      · simp only [say, setBuf, setThr, droppedFrom_append]; simp [droppedFrom]
      · intro u w hu
        refine .inl ?_
        simp only [say, setBuf, setThr]
        split
        · rename_i e; subst e; rw [h1] at hu; injection hu with e; exact absurd e.symm hb
        · exact hu
  | refused t b' v x e h1 hx hr =>
    have hitems : ∀ c, s.items c = (s.setBuf b' { x with cons := (x.cons.call (.append v)).1 }).items c := by
      intro c
      simp only [items, setBuf]
      by_cases hc : c = b'
      · subst hc
        obtain ⟨hwf, hk, hm⟩ := hB.buf hx
        have happ := SD.append_eq hwf.wf.aligned hwf.wf.bounded v
        simp only [if_true, hx, Cons.call, Ch.step] at hr ⊢
        rw [happ] at hr ⊢
        split at hr
        · simp [Except.map] at hr
        · rename_i hma; simp only [if_neg hma]
      · simp only [if_neg hc]
    refine hplain _ [_] (hitems b).symm rfl rfl rfl ?_
    intro u v' hu
    simp only [say, setThr]
    split
    · exact .inr rfl
    · exact .inl hu
  | drop c k b' x hc hx =>
    have ha := hB.drops c (by simp [hc])
    by_cases hb : b = b'
    · subst hb
      obtain ⟨hwf, hk, hm⟩ := hB.buf hx
      have hitems : s.items b = x.cons.ch.buf.items := by simp only [items, hx]
      have hd : (x.cons.call (.drop k)).1.ch.buf.items = x.cons.ch.buf.items.drop k.toNat := by
        simp only [Cons.call, Ch.step, SD.drop]
        rw [SD.dropLoop_eq hwf.wf.len_keys]
      refine .dropped (min k.toNat x.cons.ch.buf.items.length) ha ⟨c, k, hc⟩ ?_ ?_ ?_ rfl
      · rw [hitems]
        simp only [items, say, setBuf, setDrop, if_true]
        rw [hd]
        by_cases hl : k.toNat ≤ x.cons.ch.buf.items.length
        · rw [Nat.min_eq_left hl]
        · rw [Nat.min_eq_right (by omega), List.drop_of_length_le (by omega), List.drop_of_length_le (by omega)]
      · simp only [say, setBuf, setDrop, storedIn_append]; simp [storedIn]
      · simp only [say, setBuf, setDrop, droppedFrom_append, hitems]
        rw [hd]
        simp only [droppedFrom, List.flatMap_cons, List.flatMap_nil, if_true, List.append_nil, List.length_drop]
        congr 2
        omega
    · refine hnone _ [_, _] ?_ (by simp only [say, setBuf, setDrop, List.append_assoc]; rfl) rfl ?_ rfl
      · simp only [items, say, setBuf, setDrop, if_neg hb]
      · simp [droppedFrom, Ne.symm hb]

theorem bufsOk_exec {as : List (SBAct K V I)} (he : SB.init.exec cfg as = some s) : s.Inv ∧ s.BufsOk cfg :=
  ⟨inv_exec he, fun b c hv => view_reach he b c hv, exec_ind (P := fun s => ∀ c, s.drops c ≠ none → cfg.autoDrop = false)
    (fun _ _ _ h hs => drops_step h hs) (by simp [SB.init]) he⟩

end

end SB
end S2P
