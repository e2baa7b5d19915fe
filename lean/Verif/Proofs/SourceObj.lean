import Verif.Model.SourceObj
import Verif.Spec.SourceObj
import Verif.Proofs.Simply
/- Executions with a source object are executions of the stream buffer; what the threads see of the object. -/
namespace S2P
open Spec
variable {σ K V I : Type}

theorem answers_snoc (read : σ → Py (Option V) × σ) (st : σ) (n : Nat) :
    answers read st (n + 1) = answers read st n ++ [(read (after read st n)).1] := by
  induction n generalizing st with
  | zero => rfl
  | succ n ih => rw [answers, ih, answers, after]; rfl

theorem after_snoc (read : σ → Py (Option V) × σ) (st : σ) (n : Nat) : after read st (n + 1) = (read (after read st n)).2 := by
  induction n generalizing st with
  | zero => rfl
  | succ n ih => rw [after, ih]; rfl

theorem answers_length (read : σ → Py (Option V) × σ) (st : σ) (n : Nat) : (answers read st n).length = n := by
  induction n generalizing st with
  | zero => rfl
  | succ n ih => simp [answers, ih]

theorem answered_append (t : Nat) (l l' : List (Ev V I)) : answered t (l ++ l') = answered t l ++ answered t l' := by simp [answered]

theorem answered_read (t u : Nat) (r : Option V) : answered u ([.read t r] : List (Ev V I)) = if u = t then [.ok r] else [] := by
  by_cases h : t = u
  · subst h; simp [answered]
  · simp [answered, h, Ne.symm h]

theorem answered_raise (t u : Nat) (e : PyErr) : answered u ([.readRaised t e] : List (Ev V I)) = if u = t then [.error e] else [] := by
  by_cases h : t = u
  · subst h; simp [answered]
  · simp [answered, h, Ne.symm h]

theorem dataRead_eq (t : Nat) (l : List (Ev V I)) : dataRead t l = dataOf (answered t l) := by
  induction l with
  | nil => rfl
  | cons e l ih =>
    simp only [dataRead, answered, dataOf] at ih ⊢
    cases e <;> simp only [List.filterMap_cons] <;> try exact ih
    · rename_i t' r
      by_cases h : t' = t
      · cases r <;> simp [h, ih]
      · cases r <;> simp [h, ih]
    · rename_i t' e
      by_cases h : t' = t <;> simp [h, ih]

namespace ObjSB
section
variable [LT K] [DecidableLT K] [BEq V] {o : SrcObj σ K V I} {cfg : SBCfg K V} {s s' : ObjSB σ K V I} {x : ObjAct K V I}

/-- Not a call of `open`, `info`, `read` or `close`. -/
def _root_.S2P.SBAct.noCall {K V I : Type} : SBAct K V I → Bool
  | .openOk | .openRaise | .bufOk _ | .bufRaise | .readOk _ _ | .readRaise _ _ | .close _ _ => false
  | _ => true

/-- What a step does. -/
inductive Below (o : SrcObj σ K V I) (cfg : SBCfg K V) (s s' : ObjSB σ K V I) (x : ObjAct K V I) : Prop
  | other (a : SBAct K V I) (hx : x = .other a ∨ (∃ t, a = .thr t) ∨ ∃ t e, a = .keyRaise t e) (ha : a.noCall = true)
      (hk : ∀ t b v, a = .thr t → s.sb.thr t = .storing b v → ∃ k, o.key v = .ok k)
      (hr : ∀ t e, a = .keyRaise t e → ∃ b v, s.sb.thr t = .storing b v ∧ o.key v = .error e) (h : s.sb.step cfg a = some s'.sb) (h1 : s'.st = s.st)
      (h2 : s'.opened = s.opened)
  | openOk (hx : x = .open') (h : s.sb.step cfg .openOk = some s'.sb) (h0 : o.open' s.st = (.ok (), s'.st))
      (h2 : s'.opened = fun k => if k + 1 = s.sb.n then some s'.st else s.opened k)
  | openRaise (hx : x = .open') (e : PyErr) (h : s.sb.step cfg .openRaise = some s'.sb) (h0 : o.open' s.st = (.error e, s'.st))
      (h2 : s'.opened = s.opened)
  | bufOk (hx : x = .buf) (i : I) (h : s.sb.step cfg (.bufOk i) = some s'.sb) (h0 : o.info s.st = .ok i) (h1 : s'.st = s.st) (h2 : s'.opened = s.opened)
  | bufRaise (hx : x = .buf) (e : PyErr) (h : s.sb.step cfg .bufRaise = some s'.sb) (h0 : o.info s.st = .error e) (h1 : s'.st = s.st)
      (h2 : s'.opened = s.opened)
  | readOk (t : Nat) (hx : x = .read t) (r : Option V) (h : s.sb.step cfg (.readOk t r) = some s'.sb) (h0 : o.read s.st = (.ok r, s'.st))
      (h2 : s'.opened = s.opened)
  | readRaise (t : Nat) (hx : x = .read t) (e : PyErr) (h : s.sb.step cfg (.readRaise t e) = some s'.sb) (h0 : o.read s.st = (.error e, s'.st))
      (h2 : s'.opened = s.opened)
  | close (t : Nat) (hx : x = .close t) (ok : Bool) (h : s.sb.step cfg (.close t ok) = some s'.sb) (h0 : (o.close s.st).2 = s'.st)
      (hok : ok = true ↔ (o.close s.st).1 = .ok ()) (h2 : s'.opened = s.opened)

theorem below (hs : s.step o cfg x = some s') : Below o cfg s s' x := by
  unfold step at hs
  split at hs
  · simp at hs
  rename_i a st hact
  obtain ⟨y, hy, rfl⟩ := Option.map_eq_some_iff.1 hs
  unfold act at hact
  cases x with
  | open' =>
    dsimp only at hact
    split at hact <;> (injection hact with hact; injection hact with h1 h2; subst h1; subst h2)
    · exact .openOk rfl hy ‹_› rfl
    · exact .openRaise rfl _ hy ‹_› rfl
  | buf =>
    dsimp only at hact
    split at hact <;> (injection hact with hact; injection hact with h1 h2; subst h1; subst h2)
    · exact .bufOk rfl _ hy ‹_› rfl rfl
    · exact .bufRaise rfl _ hy ‹_› rfl rfl
  | read t =>
    dsimp only at hact
    split at hact <;> (injection hact with hact; injection hact with h1 h2; subst h1; subst h2)
    · exact .readOk t rfl _ hy ‹_› rfl
    · exact .readRaise t rfl _ hy ‹_› rfl
  | close t =>
    dsimp only at hact
    split at hact <;> (rename_i hc; injection hact with hact; injection hact with h1 h2; subst h1; subst h2)
    · exact .close t rfl _ hy (by rw [hc]) (by rw [hc]; simp) rfl
    · exact .close t rfl _ hy (by rw [hc]) (by rw [hc]; simp) rfl
  | store t =>
    dsimp only at hact
    split at hact
    · rename_i b v ht
      split at hact
      · rename_i k hk
        injection hact with hact; injection hact with h1 h2; subst h1; subst h2
        refine .other _ (.inr (.inl ⟨_, rfl⟩)) rfl ?_ (by simp) hy rfl rfl
        intro t' b' v' e1 e2
        injection e1 with e1; subst e1
        rw [ht] at e2; injection e2 with e2 e3; subst e3
        exact ⟨k, hk⟩
      · rename_i e hk
        injection hact with hact; injection hact with h1 h2; subst h1; subst h2
        refine .other _ (.inr (.inr ⟨_, _, rfl⟩)) rfl (by simp) ?_ hy rfl rfl
        intro t' e' e1
        injection e1 with e1 e2; subst e1; subst e2
        exact ⟨b, v, ht, hk⟩
    · simp at hact
  | other a' =>
    dsimp only at hact
    split at hact
    · rename_i ha
      simp only [Bool.and_eq_true, Bool.not_eq_true'] at ha
      injection hact with hact; injection hact with h1 h2; subst h1; subst h2
      refine .other _ (.inl rfl) ?_ ?_ ?_ hy rfl ?_
      · cases a' <;> simp_all [SBAct.notSource, SBAct.noCall]
      · intro t b v e1 e2
        rw [e1] at ha
        simp [SB.stores, e2] at ha
      · intro t e e1
        rw [e1] at ha
        simp [SBAct.notSource] at ha
      · cases a' <;> simp_all [SBAct.notSource]
    · simp at hact

theorem Below.sb (h : Below o cfg s s' x) : ∃ a, s.sb.step cfg a = some s'.sb ∧ (a = .startGo → x = .other .startGo) := by
  cases h with
  | other a hx ha hk hr h => exact ⟨a, h, fun e => by subst e; simpa using hx⟩
  | openOk hx h => exact ⟨_, h, by simp⟩
  | openRaise hx e h => exact ⟨_, h, by simp⟩
  | bufOk hx i h => exact ⟨_, h, by simp⟩
  | bufRaise hx e h => exact ⟨_, h, by simp⟩
  | readOk t hx r h => exact ⟨_, h, by simp⟩
  | readRaise t hx e h => exact ⟨_, h, by simp⟩
  | close t hx ok h => exact ⟨_, h, by simp⟩

/-- There is a settled execution of the stream buffer alone that reaches the same state. -/
def RealS (cfg : SBCfg K V) (s : SB K V I) : Prop := ∃ bs, SB.init.exec cfg bs = some s ∧ SB.init.Settled cfg bs

theorem RealS.step (h : RealS cfg s.sb) (hb : Below o cfg s s' x) (hset : s.SettledAt x) : RealS cfg s'.sb := by
  obtain ⟨bs, he, hs⟩ := h
  obtain ⟨a, ha, hx⟩ := hb.sb
  refine ⟨bs ++ [a], SB.exec_snoc he ha, hs.snoc he fun e hw t => ?_⟩
  rcases hset .startGo (hx e) rfl hw t with h | h | h <;> rw [h] <;> rfl

theorem exec_ind_settled {P : ObjSB σ K V I → Prop} {xs : List (ObjAct K V I)}
    (hstep : ∀ s x s', x ∈ xs → P s → s.step o cfg x = some s' → s.SettledAt x → P s')
    {s s' : ObjSB σ K V I} (h : P s) (he : s.exec o cfg xs = some s') (hset : s.Settled o cfg xs) : P s' := by
  induction xs generalizing s with
  | nil => simp only [exec, Option.some.injEq] at he; exact he ▸ h
  | cons a as ih =>
    simp only [exec] at he
    split at he
    · exact ih (fun s x s' hx => hstep s x s' (by simp [hx])) (hstep _ _ _ List.mem_cons_self h ‹_› hset.1) he (hset.2 _ ‹_›)
    · simp at he

/-- What is known of the object in settled executions. -/
structure Knows (o : SrcObj σ K V I) (s : ObjSB σ K V I) : Prop where
  seen : ∀ t st, s.opened t = some st → answered t s.sb.log = answers o.read st (answered t s.sb.log).length
  st : ∀ t st, t + 1 = s.sb.n → s.opened t = some st → s.sb.thr t ≠ .done → s.st = after o.read st (answered t s.sb.log).length
  fresh : ∀ t, s.sb.thr t = .unborn ∨ s.sb.thr t = .fresh → answered t s.sb.log = []
  live : ∀ t, s.sb.thr t ≠ .unborn → s.sb.thr t ≠ .fresh → (s.opened t).isSome
  made : s.sb.start = some .mkBuf ∨ s.sb.start = some .launch → (s.opened (s.sb.n - 1)).isSome
  new : ∀ t, (s.opened t).isSome → t < s.sb.n
  notYet : s.sb.start = some .mkEvt ∨ s.sb.start = some .opening → s.opened (s.sb.n - 1) = none

theorem Knows.init (st : σ) : Knows o (ObjSB.init st : ObjSB σ K V I) := by
  constructor <;> simp [ObjSB.init, SB.init, answered]

/-- A step that is not a call on the source adds no answers. -/
theorem answered_other {sb sb' : SB K V I} {a : SBAct K V I} (ha : a.noCall = true) (hs : sb.step cfg a = some sb') (t : Nat) :
    answered t sb'.log = answered t sb.log := by
  have hst := SB.step_to hs
  clear hs
  cases hst
  all_goals try simp only [SB.say, SB.setThr, SB.setBuf, SB.setEvent, SB.setNext, SB.setDrop, SB.setInfo, answered_append]
  all_goals first
    | simp [answered]; done
    | simp [SBAct.noCall] at ha

/-- How a step that is not a call on the source moves the threads. -/
theorem thr_other {sb sb' : SB K V I} {a : SBAct K V I} (h : sb.Inv) (ha : a.noCall = true) (hs : sb.step cfg a = some sb') :
    (∀ t, (sb'.thr t = .unborn → sb.thr t = .unborn) ∧ (sb'.thr t = .fresh → sb.thr t = .unborn ∨ sb.thr t = .fresh) ∧
      (sb.thr t = .done → sb'.thr t = .done) ∧
      (sb'.thr t ≠ .unborn → sb'.thr t ≠ .fresh → (sb.thr t ≠ .unborn ∧ sb.thr t ≠ .fresh) ∨ (sb.start = some .launch ∧ t = sb.n - 1)) ∧
      (sb'.thr t = .done → sb.thr t = .done)) ∧
    (sb'.start = some .mkBuf → sb.start = some .mkBuf ∧ sb'.n = sb.n) ∧
    (sb'.start = some .launch → sb.start = some .launch ∧ sb'.n = sb.n) ∧
    (sb'.n = sb.n ∨ sb'.n = sb.n + 1) ∧
    (sb'.start = some .mkEvt ∨ sb'.start = some .opening →
      ((sb.start = some .mkEvt ∨ sb.start = some .opening) ∧ sb'.n = sb.n) ∨ sb'.n = sb.n + 1) := by
  have h1 := h.noThr
  have h8 := h.ph
  clear h
  have hst := SB.step_to hs
  clear hs
  cases hst
  all_goals try simp only [SB.say, SB.setThr, SB.setBuf, SB.setEvent, SB.setNext, SB.setDrop, SB.setInfo, SB.newSess, SB.running] at *
  all_goals first
    | simp [SBAct.noCall] at ha; done
    | grind [SB.PhaseOk]

/-- A `read()` in thread `t`. -/
theorem Knows.read (h : Knows o s) (hi2 : s.sb.Inv2) (t : Nat) (ans : Py (Option V)) (p : TPC V) (ht : s.sb.thr t = .reading)
    (hp : p ≠ .unborn ∧ p ≠ .fresh ∧ p ≠ .done) (h0 : o.read s.st = (ans, s'.st)) (e2 : s'.opened = s.opened)
    (e3 : s'.sb.thr = fun u => if u = t then p else s.sb.thr u) (e4 : s'.sb.n = s.sb.n) (e5 : s'.sb.start = s.sb.start)
    (e6 : ∀ u, answered u s'.sb.log = answered u s.sb.log ++ if u = t then [ans] else []) : Knows o s' := by
  obtain ⟨h1, h2, h3, h4, h5, h6, h7⟩ := h
  have hn := (hi2.solo t (by rw [ht]; rfl)).1
  obtain ⟨st0, hst0⟩ := Option.isSome_iff_exists.1 (h4 t (by rw [ht]; simp) (by rw [ht]; simp))
  have hcur := h2 t st0 hn hst0 (by rw [ht]; simp)
  have hseen := h1 t st0 hst0
  refine ⟨?_, ?_, ?_, ?_, ?_, ?_, ?_⟩
  · intro u st hu
    rw [e2] at hu
    rw [e6]
    by_cases hut : u = t
    · subst hut
      rw [hst0] at hu; injection hu with hu; subst hu
      rw [if_pos rfl, List.length_append, List.length_singleton, answers_snoc, ← hseen, ← hcur, h0]
    · rw [if_neg hut, List.append_nil]; exact h1 u st hu
  · intro u st hun hu hd
    rw [e4] at hun
    have : u = t := by omega
    subst this
    rw [e2, hst0] at hu; injection hu with hu; subst hu
    rw [e6, if_pos rfl, List.length_append, List.length_singleton, after_snoc, ← hcur, h0]
  · intro u hu
    rw [e3] at hu
    by_cases hut : u = t
    · simp only [hut, if_true] at hu; grind
    · rw [e6, if_neg hut, List.append_nil]; simp only [hut, if_false] at hu; exact h3 u hu
  · intro u hu hf
    rw [e3] at hu hf
    rw [e2]
    by_cases hut : u = t
    · subst hut; rw [hst0]; rfl
    · simp only [hut, if_false] at hu hf; exact h4 u hu hf
  · rw [e2, e4, e5]; exact h5
  · rw [e2, e4]; exact h6
  · rw [e2, e4, e5]; exact h7

theorem Knows.step (h : Knows o s) (hi : s.sb.Inv) (hi2 : s.sb.Inv2) (hb : Below o cfg s s' x) : Knows o s' := by
  obtain ⟨h1, h2, h3, h4, h5, h6, h7⟩ := h
  obtain ⟨st', sb', op'⟩ := s'
  cases hb with
  | other a hx ha hk hr hs e1 e2 =>
    have hans := answered_other ha hs
    obtain ⟨k1, k2, k3, k4, k5⟩ := thr_other hi ha hs
    refine ⟨?_, ?_, ?_, ?_, ?_, ?_, ?_⟩
    · intro t st ht; rw [hans]; rw [e2] at ht; exact h1 t st ht
    · intro t st hn ht hd
      rw [hans, e1]; rw [e2] at ht
      have := h6 t (by rw [ht]; rfl)
      have hd' : s.sb.thr t ≠ .done := fun e => hd ((k1 t).2.2.1 e)
      exact h2 t st (by omega) ht hd'
    · intro t ht; rw [hans]; refine h3 t ?_
      have := k1 t
      grind
    · intro t hu hf
      rw [e2]
      rcases (k1 t).2.2.2.1 hu hf with ⟨g1, g2⟩ | ⟨g1, rfl⟩
      · exact h4 t g1 g2
      · exact h5 (.inr g1)
    · intro hp
      rw [e2]
      rcases hp with hp | hp
      · obtain ⟨g1, g2⟩ := k2 hp; rw [g2]; exact h5 (.inl g1)
      · obtain ⟨g1, g2⟩ := k3 hp; rw [g2]; exact h5 (.inr g1)
    · intro t ht; rw [e2] at ht; have := h6 t ht; omega
    · intro hp
      rw [e2]
      rcases k5 hp with ⟨g1, g2⟩ | g
      · rw [g2]; exact h7 g1
      · rw [g]
        cases ho : s.opened (s.sb.n + 1 - 1) with
        | none => rfl
        | some st => have := h6 _ (by rw [ho]; rfl); omega
  | openOk hx hs h0 e2 =>
    have hp := hi.ph
    have hst := SB.step_to hs
    clear hs
    dsimp only at *
    cases hst
    rename_i hst
    rw [hst] at hp
    simp only [SB.PhaseOk] at hp
    simp only [SB.say, answered_append] at *
    have hnone : ∀ t, answered t ([Ev.opened (s.sb.n - 1)] : List (Ev V I)) = [] := fun t => by simp [answered]
    have hf := h3 (s.sb.n - 1) (.inr hp.2.2.1)
    refine ⟨?_, ?_, ?_, ?_, ?_, ?_, ?_⟩ <;> (try dsimp only) <;> (try simp only [answered_append, hnone, List.append_nil])
    · intro t st ht
      rw [e2] at ht
      dsimp only at ht ⊢
      split at ht
      · have : t = s.sb.n - 1 := by omega
        subst this
        rw [hf]; rfl
      · exact h1 t st ht
    · intro t st hn ht hd
      rw [e2] at ht
      dsimp only at ht hn ⊢
      rw [if_pos hn] at ht
      have : t = s.sb.n - 1 := by omega
      subst this
      rw [hf]; injection ht
    · exact h3
    · intro t hu hf'
      rw [e2]; dsimp only
      split
      · rfl
      · exact h4 t hu hf'
    · intro _
      rw [e2]; dsimp only
      rw [if_pos (by omega)]; rfl
    · intro t ht
      rw [e2] at ht
      dsimp only at ht ⊢
      split at ht
      · omega
      · exact h6 t ht
    · intro hp; simp at hp
  | openRaise hx e hs h0 e2 =>
    have hp := hi.ph
    have hst := SB.step_to hs
    clear hs
    dsimp only at *
    cases hst
    rename_i hst
    have h7' := h7 (.inr hst)
    simp only [SB.say, answered_append] at *
    have hnone : ∀ t, answered t ([Ev.openRaised (s.sb.n - 1)] : List (Ev V I)) = [] := fun t => by simp [answered]
    rw [e2]
    refine ⟨?_, ?_, ?_, h4, by simp, h6, by simp⟩ <;> (try dsimp only) <;> (try simp only [answered_append, hnone, List.append_nil])
    · exact h1
    rotate_left
    · exact h3
    intro t st hn ht hd
    have : t = s.sb.n - 1 := by omega
    rw [this, h7'] at ht; simp at ht
  | bufOk hx i hs h0 e1 e2 =>
    have hst := SB.step_to hs
    clear hs
    dsimp only at *
    cases hst
    rename_i hst _
    simp only [SB.say, SB.setBuf, answered_append] at *
    have hnone : ∀ t, answered t ([Ev.bufferMade (s.sb.n - 1) i] : List (Ev V I)) = [] := fun t => by simp [answered]
    rw [e2, e1]
    refine ⟨?_, ?_, ?_, h4, fun _ => h5 (.inl hst), h6, by simp⟩ <;> (try dsimp only) <;> (try simp only [answered_append, hnone, List.append_nil])
    · exact h1
    · exact h2
    · exact h3
  | bufRaise hx e hs h0 e1 e2 =>
    have hst := SB.step_to hs
    clear hs
    dsimp only at *
    cases hst
    simp only [SB.say, SB.setBuf, answered_append] at *
    have hnone : ∀ t, answered t ([Ev.infoRaised (s.sb.n - 1)] : List (Ev V I)) = [] := fun t => by simp [answered]
    rw [e2, e1]
    refine ⟨?_, ?_, ?_, h4, by simp, h6, by simp⟩ <;> (try dsimp only) <;> (try simp only [answered_append, hnone, List.append_nil])
    · exact h1
    · exact h2
    · exact h3
  | readOk t hx r hs h0 e2 =>
    have hk : Knows o s := ⟨h1, h2, h3, h4, h5, h6, h7⟩
    have hst := SB.step_to hs
    clear hs
    dsimp only at hst h0 e2
    cases hst with
    | readSome _ v ht =>
      refine hk.read hi2 t (.ok (some v)) (.appending v) ht (by simp) h0 e2 ?_ ?_ ?_ ?_
      · rfl
      · rfl
      · rfl
      · intro u
        simp only [SB.say, SB.setThr, answered_append, answered_read, answered_raise]
    | readNone _ ht =>
      refine hk.read hi2 t (.ok none) .sleeping ht (by simp) h0 e2 ?_ ?_ ?_ ?_
      · rfl
      · rfl
      · rfl
      · intro u
        simp only [SB.say, SB.setThr, answered_append, answered_read, answered_raise]
  | readRaise t hx e hs h0 e2 =>
    have hk : Knows o s := ⟨h1, h2, h3, h4, h5, h6, h7⟩
    have hst := SB.step_to hs
    clear hs
    dsimp only at hst h0 e2
    cases hst with
    | readRaise _ _ ht =>
      refine hk.read hi2 t (.error e) .fin1 ht (by simp) h0 e2 ?_ ?_ ?_ ?_
      · rfl
      · rfl
      · rfl
      · intro u
        simp only [SB.say, SB.setThr, answered_append, answered_read, answered_raise]
  | close t hx ok hs h0 hok e2 =>
    have hst := SB.step_to hs
    clear hs
    dsimp only at *
    cases hst with
    | close _ _ ht =>
      have hn := (hi2.solo t (by rw [ht]; rfl)).1
      simp only [SB.say, SB.setThr, answered_append] at *
      have hnone : ∀ u, answered u ([Ev.closed t ok] : List (Ev V I)) = [] := fun u => by simp [answered]
      subst e2
      refine ⟨?_, ?_, ?_, ?_, h5, h6, h7⟩ <;> (try dsimp only) <;> (try simp only [answered_append, hnone, List.append_nil])
      · exact h1
      · intro u st hun hu hd
        have : u = t := by omega
        simp [this] at hd
      · intro u hu
        by_cases hut : u = t
        · simp [hut] at hu
        · simp only [hut, if_false] at hu; exact h3 u hu
      · intro u hu hf
        by_cases hut : u = t
        · subst hut; exact h4 u (by rw [ht]; simp) (by rw [ht]; simp)
        · simp only [hut, if_false] at hu hf; exact h4 u hu hf

end
end ObjSB
end S2P
