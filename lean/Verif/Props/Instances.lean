import Verif.Model.SimplySource
import Verif.Proofs.Calm
import Verif.Props.Lifecycle
/-
C102: the instances that `open_stream` of a `mk_stream_buffer` returns.
-/
namespace S2P
open Spec

namespace Spec
variable {X : Type}

/-- The instance open after these calls, if there is one. -/
def curAfter (cur : Option (Option X)) : List (Use X) → Option (Option X)
  | [] => cur
  | .opened x :: l => curAfter (some x) l
  | .openRaised :: l => curAfter none l
  | .read _ :: l => curAfter cur l
  | .closed _ :: l => curAfter none l

theorem oneAtATime_append (cur : Option (Option X)) (l l' : List (Use X)) :
    OneAtATime cur (l ++ l') ↔ OneAtATime cur l ∧ OneAtATime (curAfter cur l) l' := by
  induction l generalizing cur with
  | nil => simp [OneAtATime, curAfter]
  | cons e l ih => cases e <;> simp only [List.cons_append, OneAtATime, curAfter, ih, and_assoc]

theorem curAfter_append (cur : Option (Option X)) (l l' : List (Use X)) : curAfter cur (l ++ l') = curAfter (curAfter cur l) l' := by
  induction l generalizing cur with
  | nil => rfl
  | cons e l ih => cases e <;> simp only [List.cons_append, curAfter, ih]

/-- Opened are those closed, and the one that is open. -/
theorem opened_closed (l : List (Use X)) : ∀ cur : Option (Option X), OneAtATime cur l →
    cur.toList ++ openedOf l = closedOf l ++ (curAfter cur l).toList := by
  induction l with
  | nil => intro cur _; simp [openedOf, closedOf, curAfter]
  | cons e l ih =>
    intro cur h
    cases e with
    | opened x =>
      obtain ⟨rfl, h⟩ := h
      have := ih _ h
      simpa [openedOf, closedOf, curAfter] using this
    | openRaised =>
      obtain ⟨rfl, h⟩ := h
      have := ih _ h
      simpa [openedOf, closedOf, curAfter] using this
    | read x =>
      obtain ⟨rfl, h⟩ := h
      have := ih _ h
      simpa [openedOf, closedOf, curAfter] using this
    | closed x =>
      obtain ⟨rfl, h⟩ := h
      have := ih _ h
      rw [Option.toList_none, List.nil_append] at this
      have e1 : openedOf (.closed x :: l) = openedOf l := rfl
      have e2 : closedOf (.closed x :: l) = x :: closedOf l := rfl
      rw [e1, e2, this]; rfl

end Spec

namespace SimplySrc
variable {W X D K I : Type} [LinearOrder K] [BEq D] {f : Fns W X D K I} {cfg : SBCfg K (SItem D)}
  {s s' : ObjSB (St W X) K (SItem D) I} {x : ObjAct K (SItem D) I} {xs : List (ObjAct K (SItem D) I)}

theorem openAfter_other {sb sb' : SB K (SItem D) I} {a : SBAct K (SItem D) I} (hs : sb.step cfg a = some sb')
    (h1 : a ≠ .openOk) (h2 : ∀ t ok, a ≠ .close t ok) : openAfter false sb'.log = openAfter false sb.log := by
  have hst := SB.step_to hs
  clear hs
  cases hst
  all_goals try simp only [SB.say, SB.setThr, SB.setBuf, SB.setEvent, SB.setNext, SB.setDrop, SB.setInfo, SB.newSess, openAfter_append, openAfter]
  all_goals first
    | exact absurd rfl h1
    | exact absurd rfl (h2 _ _)

theorem openAfter_open {sb sb' : SB K (SItem D) I} (hs : sb.step cfg .openOk = some sb') :
    sb.start = some .opening ∧ openAfter false sb'.log = true := by
  have hst := SB.step_to hs
  cases hst
  exact ⟨by assumption, by simp [SB.say, openAfter_append, openAfter]⟩

theorem openAfter_raise {sb sb' : SB K (SItem D) I} (hs : sb.step cfg .openRaise = some sb') : sb.start = some .opening := by
  have hst := SB.step_to hs
  cases hst
  assumption

theorem openAfter_read {sb sb' : SB K (SItem D) I} {t : Nat} {a : SBAct K (SItem D) I} (ha : (∃ r, a = .readOk t r) ∨ ∃ e, a = .readRaise t e)
    (hs : sb.step cfg a = some sb') : sb.thr t = .reading := by
  have hst := SB.step_to hs
  rcases ha with ⟨r, rfl⟩ | ⟨e, rfl⟩ <;> (cases hst <;> assumption)

theorem openAfter_close {sb sb' : SB K (SItem D) I} {t : Nat} {ok : Bool} (hs : sb.step cfg (.close t ok) = some sb') :
    sb.thr t = .fin3 ∧ openAfter false sb'.log = false := by
  have hst := SB.step_to hs
  cases hst
  exact ⟨by assumption, by simp [SB.say, SB.setThr, openAfter_append, openAfter]⟩

/-- The calls on the user's functions, and on the source. -/
structure Inst (s : ObjSB (St W X) K (SItem D) I) : Prop where
  ok : OneAtATime none s.st.uses
  cur : (curAfter none s.st.uses).isSome = openAfter false s.sb.log
  inst : ∀ y, curAfter none s.st.uses = some y → s.st.inst = y

theorem Inst.step (h : Inst s) {bs : List (SBAct K (SItem D) I)} (he : SB.init.exec cfg bs = some s.sb) (hset : SB.init.Settled cfg bs)
    (hinfo : ∀ k, Ev.infoRaised k ∉ s.sb.log) (hb : ObjSB.Below (simply f) cfg s s' x) : Inst s' := by
  obtain ⟨h1, h2, h3⟩ := h
  obtain ⟨k1, k2, k3⟩ := SB.open_while he hset hinfo
  have hph := (SB.good he).inv.ph
  have hno := (SB.good he).inv.noThr
  have same : ∀ a, s.sb.step cfg a = some s'.sb → a ≠ .openOk → (∀ t ok, a ≠ .close t ok) → s'.st = s.st → Inst s' := by
    intro a ha n1 n2 e
    refine ⟨e ▸ h1, ?_, e ▸ h3⟩
    rw [e, openAfter_other ha n1 n2, h2]
  have closed : s.sb.start = some .opening → curAfter none s.st.uses = none := by
    intro hs
    rw [← Option.not_isSome_iff_eq_none, h2]
    intro ho
    have := k2 ho
    grind [SB.PhaseOk, TPC.idle]
  have isOpen : ∀ t, s.sb.thr t = .reading ∨ s.sb.thr t = .fin3 → curAfter none s.st.uses = some s.st.inst := by
    intro t ht
    have hi2 := (SB.inv2_exec he hset).2
    obtain ⟨y, hy⟩ : ∃ y, curAfter none s.st.uses = some y := by
      rw [← Option.isSome_iff_exists, h2]
      by_contra hc
      have h4 := k3 (by simpa using hc)
      have h5 := (hi2.solo t (by rcases ht with h | h <;> rw [h] <;> rfl)).1
      have h6 : t = s.sb.n - 1 := by omega
      rw [← h6] at h4
      rcases ht with h | h <;> rw [h] at h4 <;> simp [TPC.idle] at h4
    rw [hy, h3 y hy]
  have reads : curAfter none s.st.uses = some s.st.inst → openAfter false s'.sb.log = openAfter false s.sb.log →
      s'.st.uses = s.st.uses ++ [.read s.st.inst] ∧ s'.st.inst = s.st.inst → Inst s' := by
    rintro q1 q2 ⟨q3, q4⟩
    refine ⟨?_, ?_, ?_⟩
    · rw [q3, oneAtATime_append]; exact ⟨h1, q1, trivial⟩
    · rw [q3, curAfter_append, q2, ← h2]; rfl
    · intro y hy
      rw [q3, curAfter_append] at hy
      rw [q4]; exact h3 y hy
  cases hb with
  | other a hx ha hk hr h e1 e2 => exact same a h (by rintro rfl; simp [SBAct.noCall] at ha) (by rintro t ok rfl; simp [SBAct.noCall] at ha) e1
  | openOk hx h h0 e2 =>
    obtain ⟨q1, q2⟩ := openAfter_open h
    obtain ⟨x, hz, hi⟩ : ∃ x, s'.st.uses = s.st.uses ++ [.opened x] ∧ s'.st.inst = x := by
      simp only [simply, open'] at h0
      split at h0
      · injection h0 with h0 h5; rw [← h5]; exact ⟨_, rfl, rfl⟩
      · split at h0
        · injection h0 with h0 h5; rw [← h5]; exact ⟨_, rfl, rfl⟩
        · injection h0 with h0 h5; simp at h0
    refine ⟨?_, ?_, ?_⟩
    · rw [hz, oneAtATime_append]; exact ⟨h1, closed q1, trivial⟩
    · rw [hz, curAfter_append, q2]; rfl
    · intro y hy
      rw [hz, curAfter_append] at hy
      injection hy with hy
      rw [hi, hy]
  | openRaise hx e h h0 e2 =>
    have q1 := openAfter_raise h
    have hz : s'.st.uses = s.st.uses ++ [.openRaised] := by
      simp only [simply, open'] at h0
      split at h0
      · injection h0 with h0 h5; simp at h0
      · split at h0
        · injection h0 with h0 h5; simp at h0
        · injection h0 with h0 h5; rw [← h5]
    refine ⟨?_, ?_, ?_⟩
    · rw [hz, oneAtATime_append]; exact ⟨h1, closed q1, trivial⟩
    · rw [hz, curAfter_append, openAfter_other h (by simp) (by simp), ← h2, closed q1]; rfl
    · intro y hy
      rw [hz, curAfter_append] at hy
      simp [curAfter] at hy
  | bufOk hx i h h0 e1 e2 => exact same _ h (by simp) (by simp) e1
  | bufRaise hx e h h0 e1 e2 => exact same _ h (by simp) (by simp) e1
  | readOk t hx r h h0 e2 =>
    refine reads (isOpen t (.inl (openAfter_read (.inl ⟨r, rfl⟩) h))) (openAfter_other h (by simp) (by simp)) ?_
    simp only [simply, read] at h0
    split at h0 <;> (injection h0 with h0 h5; rw [← h5]; exact ⟨rfl, rfl⟩)
  | readRaise t hx e h h0 e2 =>
    refine reads (isOpen t (.inl (openAfter_read (.inr ⟨e, rfl⟩) h))) (openAfter_other h (by simp) (by simp)) ?_
    simp only [simply, read] at h0
    split at h0 <;> (injection h0 with h0 h5; rw [← h5]; exact ⟨rfl, rfl⟩)
  | close t hx ok h h0 hok e2 =>
    obtain ⟨q1, q2⟩ := openAfter_close h
    have hz : s'.st.uses = s.st.uses ++ [.closed s.st.inst] := by
      rw [← h0]
      simp only [simply, close]
      split <;> rfl
    refine ⟨?_, ?_, ?_⟩
    · rw [hz, oneAtATime_append]; exact ⟨h1, isOpen t (.inr q1), trivial⟩
    · rw [hz, curAfter_append, q2]; rfl
    · intro y hy
      rw [hz, curAfter_append] at hy
      simp [curAfter] at hy

theorem inst (w : W) (he : (ObjSB.init (new w)).exec (simply f) cfg xs = some s)
    (hcalm : (ObjSB.init (new w) : ObjSB (St W X) K (SItem D) I).Calm (simply f) cfg xs) (hinfo : ∀ k, Ev.infoRaised k ∉ s.sb.log) : Inst s := by
  have hset := ObjSB.calm_settled he hcalm
  refine (ObjSB.exec_ind_settled (P := fun s => ObjSB.RealS cfg s.sb ∧ ((∀ k, Ev.infoRaised k ∉ s.sb.log) → Inst s)) ?_ ⟨⟨[], rfl, trivial⟩, ?_⟩
    he hset).2 hinfo
  · intro s x s' _ ⟨hr, ih⟩ hs hset
    have hb := ObjSB.below hs
    refine ⟨hr.step hb hset, fun hi => ?_⟩
    obtain ⟨a, ha, -⟩ := hb.sb
    obtain ⟨l, hl, -⟩ := SB.log_step ha
    have hi' : ∀ k, Ev.infoRaised k ∉ s.sb.log := fun k hk => hi k (by rw [hl]; exact List.mem_append_left _ hk)
    obtain ⟨bs, he, hb'⟩ := hr
    exact (ih hi').step he hb' hi' hb
  · intro _
    refine ⟨trivial, rfl, ?_⟩
    intro y hy
    simp [ObjSB.init, new, curAfter] at hy

/-- **C102** one instance at a time: `open_stream` is called only when the instance before has been closed, `read_stream` is called with the open instance
only, and `close_stream` with that instance, once. For users who call `start()` only when no thread of an earlier session is alive, if `info` does not raise;
whatever the functions return, raise or do, whenever the stream is stopped. -/
theorem C102_one_at_a_time (w : W) (he : (ObjSB.init (new w)).exec (simply f) cfg xs = some s)
    (hcalm : (ObjSB.init (new w) : ObjSB (St W X) K (SItem D) I).Calm (simply f) cfg xs) (hinfo : ∀ k, Ev.infoRaised k ∉ s.sb.log) :
    OneAtATime none s.st.uses := (inst w he hcalm hinfo).ok

/-- **C102** nothing is left open: the instances closed are those got, in the same order, but for the last one, which is not closed while its session
is being set up or its thread is alive. -/
theorem C102_nothing_left_open (w : W) (he : (ObjSB.init (new w)).exec (simply f) cfg xs = some s)
    (hcalm : (ObjSB.init (new w) : ObjSB (St W X) K (SItem D) I).Calm (simply f) cfg xs) (hinfo : ∀ k, Ev.infoRaised k ∉ s.sb.log) :
    (∃ l, l.length ≤ 1 ∧ openedOf s.st.uses = closedOf s.st.uses ++ l) ∧
    (s.sb.start = none → (∀ t, (s.sb.thr t).idle = true) → openedOf s.st.uses = closedOf s.st.uses) := by
  have h := inst w he hcalm hinfo
  have hoc := opened_closed _ _ h.ok
  rw [Option.toList_none, List.nil_append] at hoc
  refine ⟨⟨_, ?_, hoc⟩, fun hs hid => ?_⟩
  · cases curAfter none s.st.uses <;> simp
  · obtain ⟨bs, hb, hbs⟩ := (ObjSB.acc he (ObjSB.calm_settled he hcalm)).real
    have hk := (SB.open_while hb hbs hinfo).2.1
    have hcl : curAfter none s.st.uses = none := by
      rw [← Option.not_isSome_iff_eq_none, h.cur]
      intro ho
      have := hk ho
      simp [hs, hid] at this
    rw [hoc, hcl]; simp

end SimplySrc
end S2P
