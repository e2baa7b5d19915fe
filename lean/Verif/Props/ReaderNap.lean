import Verif.Model.ReaderNap
import Verif.Props.EndToEnd
/-
C174: a reader with a sleep time that `time.sleep` rejects.
-/
namespace S2P
open Spec
variable {K V : Type}

/-- The step of a program without rejected sleep times that corresponds: the same, or, for a step of consumer `i`, that it gives up. -/
inductive Spec.SameOrLeaves : CAct K V → CAct K V → Prop where
  | same (a : CAct K V) : SameOrLeaves a a
  | leaves (i : Nat) : SameOrLeaves (.go i) (.leave i)

/-- The steps of Model/Consumer.lean in a history. -/
def Spec.steps : List (ZAct K V) → List (CAct K V)
  | [] => []
  | .act a :: as => a :: steps as
  | .setSleep _ _ :: as => steps as

/-- What `time.sleep` raises with the sleep time that reader `i` was given last (a fresh one sleeps). -/
def Spec.lastSleep (i : Nat) (as : List (ZAct K V)) : Option PyErr :=
  as.foldl (fun o a => match a with | .setSleep j o' => if j = i then o' else o | .act _ => o) none

/-- Not an exception. -/
def Spec.noRaise : Nat × CEvt V → Bool
  | (_, .raised _) => false
  | _ => true

/-- Equal but for exceptions observed. -/
structure Spec.Alike (s u : Cons K V) : Prop where
  ch : u.ch = s.ch
  stopped : u.stopped = s.stopped
  pc : u.pc = s.pc
  ops : u.ops = s.ops
  outs : u.outs = s.outs
  evts : u.evts.filter noRaise = s.evts.filter noRaise

namespace NCons

section
variable [LinearOrder K] [BEq V] {key : V → K} {kn : Py (Option K)} {m : Option Nat} {cfg : Nat → Cfg} {s s' : NCons K V} {as bs : List (ZAct K V)}

theorem exec_append (s : NCons K V) (as bs : List (ZAct K V)) : s.exec cfg (as ++ bs) = (s.exec cfg as).bind (·.exec cfg bs) := by
  induction as generalizing s with
  | nil => rfl
  | cons a as ih =>
    simp only [List.cons_append, exec]
    cases s.step cfg a with
    | none => rfl
    | some t => exact ih t

omit [LinearOrder K] [BEq V] in
theorem steps_append (as bs : List (ZAct K V)) : steps (as ++ bs) = steps as ++ steps bs := by
  induction as with
  | nil => rfl
  | cons a as ih => cases a <;> simp [steps, ih]

omit [LinearOrder K] [BEq V] in
theorem forall₂_append {α β : Type} {R : α → β → Prop} {a b : List α} {c d : List β} (h : List.Forall₂ R a c) (h' : List.Forall₂ R b d) :
    List.Forall₂ R (a ++ b) (c ++ d) := by
  induction h with
  | nil => exact h'
  | cons h _ ih => exact .cons h ih

omit [LinearOrder K] [BEq V] in
theorem forall₂_mem {α β : Type} {R : α → β → Prop} {a : List α} {c : List β} (h : List.Forall₂ R a c) {y : β} (hy : y ∈ c) : ∃ x ∈ a, R x y := by
  induction h with
  | nil => cases hy
  | cons h _ ih =>
    rcases List.mem_cons.1 hy with rfl | hy
    · exact ⟨_, by simp, h⟩
    · obtain ⟨x, hx, hr⟩ := ih hy
      exact ⟨x, by simp [hx], hr⟩

/-- No step looks at what was observed. -/
theorem evts_unseen {c c' u : Cons K V} {a : CAct K V} (h : c.step cfg a = some c') (hu : Alike c u) :
    ∃ u', u.step cfg a = some u' ∧ Alike c' u' := by
  obtain ⟨ch, st, pc, ops, outs, ev⟩ := c
  obtain ⟨ch', st', pc', ops', outs', ev'⟩ := u
  obtain ⟨h1, h2, h3, h4, h5, h6⟩ := hu
  simp only at h1 h2 h3 h4 h5 h6
  subst h1 h2 h3 h4 h5
  cases a <;> simp only [Cons.step, Cons.go, Cons.call] at h ⊢
  all_goals (repeat' split at h)
  all_goals first
    | (exfalso; simp at h; done)
    | (simp only [Option.some.injEq, Prod.mk.injEq] at *
       subst h
       simp_all only [if_true, if_false, Option.some.injEq, exists_eq_left', Cons.goto, Cons.emit, Bool.false_eq_true]
       try refine ⟨_, rfl, ?_⟩
       constructor <;> simp_all [noRaise]; done)
    | (rename_i hc
       simp only [Prod.mk.injEq, Option.some.injEq] at *
       obtain ⟨hc1, hc2⟩ := hc
       subst hc1 h
       simp_all only [if_true, if_false, Option.some.injEq, exists_eq_left', Cons.goto, Cons.emit]
       try refine ⟨_, rfl, ?_⟩
       constructor <;> simp_all [noRaise]; done)

/-- At a sleep. -/
def asleep : CPC → Bool
  | .iterSleep | .blkSleep _ _ _ => true
  | _ => false

theorem step_cases {a : ZAct K V} (h : s.step cfg a = some s') :
    (∃ i o, a = .setSleep i o ∧ s'.c = s.c) ∨
    (∃ x, a = .act x ∧ s.c.step cfg x = some s'.c ∧ s'.bad = s.bad) ∨
    (∃ i e, a = .act (.go i) ∧ s.bad i = some e ∧ asleep (s.c.pc i) = true ∧ s' = { s with c := (s.c.emit i (.raised e)).goto i .idle }) := by
  unfold step at h
  split at h
  · simp only [Option.some.injEq] at h
    subst h
    exact .inl ⟨_, _, rfl, rfl⟩
  · split at h
    · simp only [Option.some.injEq] at h
      exact .inr (.inr ⟨_, _, rfl, ‹_›, by simp_all [asleep], h.symm⟩)
    · simp only [Option.some.injEq] at h
      exact .inr (.inr ⟨_, _, rfl, ‹_›, by simp_all [asleep], h.symm⟩)
    · obtain ⟨c, hc, rfl⟩ := Option.map_eq_some_iff.1 h
      exact .inr (.inl ⟨_, rfl, hc, rfl⟩)
  · obtain ⟨c, hc, rfl⟩ := Option.map_eq_some_iff.1 h
    exact .inr (.inl ⟨_, rfl, hc, rfl⟩)

theorem asleep_leaves {p : CPC} (h : asleep p = true) : p.canLeave = true := by
  cases p <;> simp_all [asleep, CPC.canLeave]

/-- **C174** a sleep that raises is as if the consumer gave up its loop or call there, by a `break` or otherwise: every execution is, but for the
exceptions observed, one in which all sleep times are accepted. -/
theorem C174_as_if (he : (NCons.init key kn m cfg).exec cfg as = some s) :
    ∃ bs u, List.Forall₂ SameOrLeaves (steps as) bs ∧ (Cons.init key kn m cfg).exec cfg bs = some u ∧ Alike s.c u := by
  induction as using List.reverseRecOn generalizing s with
  | nil =>
    simp only [exec, Option.some.injEq] at he
    subst he
    exact ⟨[], _, .nil, rfl, ⟨rfl, rfl, rfl, rfl, rfl, rfl⟩⟩
  | append_singleton as a ih =>
    rw [exec_append, Option.bind_eq_some_iff] at he
    obtain ⟨s1, h1, h2⟩ := he
    obtain ⟨bs, u, k1, k2, k3⟩ := ih h1
    have h3 : s1.step cfg a = some s := by
      simp only [exec] at h2
      split at h2
      · rw [← h2]; assumption
      · cases h2
    rw [steps_append]
    rcases step_cases h3 with ⟨i, o, rfl, hc⟩ | ⟨x, rfl, hx, -⟩ | ⟨i, e, rfl, hb, hp, rfl⟩
    · refine ⟨bs, u, by simpa [steps] using k1, k2, by rw [hc]; exact k3⟩
    · obtain ⟨u', hu, hal⟩ := evts_unseen hx k3
      refine ⟨bs ++ [x], u', forall₂_append k1 (.cons (.same x) .nil), ?_, hal⟩
      rw [Cons.exec_append, k2]
      simp only [Option.bind_some, Cons.exec, hu]
    · refine ⟨bs ++ [.leave i], u.goto i .idle, forall₂_append k1 (.cons (.leaves i) .nil), ?_, ?_⟩
      · rw [Cons.exec_append, k2]
        simp only [Option.bind_some, Cons.exec, Cons.step, k3.pc, asleep_leaves hp, if_true]
      · obtain ⟨g1, g2, g3, g4, g5, g6⟩ := k3
        exact ⟨g1, g2, by simp only [Cons.goto, Cons.emit, g3], g4, g5, by simp [Cons.goto, Cons.emit, noRaise, g6]⟩

theorem ch_reach (he : (NCons.init key kn m cfg).exec cfg as = some s) : s.c.ch.Reach key kn m cfg := by
  obtain ⟨bs, u, -, h2, h3⟩ := C174_as_if he
  rw [← h3.ch]
  exact Cons.Reach.ch ⟨bs, h2⟩

omit [LinearOrder K] [BEq V] in
theorem received_noRaise (s : Cons K V) (i : Nat) :
    received s i = (((s.evts.filter noRaise).filter (fun p => p.1 == i)).map (·.2)).flatMap CEvt.items := by
  unfold received Cons.evtsOf
  induction s.evts with
  | nil => rfl
  | cons p l ih =>
    obtain ⟨j, e⟩ := p
    cases e <;> by_cases hj : (j == i) = true <;> simp_all [List.filter_cons, noRaise, CEvt.items]

omit [LinearOrder K] [BEq V] in
theorem received_alike {s u : Cons K V} (h : Alike s u) (i : Nat) : received u i = received s i := by
  rw [received_noRaise, received_noRaise, h.evts]

end

section
variable [LinearOrder K] [BEq V] [ReflBEq V] {key : V → K} {kn : Py (Option K)} {m : Option Nat} {cfg : Nat → Cfg} {s s' : NCons K V} {as : List (ZAct K V)}

/-- **C174** so whatever sleep times its reader is given, a consumer is handed, in order, a part of what was accepted, and what it can still read
comes after it: no exception of a sleep loses or repeats anything. -/
theorem C174_in_order (i : Nat) (hpk : (cfg i).peek = false) (hu : ∀ a ∈ steps as, OneUser i a)
    (he : (NCons.init key kn m cfg).exec cfg as = some s) :
    (received s.c i ++ unreadOf s.c.ch i).Sublist (takenAll s.c.ops s.c.outs) := by
  obtain ⟨bs, u, h1, h2, h3⟩ := C174_as_if he
  have hU : ∀ b ∈ bs, OneUser i b := by
    intro b hb
    obtain ⟨a, ha, hab⟩ := forall₂_mem h1 hb
    cases hab with
    | same => exact hu _ ha
    | leaves => trivial
  have hr : u.Reach key kn m cfg := ⟨bs, h2⟩
  obtain ⟨k1, k2⟩ := received_delivered i hpk hU h2
  have := part_run (key := key) (kn := kn) (m := m) i u.ops k2
  rw [hr.run] at this
  rw [← received_alike h3 i, ← h3.ch, ← h3.ops, ← h3.outs, unreadOf_eq hr.ch, k1]
  exact this

/-- `k` steps of consumer `i` in a row. -/
def turns (i k : Nat) : List (ZAct K V) := List.replicate k (.act (.go i))

omit [ReflBEq V] in
theorem turns_succ {s t : NCons K V} {i : Nat} (h : s.step cfg (.act (.go i)) = some t) (k : Nat) : s.exec cfg (turns i (k + 1)) = t.exec cfg (turns i k) := by
  simp only [turns, List.replicate_succ, exec, h]

omit [ReflBEq V] in
theorem step_awake {s : NCons K V} {i : Nat} {c : Cons K V} (h : asleep (s.c.pc i) = false) (hg : s.c.go i = some c) :
    s.step cfg (.act (.go i)) = some { s with c := c } := by
  unfold step
  simp only
  split
  · rename_i hp _; rw [hp] at h; cases h
  · rename_i hp _; rw [hp] at h; cases h
  · simp only [Cons.step, hg, Option.map_some]

omit [ReflBEq V] in
theorem step_asleep {s : NCons K V} {i : Nat} {e : PyErr} (h : asleep (s.c.pc i) = true) (hb : s.bad i = some e) :
    s.step cfg (.act (.go i)) = some { s with c := (s.c.emit i (.raised e)).goto i .idle } := by
  unfold step
  simp only
  split
  · rename_i he; rw [hb] at he; cases he; rfl
  · rename_i he; rw [hb] at he; cases he; rfl
  · rename_i h1 h2
    exfalso
    cases hp : s.c.pc i with
    | iterSleep => exact h1 e hp hb
    | blkSleep n p st => exact h2 n p st e hp hb
    | _ => rw [hp] at h; cases h

omit [ReflBEq V] in
theorem goto_pc (c : Cons K V) (i : Nat) (p : CPC) : (c.goto i p).pc i = p := by simp [Cons.goto]

omit [ReflBEq V] in
theorem evtsOf_done (c : Cons K V) (i : Nat) (e : CEvt V) (p : CPC) : ((c.emit i e).goto i p).evtsOf i = c.evtsOf i ++ [e] := by
  have : ((c.emit i e).goto i p).evtsOf i = (c.emit i e).evtsOf i := rfl
  rw [this, Cons.evtsOf_emit, if_pos rfl]

/-- What `read(blocking=True)` ends with, `u` being unread: what the read that does not block gives, but the exception `e` of the sleep where that gives
`None` while the stream runs. -/
def Spec.napRead (n : Int) (strict stopped : Bool) (e : PyErr) (u : List V) : CEvt V :=
  if u = [] then (if stopped then .readRet .none else .raised e)
  else if strict = true ∧ 1 < n ∧ (u.length : Int) ≤ n then .raised .valueError
  else .readRet (chunkOf n u)

/-- **C174** `read(blocking=True)` never waits: after at most three steps of its own it has returned or raised. -/
theorem C174_read (he : (NCons.init key kn m cfg).exec cfg as = some s) (i : Nat) (e : PyErr) (hb : s.bad i = some e)
    (n : Int) (p : Option Bool) (st : Bool) (hpc : s.c.pc i = .blkRead n p st) :
    ∃ k ≤ 3, ∃ s', s.exec cfg (turns i k) = some s' ∧ s'.c.pc i = .idle ∧
      s'.c.evtsOf i = s.c.evtsOf i ++ [Spec.napRead n st s.c.stopped e (unreadOf s.c.ch i)] := by
  have hch := ch_reach he
  have h1 := (hch.rd i (.read (some n) p (some true) (some st))).1
  simp only [Spec.rdStep, Option.getD_some] at h1
  have hres : (s.c.call (.rd i (.read (some n) p (some true) (some st)))).2 =
      Spec.read key s.c.ch.buf.items (s.c.ch.readers i).lastItem n true st := h1
  rw [unreadOf_eq hch]
  unfold Spec.read at hres
  have one : ∀ t : NCons K V, s.step cfg (.act (.go i)) = some t → s.exec cfg (turns i 1) = some t := fun t ht => by
    simp only [turns, List.replicate, exec, ht]
  have hstep : s.step cfg (.act (.go i)) = (s.c.go i).map fun c => { s with c := c } := by
    simp only [step, hpc, Cons.step]
  cases hu : unread key s.c.ch.buf.items (s.c.ch.readers i).lastItem with
  | nil =>
    rw [hu] at hres
    simp only [noItem, if_true] at hres
    have hg : s.c.go i = some ((s.c.call (.rd i (.read (some n) p (some true) (some st)))).1.goto i (.blkCheck n p st)) := by
      simp only [Cons.go, hpc]
      rw [← Prod.eta (s.c.call _), hres]
    have hs' : (s.c.call (.rd i (.read (some n) p (some true) (some st)))).1.stopped = s.c.stopped := rfl
    cases hs : s.c.stopped with
    | true =>
      rw [hs] at hs'
      refine ⟨2, by omega, { s with c := ((((s.c.call (.rd i (.read (some n) p (some true) (some st)))).1.goto i (.blkCheck n p st)).emit i
        (.readRet .none)).goto i .idle) }, ?_, by simp [Cons.goto], ?_⟩
      · rw [turns_succ (step_awake (by rw [hpc]; rfl) hg), turns_succ (step_awake (c := ((((s.c.call (.rd i (.read (some n) p (some true) (some st)))).1.goto i
          (.blkCheck n p st)).emit i (.readRet .none)).goto i .idle)) (by simp [Cons.goto, asleep]) (by simp [Cons.go, goto_pc, hs', Cons.goto, Cons.emit]))]
        rfl
      · rw [evtsOf_done]
        simp only [Spec.napRead, if_true]
        rfl
    | false =>
      rw [hs] at hs'
      refine ⟨3, by omega, { s with c := (((((s.c.call (.rd i (.read (some n) p (some true) (some st)))).1.goto i (.blkCheck n p st)).goto i
        (.blkSleep n p st)).emit i (.raised e)).goto i .idle) }, ?_, by simp [Cons.goto], ?_⟩
      · rw [turns_succ (step_awake (by rw [hpc]; rfl) hg), turns_succ (step_awake (c := ((s.c.call (.rd i (.read (some n) p (some true) (some st)))).1.goto i
          (.blkCheck n p st)).goto i (.blkSleep n p st)) (by simp [Cons.goto, asleep]) (by simp [Cons.go, goto_pc, hs', Cons.goto]))]
        refine (turns_succ (step_asleep (e := e) ?_ ?_) 0).trans rfl
        · simp [Cons.goto, asleep]
        · exact hb
      · rw [evtsOf_done]
        simp only [Spec.napRead, if_true]
        rfl
  | cons v vs =>
    rw [hu] at hres
    simp only at hres
    refine ⟨1, by omega, ?_⟩
    by_cases hn : n ≤ 1
    · simp only [hn, if_true] at hres
      refine ⟨{ s with c := (((s.c.call (.rd i (.read (some n) p (some true) (some st)))).1.emit i (.readRet (.one v))).goto i .idle) }, one _ ?_,
        by simp [Cons.goto], ?_⟩
      · rw [hstep]; simp only [Cons.go, hpc]
        rw [← Prod.eta (s.c.call _), hres]; rfl
      · rw [evtsOf_done]
        simp only [Spec.napRead, reduceCtorEq, if_false, chunkOf, hn, if_true]
        rw [if_neg (by omega)]; rfl
    · simp only [hn, if_false] at hres
      by_cases hc : st = true ∧ ((v :: vs).length : Int) ≤ n
      · rw [if_pos (by simpa using hc)] at hres
        refine ⟨{ s with c := (((s.c.call (.rd i (.read (some n) p (some true) (some st)))).1.emit i (.raised .valueError)).goto i .idle) }, one _ ?_,
          by simp [Cons.goto], ?_⟩
        · rw [hstep]; simp only [Cons.go, hpc]
          rw [← Prod.eta (s.c.call _), hres]; rfl
        · rw [evtsOf_done]
          simp only [Spec.napRead, reduceCtorEq, if_false]
          rw [if_pos ⟨hc.1, by omega, hc.2⟩]; rfl
      · rw [if_neg (by simpa using hc)] at hres
        refine ⟨{ s with c := (((s.c.call (.rd i (.read (some n) p (some true) (some st)))).1.emit i (.readRet (.many ((v :: vs).take n.toNat)))).goto i .idle) },
          one _ ?_, by simp [Cons.goto], ?_⟩
        · rw [hstep]; simp only [Cons.go, hpc]
          rw [← Prod.eta (s.c.call _), hres]; rfl
        · rw [evtsOf_done]
          simp only [Spec.napRead, reduceCtorEq, if_false, chunkOf, hn]
          rw [if_neg (fun h => hc ⟨h.1, h.2.2⟩)]; rfl

theorem exec_turns (s : NCons K V) (i a b : Nat) : s.exec cfg (turns i (a + b)) = (s.exec cfg (turns i a)).bind (·.exec cfg (turns i b)) := by
  rw [← exec_append]
  simp only [turns, List.replicate_append_replicate]

/-- What the read of a loop gives. -/
theorem loop_read {s : NCons K V} (hch : s.c.ch.Reach key kn m cfg) (i : Nat) (hst : (cfg i).strict = false) (hp : (cfg i).peek = false) :
    (s.c.call (.rd i .readForNext)).2 = .ok (chunkOf (cfg i).n (unreadOf s.c.ch i)) ∧
    (s.c.call (.rd i .readForNext)).1.ch.Reach key kn m cfg ∧
    unreadOf (s.c.call (.rd i .readForNext)).1.ch i = (unreadOf s.c.ch i).drop (chunkSize (cfg i).n) := by
  have h1 := hch.rd i .readForNext
  have h2 : (s.c.ch.step (.rd i .readForNext)).1.Reach key kn m cfg := hch.step _
  have hs : s.c.ch.buf.items.Pairwise (fun v w => key v < key w) := hch.sim.strict
  simp only [Spec.rdStep, hst, read_chunk] at h1
  rw [unreadOf_eq hch]
  refine ⟨h1.1, h2, ?_⟩
  change unreadOf (s.c.ch.step (.rd i .readForNext)).1 i = _
  rw [unreadOf_eq h2, h1.2]
  simp only [hp, Spec.move, Bool.false_eq_true, if_false]
  exact unread_chunk hs _ _

theorem loop_from (L : Nat) (i : Nat) (e : PyErr) (hst : (cfg i).strict = false) (hp : (cfg i).peek = false) : ∀ s : NCons K V,
    s.c.ch.Reach key kn m cfg → s.bad i = some e → s.c.pc i = .iterRead → (unreadOf s.c.ch i).length ≤ L →
    ∃ k ≤ 2 * L + 4, ∃ s' evs, s.exec cfg (turns i k) = some s' ∧ s'.c.pc i = .idle ∧
      s'.c.evtsOf i = s.c.evtsOf i ++ evs ++ [if s.c.stopped then .loopDone else .raised e] ∧
      (∀ v ∈ evs, ∃ r, v = .yielded r) ∧ evs.flatMap CEvt.items = unreadOf s.c.ch i := by
  induction L with
  | zero | succ L ih =>
    intro s hch hb hpc hlen
    have hstep : s.step cfg (.act (.go i)) = (s.c.go i).map fun c => { s with c := c } := by
      simp only [step, hpc, Cons.step]
    obtain ⟨e1, e2, e3⟩ := loop_read hch i hst hp
    by_cases hu : unreadOf s.c.ch i = []
    · have hg : s.c.go i = some ((s.c.call (.rd i .readForNext)).1.goto i .iterCheck) := by
        simp only [Cons.go, hpc]
        rw [← Prod.eta (s.c.call _), e1, hu]; rfl
      have hs' : (s.c.call (.rd i .readForNext)).1.stopped = s.c.stopped := rfl
      cases hs : s.c.stopped with
      | true =>
        rw [hs] at hs'
        refine ⟨2, by omega, { s with c := ((((s.c.call (.rd i .readForNext)).1.goto i .iterCheck).emit i .loopDone).goto i .idle) }, [], ?_,
          by simp [Cons.goto], ?_, by simp, by simp [hu]⟩
        · rw [turns_succ (step_awake (by rw [hpc]; rfl) hg), turns_succ (step_awake (c := ((((s.c.call (.rd i .readForNext)).1.goto i .iterCheck).emit i
            .loopDone).goto i .idle)) (by simp [Cons.goto, asleep]) (by simp [Cons.go, goto_pc, hs', Cons.goto, Cons.emit]))]
          rfl
        · rw [evtsOf_done]; simp; rfl
      | false =>
        rw [hs] at hs'
        refine ⟨4, by omega, { s with c := ((((((s.c.call (.rd i .readForNext)).1.goto i .iterCheck).goto i .iterCheck2).goto i .iterSleep).emit i
          (.raised e)).goto i .idle) }, [], ?_, by simp [Cons.goto], ?_, by simp, by simp [hu]⟩
        · rw [turns_succ (step_awake (by rw [hpc]; rfl) hg), turns_succ (step_awake (c := ((s.c.call (.rd i .readForNext)).1.goto i .iterCheck).goto i
            .iterCheck2) (by simp [Cons.goto, asleep]) (by simp [Cons.go, goto_pc, hs', Cons.goto])),
            turns_succ (step_awake (c := (((s.c.call (.rd i .readForNext)).1.goto i .iterCheck).goto i .iterCheck2).goto i .iterSleep)
              (by simp [Cons.goto, asleep]) (by simp [Cons.go, goto_pc, hs', Cons.goto]))]
          refine (turns_succ (step_asleep (e := e) ?_ ?_) 0).trans rfl
          · simp [Cons.goto, asleep]
          · exact hb
        · rw [evtsOf_done]; simp; rfl
    · first
      | (exfalso; exact hu (List.length_eq_zero_iff.1 (by omega)))
      | (have hg : s.c.go i = some (((s.c.call (.rd i .readForNext)).1.emit i (.yielded (chunkOf (cfg i).n (unreadOf s.c.ch i)))).goto i .iterYield) := by
           simp only [Cons.go, hpc]
           rw [← Prod.eta (s.c.call _), e1]
           cases hc : chunkOf (cfg i).n (unreadOf s.c.ch i) with
           | none => exact absurd hc (chunkOf_ne hu)
           | one v => rfl
           | many vs => rfl
         obtain ⟨k, hk, s', evs, q1, q2, q3, q4, q5⟩ := ih
           { s with c := ((((s.c.call (.rd i .readForNext)).1.emit i (.yielded (chunkOf (cfg i).n (unreadOf s.c.ch i)))).goto i .iterYield).goto i .iterRead) }
           e2 hb (by simp [Cons.goto]) (by
             change (unreadOf (s.c.call (.rd i .readForNext)).1.ch i).length ≤ L
             rw [e3, List.length_drop]
             have : 1 ≤ chunkSize (cfg i).n := by simp only [chunkSize]; omega
             omega)
         refine ⟨2 + k, by omega, s', .yielded (chunkOf (cfg i).n (unreadOf s.c.ch i)) :: evs, ?_, q2, ?_, ?_, ?_⟩
         · rw [exec_turns]
           have : s.exec cfg (turns i 2) = some { s with c := ((((s.c.call (.rd i .readForNext)).1.emit i (.yielded (chunkOf (cfg i).n (unreadOf s.c.ch i)))).goto i
               .iterYield).goto i .iterRead) } := by
             rw [turns_succ (step_awake (by rw [hpc]; rfl) hg), turns_succ (step_awake (c := (((s.c.call (.rd i .readForNext)).1.emit i (.yielded (chunkOf (cfg i).n
               (unreadOf s.c.ch i)))).goto i .iterYield).goto i .iterRead) (by simp [Cons.goto, asleep]) (by simp [Cons.go, goto_pc]))]
             rfl
           rw [this]
           exact q1
         · rw [q3]
           have hev : ∀ t : Cons K V, (((t.emit i (.yielded (chunkOf (cfg i).n (unreadOf s.c.ch i)))).goto i .iterYield).goto i .iterRead).evtsOf i =
               t.evtsOf i ++ [.yielded (chunkOf (cfg i).n (unreadOf s.c.ch i))] := fun t => by
             have : (((t.emit i (.yielded (chunkOf (cfg i).n (unreadOf s.c.ch i)))).goto i .iterYield).goto i .iterRead).evtsOf i =
               ((t.emit i (.yielded (chunkOf (cfg i).n (unreadOf s.c.ch i)))).goto i .iterYield).evtsOf i := rfl
             rw [this, evtsOf_done]
           rw [hev]
           simp only [List.append_assoc, List.cons_append, List.nil_append]
           rfl
         · intro v hv
           rcases List.mem_cons.1 hv with rfl | hv
           · exact ⟨_, rfl⟩
           · exact q4 v hv
         · rw [List.flatMap_cons, q5]
           change (chunkOf (cfg i).n (unreadOf s.c.ch i)).items ++ unreadOf (s.c.call (.rd i .readForNext)).1.ch i = _
           rw [e3, chunkOf_items, List.take_append_drop])

/-- **C174** a `for` loop, left to itself, hands out everything that is unread and ends: by itself if the stream has stopped, with the exception of the
sleep if it runs. It does so within a number of its own steps that is bounded by the number of items. -/
theorem C174_loop (he : (NCons.init key kn m cfg).exec cfg as = some s) (i : Nat) (hst : (cfg i).strict = false) (hp : (cfg i).peek = false) (e : PyErr)
    (hb : s.bad i = some e) (hpc : s.c.pc i = .iterRead) :
    ∃ k ≤ 2 * (unreadOf s.c.ch i).length + 4, ∃ s' evs, s.exec cfg (turns i k) = some s' ∧ s'.c.pc i = .idle ∧
      s'.c.evtsOf i = s.c.evtsOf i ++ evs ++ [if s.c.stopped then .loopDone else .raised e] ∧
      (∀ v ∈ evs, ∃ r, v = .yielded r) ∧ evs.flatMap CEvt.items = unreadOf s.c.ch i :=
  loop_from _ i e hst hp s (ch_reach he) hb hpc le_rfl

end
section
variable [LT K] [DecidableLT K] [BEq V] {key : V → K} {kn : Py (Option K)} {m : Option Nat} {cfg : Nat → Cfg} {s s' : NCons K V} {as : List (ZAct K V)}

theorem bad_last (he : (NCons.init key kn m cfg).exec cfg as = some s) (i : Nat) : s.bad i = lastSleep i as := by
  have key' : ∀ (as : List (ZAct K V)) (s0 : NCons K V), s0.exec cfg as = some s →
      s.bad i = as.foldl (fun o a => match a with | .setSleep j o' => if j = i then o' else o | .act _ => o) (s0.bad i) := by
    intro as
    induction as with
    | nil => intro s0 h; simp only [exec, Option.some.injEq] at h; subst h; rfl
    | cons a as ih =>
      intro s0 h
      simp only [exec] at h
      split at h
      · rename_i s1 h1
        rw [ih s1 h, List.foldl_cons]
        congr 1
        unfold step at h1
        split at h1
        · simp only [Option.some.injEq] at h1; subst h1; simp only [eq_comm]
        · split at h1
          · simp only [Option.some.injEq] at h1; subst h1; rfl
          · simp only [Option.some.injEq] at h1; subst h1; rfl
          · obtain ⟨c, -, rfl⟩ := Option.map_eq_some_iff.1 h1; rfl
        · obtain ⟨c, -, rfl⟩ := Option.map_eq_some_iff.1 h1; rfl
      · simp at h
  exact key' as _ he

/-- **C174** only the sleep time that a reader itself was given last counts: if that is accepted, its next step is as if no reader had ever been given a rejected
one; and if `time.sleep` raises with it, a reader that is to sleep leaves its loop or call with that exception. -/
theorem C174_own (i : Nat) (he : (NCons.init key kn m cfg).exec cfg as = some s) :
    (lastSleep i as = none → s.step cfg (.act (.go i)) = (s.c.step cfg (.go i)).map fun c => { s with c := c }) ∧
    ∀ e, lastSleep i as = some e → asleep (s.c.pc i) = true →
      ∃ s', s.step cfg (.act (.go i)) = some s' ∧ s'.c.pc i = .idle ∧ s'.c.evts = s.c.evts ++ [(i, .raised e)] ∧ s'.c.ch = s.c.ch := by
  rw [← bad_last he i]
  constructor
  · intro h
    unfold step
    simp only [h]
    split <;> simp_all
  · intro e h ha
    refine ⟨{ s with c := (s.c.emit i (.raised e)).goto i .idle }, ?_, by simp [Cons.goto], rfl, rfl⟩
    unfold step
    simp only [h]
    revert ha
    cases s.c.pc i <;> simp [asleep]

end

end NCons
end S2P
