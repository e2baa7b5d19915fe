import Verif.Props.Linear
import Mathlib.Data.List.Permutation
/- A concrete execution for C67: three threads, a reader in the middle of its body while a writer waits, a `range` with its nested `read`
overlapping another reader's `tail`. -/
namespace S2P.LMW
open LM RW

def s0 : LM Nat Nat := LM.init 3 id (.error .typeError) none (fun _ => Cfg.default)

def gos (i n : Nat) : List (LAct Nat Nat) := List.replicate n (.go i)

/-- Thread 0 appends 1; thread 1 reads and is interrupted in the middle; thread 0 starts to append 5 and waits for the reader; both finish;
thread 1 asks for the new items from 0 to 9 and, in its nested `read`, is interrupted by thread 2, which takes the last item; thread 1 finishes. -/
def acts : List (LAct Nat Nat) :=
  [.call 0 (.append 1)] ++ gos 0 13 ++ [.call 1 (.rd 1 (.read none none none none))] ++ gos 1 10 ++ [.call 0 (.append 5)] ++ gos 0 4 ++
  gos 1 7 ++ gos 0 9 ++ [.call 1 (.rd 1 (.range 0 9 none false none true false false))] ++ gos 1 20 ++ [.call 2 (.rd 2 (.tail false true true))] ++
  gos 2 16 ++ gos 1 20

def hist : List (Spec.HEv (ChOp Nat Nat) (Py (Ret Nat))) :=
  [.inv 0 (.append 1), .ret 0 (.ok .none), .inv 1 (.rd 1 (.read none none none none)), .inv 2 (.append 5), .ret 1 (.ok (.one 1)), .ret 2 (.ok .none),
   .inv 3 (.rd 1 (.range 0 9 none false none true false false)), .inv 4 (.rd 2 (.tail false true true)), .ret 4 (.ok (.one 5)), .ret 3 (.ok (.many [5]))]

/-- Are both calls on one reader? -/
def same : ChOp Nat Nat → ChOp Nat Nat → Bool
  | .rd r _, .rd r' _ => r == r'
  | _, _ => false

/-- After call `a` (`c`) has been made: it returns before the next call on the same reader is made. -/
def after (a : Nat) (c : ChOp Nat Nat) : List (Spec.HEv (ChOp Nat Nat) (Py (Ret Nat))) → Bool
  | [] => true
  | .ret b _ :: t => b == a || after a c t
  | .inv _ c' :: t => !same c c' && after a c t

/-- Check of `NonOverlapping` for all readers. -/
def check : List (Spec.HEv (ChOp Nat Nat) (Py (Ret Nat))) → Bool
  | [] => true
  | .ret _ _ :: t => check t
  | .inv a c :: t => after a c t && check t

theorem after_sound {a : Nat} {c : ChOp Nat Nat} {r : Nat} (hc : onReader r c) (t : List (Spec.HEv (ChOp Nat Nat) (Py (Ret Nat)))) (h : after a c t = true)
    {h2 h3 : List (Spec.HEv (ChOp Nat Nat) (Py (Ret Nat)))} {b : Nat} {c' : ChOp Nat Nat} (e : t = h2 ++ .inv b c' :: h3) (hc' : onReader r c') :
    ∃ x, Spec.HEv.ret a x ∈ h2 := by
  induction t generalizing h2 with
  | nil => simp at e
  | cons y t ih =>
    cases h2 with
    | nil =>
      simp only [List.nil_append, List.cons.injEq] at e
      obtain ⟨rfl, rfl⟩ := e
      simp only [after, Bool.and_eq_true] at h
      cases c <;> cases c' <;> simp_all [onReader, same]
    | cons z h2 =>
      simp only [List.cons_append, List.cons.injEq] at e
      obtain ⟨rfl, e⟩ := e
      cases y with
      | inv _ _ =>
        simp only [after, Bool.and_eq_true] at h
        obtain ⟨x, hx⟩ := ih h.2 e
        exact ⟨x, List.mem_cons_of_mem _ hx⟩
      | ret k x' =>
        simp only [after, Bool.or_eq_true, beq_iff_eq] at h
        rcases h with rfl | h
        · exact ⟨x', by simp⟩
        · obtain ⟨x, hx⟩ := ih h e
          exact ⟨x, List.mem_cons_of_mem _ hx⟩

theorem check_sound (h : List (Spec.HEv (ChOp Nat Nat) (Py (Ret Nat)))) (hc : check h = true) (r : Nat) : Spec.NonOverlapping (onReader r) h := by
  induction h with
  | nil => intro h1 h2 h3 a c b c' e; simp at e
  | cons y t ih =>
    intro h1 h2 h3 a c b c' e o o'
    cases h1 with
    | nil =>
      simp only [List.nil_append, List.cons_append, List.cons.injEq] at e
      obtain ⟨rfl, e⟩ := e
      simp only [check, Bool.and_eq_true] at hc
      exact after_sound o t hc.1 e o'
    | cons z h1 =>
      simp only [List.cons_append, List.cons.injEq] at e
      obtain ⟨rfl, e⟩ := e
      have : check t = true := by cases y <;> simp_all [check]
      exact ih this h1 h2 h3 a c b c' (by rw [e]) o o'

/-- The hypotheses of C67 are met by an execution with overlapping calls, and no call is left in progress. -/
theorem C67_example : ∃ s, s0.exec acts = some s ∧ s.hist = hist ∧ (∀ r, Spec.NonOverlapping (onReader r) s.hist) ∧ s.m.data.items = [1, 5] ∧ s.pend 0 = none ∧ s.pend 1 = none ∧
    s.pend 2 = none ∧ s.lin.map (·.1) = [0, 1, 2, 4, 3] := ⟨_, rfl, rfl, check_sound _ rfl, rfl, rfl, rfl, rfl, rfl⟩

/-- While thread 1 is in the middle of its `read`, thread 0 is held up. -/
theorem C67_example_waits : ∃ s, s0.exec (acts.take 30) = some s ∧ (s.pend 0).isSome = true ∧ s.step (.go 0) = none ∧
    (s.step (.go 1)).isSome = true := ⟨_, rfl, rfl, rfl, rfl⟩

/-- Three threads, so only three calls in progress. -/
theorem three {as : List (LAct Nat Nat)} {s : LM Nat Nat} (h : s0.exec as = some s) (hc : check s.hist = true) (hl : s.m.th.length = 3) (i : Nat) : s.pend (i + 3) = none :=
  LM.pend_bound _ _ _ _ _ _ h (check_sound _ hc) _ (by omega)

/-- Does thread `i` have a call in progress that nests? -/
def nestsAt (s : LM Nat Nat) (i : Nat) : Bool := match s.pend i with
  | some p => match p.call with
    | .rd _ (.range _ _ _ _ _ o _ _) => o
    | _ => false
  | none => false

theorem nestsAt_sound {s : LM Nat Nat} {i : Nat} (h : nestsAt s i = false) (p : Pend Nat Nat) (hp : s.pend i = some p) : ¬ nests p.call := by
  simp only [nestsAt, hp] at h
  unfold nests
  split
  · rename_i hc; rw [hc] at h; simpa using h
  · exact id

/-- C67_calls_return: thread 1 in the middle of its `read`, thread 0 waiting; finishing thread 1, then thread 0, no call is left. -/
theorem C67_calls_return_meets : ∃ s, s0.exec (acts.take 30) = some s ∧ (∀ i p, s.pend i = some p → ¬ nests p.call) ∧ (s.pend 0).isSome = true ∧ (s.pend 1).isSome = true ∧
    ∃ s', s0.exec (acts.take 30 ++ (gos 1 7 ++ gos 0 9)) = some s' ∧ ∀ i, s'.pend i = none := by
  obtain ⟨s, h1, h2, h3, h4, h5, h6, h7, h8⟩ : ∃ s, s0.exec (acts.take 30) = some s ∧ check s.hist = true ∧ s.m.th.length = 3 ∧ nestsAt s 0 = false ∧ nestsAt s 1 = false ∧
      nestsAt s 2 = false ∧ (s.pend 0).isSome = true ∧ (s.pend 1).isSome = true := ⟨_, rfl, rfl, rfl, rfl, rfl, rfl, rfl, rfl⟩
  obtain ⟨s', k1, k2, k3, k4, k5, k6⟩ : ∃ s, s0.exec (acts.take 30 ++ (gos 1 7 ++ gos 0 9)) = some s ∧ check s.hist = true ∧ s.m.th.length = 3 ∧
      s.pend 0 = none ∧ s.pend 1 = none ∧ s.pend 2 = none := ⟨_, rfl, rfl, rfl, rfl, rfl, rfl⟩
  refine ⟨s, h1, ?_, h7, h8, s', k1, ?_⟩
  · intro i p hp
    match i with
    | 0 => exact nestsAt_sound h4 p hp
    | 1 => exact nestsAt_sound h5 p hp
    | 2 => exact nestsAt_sound h6 p hp
    | i + 3 => rw [three h1 h2 h3 i] at hp; simp at hp
  · intro i
    match i with
    | 0 => exact k4
    | 1 => exact k5
    | 2 => exact k6
    | i + 3 => exact three k1 k2 k3 i

/-- Thread 0 appends 1, thread 1 reads it and asks for the new items from 0 to 9; when it is inside the section, thread 0 starts to append 5; thread 1 goes on to
its nested `read`. -/
def nestActs : List (LAct Nat Nat) :=
  [.call 0 (.append 1)] ++ gos 0 13 ++ [.call 1 (.rd 1 (.read none none none none))] ++ gos 1 17 ++
  [.call 1 (.rd 1 (.range 0 9 none false none true false false))] ++ gos 1 8 ++ [.call 0 (.append 5)] ++ gos 0 4 ++ gos 1 2

/-- The proviso of C67_calls_return is needed: two calls wait for each other. -/
theorem C67_nested_deadlock : ∃ s, s0.exec nestActs = some s ∧ (∀ r, Spec.NonOverlapping (onReader r) s.hist) ∧ (s.pend 0).isSome = true ∧ (s.pend 1).isSome = true ∧
    ∀ i, s.step (.go i) = none := by
  obtain ⟨s, h1, h2, h3, h4, h5, h6, h7, h8⟩ : ∃ s, s0.exec nestActs = some s ∧ check s.hist = true ∧ s.m.th.length = 3 ∧ (s.pend 0).isSome = true ∧
      (s.pend 1).isSome = true ∧ s.step (.go 0) = none ∧ s.step (.go 1) = none ∧ s.pend 2 = none := ⟨_, rfl, rfl, rfl, rfl, rfl, rfl, rfl, rfl⟩
  refine ⟨s, h1, check_sound _ h2, h4, h5, ?_⟩
  intro i
  match i with
  | 0 => exact h6
  | 1 => exact h7
  | 2 => simp [step, h8]
  | i + 3 => simp [step, three h1 h2 h3 i]

/-! ### Two threads sharing a reader -/

/-- Thread 0 appends 1; threads 1 and 2 both call `read()` on reader 0, thread 2 starting while thread 1 is in the middle. -/
def shared : List (LAct Nat Nat) :=
  [.call 0 (.append 1)] ++ gos 0 13 ++ [.call 1 (.rd 0 (.read none none none none))] ++ gos 1 10 ++ [.call 2 (.rd 0 (.read none none none none))] ++
  gos 2 17 ++ gos 1 7

def sharedHist : List (Spec.HEv (ChOp Nat Nat) (Py (Ret Nat))) :=
  [.inv 0 (.append 1), .ret 0 (.ok .none), .inv 1 (.rd 0 (.read none none none none)), .inv 2 (.rd 0 (.read none none none none)),
   .ret 2 (.ok (.one 1)), .ret 1 (.ok (.one 1))]

/-- One item, delivered to both. -/
theorem C68_shared_reader : ∃ s, s0.exec shared = some s ∧ s.hist = sharedHist ∧ s.m.data.items = [1] := ⟨_, rfl, rfl, rfl⟩

/-- No sequential order of the three calls gives these results. -/
theorem C68_not_linearizable : ¬ ∃ S, Spec.Linearizes (fun l => ((Ch.init id (.error .typeError) none (fun _ => Cfg.default)).run (l.map (·.1))).2 =
    l.map (·.2)) sharedHist S := by
  rintro ⟨S, h⟩
  have hmem : ∀ id r, Spec.HEv.ret id r ∈ sharedHist → ∃ c, (id, c, r) ∈ S := h.returned
  obtain ⟨c0, m0⟩ := hmem 0 (.ok .none) (by simp [sharedHist])
  obtain ⟨c1, m1⟩ := hmem 1 (.ok (.one 1)) (by simp [sharedHist])
  obtain ⟨c2, m2⟩ := hmem 2 (.ok (.one 1)) (by simp [sharedHist])
  have i0 : c0 = .append 1 := by have := h.invoked _ m0; simpa [sharedHist] using this
  have i1 : c1 = .rd 0 (.read none none none none) := by have := h.invoked _ m1; simpa [sharedHist] using this
  have i2 : c2 = .rd 0 (.read none none none none) := by have := h.invoked _ m2; simpa [sharedHist] using this
  subst i0 i1 i2
  have uniq : ∀ x ∈ S, ∀ y ∈ S, x.1 = y.1 → x = y := fun x hx y hy => List.inj_on_of_nodup_map h.once hx hy
  have hS : S.Perm [(0, .append 1, .ok .none), (1, .rd 0 (.read none none none none), .ok (.one 1)), (2, .rd 0 (.read none none none none), .ok (.one 1))] := by
    refine (List.perm_ext_iff_of_nodup (List.Nodup.of_map _ h.once) (List.Nodup.of_map (·.1) (by decide))).2 ?_
    intro x
    constructor
    · intro hx
      have := h.invoked x hx
      obtain ⟨id, c, r⟩ := x
      simp [sharedHist] at this
      rcases this with ⟨rfl, -⟩ | ⟨rfl, -⟩ | ⟨rfl, -⟩
      · rw [uniq _ hx _ m0 rfl]; simp
      · rw [uniq _ hx _ m1 rfl]; simp
      · rw [uniq _ hx _ m2 rfl]; simp
    · intro hx
      simp only [List.mem_cons, List.not_mem_nil, or_false] at hx
      rcases hx with rfl | rfl | rfl
      · exact m0
      · exact m1
      · exact m2
  have hp := List.mem_permutations'.2 hS
  simp only [List.permutations', List.permutations'Aux, List.flatMap_cons, List.flatMap_nil, List.map_cons, List.map_nil, List.append_nil, List.cons_append,
    List.nil_append, List.mem_cons, List.not_mem_nil, or_false] at hp
  have hl := h.legal
  rcases hp with rfl | rfl | rfl | rfl | rfl | rfl
  · have : [Except.ok .none, .ok (.one 1), .error PyErr.valueError] = [Except.ok (Ret.none (V := Nat)), .ok (.one 1), .ok (.one 1)] := hl
    simp at this
  · have : some (Except.error PyErr.valueError) = some (Except.ok (Ret.one 1)) := congrArg List.head? hl
    simp at this
  · have : some (Except.error PyErr.valueError) = some (Except.ok (Ret.one 1)) := congrArg List.head? hl
    simp at this
  · have : [Except.ok .none, .ok (.one 1), .error PyErr.valueError] = [Except.ok (Ret.none (V := Nat)), .ok (.one 1), .ok (.one 1)] := hl
    simp at this
  · have : some (Except.error PyErr.valueError) = some (Except.ok (Ret.one 1)) := congrArg List.head? hl
    simp at this
  · have : some (Except.error PyErr.valueError) = some (Except.ok (Ret.one 1)) := congrArg List.head? hl
    simp at this

/-- C67_unlocked_len: in the middle of a `drop(2)` of three items the length is 2, less than before and more than after. -/
def lenEx : M (SD Nat Nat) (WOp Nat) :=
  ⟨[⟨.wCS, 0, some (.drop 2), [fun s => { s with keys := s.keys.eraseIdx 0 }, fun s => { s with items := s.items.eraseIdx 0 }], []⟩],
    ⟨false, true, true, false, false, 0, 1⟩, ⟨[2, 3], [2, 3], id, .error .typeError, some 3⟩, []⟩

theorem lenEx_reached : Reach bufBody 1 (⟨[1, 2, 3], [1, 2, 3], id, .error .typeError, some 3⟩ : SD Nat Nat) lenEx :=
  ⟨[.beginWrite 0 (.drop 2)] ++ List.replicate 7 (.go 0), rfl⟩

example : lenEx.data.len = 2 ∧ ∃ ops, (ops = [] ∨ ops = [WOp.drop 2]) ∧
    (2 < 3 ↔ (afterOps (fun s op => bufAtomic op s) (⟨[1, 2, 3], [1, 2, 3], id, .error .typeError, some 3⟩ : SD Nat Nat) ops).len < 3) := by
  obtain ⟨ops, h1, h2⟩ := C67_unlocked_len lenEx_reached 3
  refine ⟨rfl, ops, h1.imp id ?_, h2⟩
  rintro ⟨t, ht, -, op, h3, h4⟩
  rw [List.mem_singleton.1 ht] at h3
  injection h3 with h3
  rw [h4, ← h3]; rfl

end S2P.LMW
