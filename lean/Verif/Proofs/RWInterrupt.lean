import Verif.Proofs.RWProgress
import Verif.Model.RWInterrupt
/-
The lock under interrupts: executions whose interrupts strike only inside sections are executions without interrupts.
-/
namespace S2P.RWI
open RW
variable {D Op : Type}

/-- A lock with natural counters, as one with integers. -/
def lift (l : Lk) : LkI := ⟨l.rq, l.nr, l.nw, l.rm, l.wm, l.rc, l.wc⟩

/-- A state of the machine without interrupts. -/
def liftM (m : M D Op) : IM D Op := ⟨m.th, lift m.lk, m.data, m.done⟩

theorem liftM_init (n : Nat) (d : D) : (RWI.init n d : IM D Op) = liftM (RW.init n d) := rfl

/-- In a state that keeps the accounting the statements do the same. -/
theorem stmt_lift {c : PC → Nat} {o : Nat} {l : Lk} (h : Acc c o l) {p : PC} (hp : 0 < c p) (hi : p ≠ .idle) :
    (lift l).stmt p = match l.stmt p with | some (l', pc') => Res.on (lift l') pc' | none => .blocked := by
  have hb := h.noWait hp hi
  obtain ⟨g1, g2, g3, g4, g5, g6, g7, g8, g9⟩ := h
  obtain ⟨rq, nr, nw, rm, wm, rc, wc⟩ := l
  cases p <;> simp only [PC.waits, Lk.stmt, LkI.stmt, lift] at * <;> (try simp only [forall_const] at hb)
  case r1 => cases rq <;> rfl
  case r2 => cases nr <;> rfl
  case r3 => cases rm <;> rfl
  case r4 => simp
  case r5 =>
    by_cases h1 : rc = 1
    · subst h1; cases nw <;> rfl
    · have : ¬ ((rc : Int) = 1) := by omega
      simp [h1, this]
  case r6 => cases rm <;> simp_all
  case r7 => cases nr <;> simp_all
  case r8 => cases rq <;> simp_all
  case x1 => cases rm <;> rfl
  case x2 =>
    have : ((rc - 1 : Nat) : Int) = (rc : Int) - 1 := by omega
    simp [this]
  case x3 =>
    by_cases h1 : rc = 0
    · subst h1; cases nw <;> simp at hb ⊢
    · have : ¬ ((rc : Int) = 0) := by omega
      simp [h1]
  case x4 => cases rm <;> simp_all
  case w1 => cases wm <;> rfl
  case w2 => simp
  case w3 =>
    by_cases h1 : wc = 1
    · subst h1; cases nr <;> rfl
    · have : ¬ ((wc : Int) = 1) := by omega
      simp [h1, this]
  case w4 => cases wm <;> simp_all
  case w5 => cases nw <;> rfl
  case y0 => cases nw <;> simp_all
  case y1 => cases wm <;> rfl
  case y2 =>
    have : ((wc - 1 : Nat) : Int) = (wc : Int) - 1 := by omega
    simp [this]
  case y3 =>
    by_cases h1 : wc = 0
    · subst h1; cases nr <;> simp at hb ⊢
    · have : ¬ ((wc : Int) = 0) := by omega
      simp [h1]
  case y4 => cases wm <;> simp_all

/-- An interrupt strikes a thread only inside a section, and a writer only when its operation is finished. -/
def WholeAt (s : IM D Op) : IAct Op → Prop
  | .interrupt i => ∀ t, s.th[i]? = some t → t.pc = .rCS ∨ (t.pc = .wCS ∧ t.prog = [])
  | _ => True

/-- An interrupt strikes a thread only inside a section. -/
def InSectionAt (s : IM D Op) : IAct Op → Prop
  | .interrupt i => ∀ t, s.th[i]? = some t → t.pc = .rCS ∨ t.pc = .wCS
  | _ => True

/-- `P` holds at every step of the execution. -/
def Along (P : IM D Op → IAct Op → Prop) (body : Op → D → List (D → D)) : IM D Op → List (IAct Op) → Prop
  | _, [] => True
  | s, a :: as => P s a ∧ ∀ s', s.step body a = some s' → Along P body s' as

/-- The step without interrupts. -/
def IAct.plain : IAct Op → Act Op
  | .beginRead i => .beginRead i
  | .beginWrite i op => .beginWrite i op
  | .go i => .go i
  | .look i => .look i
  | .nest i => .nest i
  | .interrupt i => .go i

theorem go_lift {body : Op → D → List (D → D)} {m : M D Op} (h : Inv m) {i : Nat} {t : Th D Op} (ht : m.th[i]? = some t) :
    (liftM m).go body i t = (m.go body i t).map liftM := by
  unfold IM.go M.go
  by_cases hi : t.pc = .idle
  · rw [hi]; rfl
  have hs := stmt_lift h.acc (pos_cnt ht) hi
  have hs' : (liftM m).lk.stmt t.pc = _ := hs
  obtain ⟨pc, outer, op, prog, seen⟩ := t
  have key : ∀ (hn : ∀ f fs, pc = .wCS → prog = f :: fs → False),
      (match (liftM m).lk.stmt pc with
        | .blocked => none
        | .raised => some ((liftM m).throw body i ⟨pc, outer, op, prog, seen⟩)
        | .on l pc' => some { (liftM m).put i (Th.arrive body (liftM m).data ⟨pc, outer, op, prog, seen⟩ pc') with
            lk := l, done := if pc = .wCS then (liftM m).done ++ op.toList else (liftM m).done }) =
      Option.map liftM (match m.lk.stmt pc with
        | none => none
        | some (l, pc') => some { m.put i (Th.arrive body m.data ⟨pc, outer, op, prog, seen⟩ pc') with
            lk := l, done := if pc = .wCS then m.done ++ op.toList else m.done }) := by
    intro _
    simp only at hs'
    rw [hs']
    cases hl : m.lk.stmt pc with
    | none => rfl
    | some q => rfl
  cases pc <;> try exact key (fun _ _ h _ => PC.noConfusion h)
  cases prog with
  | nil => exact key (fun _ _ _ h => by simp at h)
  | cons f fs => rfl

theorem throw_whole {body : Op → D → List (D → D)} {m : M D Op} {i : Nat} {t : Th D Op}
    (hw : t.pc = .rCS ∨ (t.pc = .wCS ∧ t.prog = [])) : m.go body i t = some m' → (liftM m).throw body i t = liftM m' := by
  obtain ⟨pc, outer, op, prog, seen⟩ := t
  rcases hw with hw | ⟨hw, hp⟩
  · subst hw
    intro h
    simp only [M.go, Lk.stmt] at h
    injection h with h
    subst h
    simp [IM.throw, unwind, Th.arrive, liftM, IM.put, M.put]
  · simp only at hw hp
    subst hw hp
    intro h
    simp only [M.go, Lk.stmt] at h
    injection h with h
    subst h
    simp [IM.throw, unwind, Th.arrive, liftM, IM.put, M.put]

/-- A step whose interrupts find nothing half done is a step without interrupts. -/
theorem step_whole {body : Op → D → List (D → D)} {m : M D Op} (h : Inv m) {a : IAct Op} {s' : IM D Op} (hw : WholeAt (liftM m) a)
    (hs : (liftM m).step body a = some s') : ∃ m', m.step body a.plain = some m' ∧ s' = liftM m' := by
  have hth : ∀ i : Nat, (liftM m).th[i]? = m.th[i]? := fun _ => rfl
  cases a with
  | beginRead i =>
    simp only [IM.step, hth] at hs
    simp only [IAct.plain, M.step]
    split at hs
    · split at hs
      · injection hs with hs; subst hs; exact ⟨_, by simp_all; rfl, rfl⟩
      · simp at hs
    · simp at hs
  | beginWrite i op =>
    simp only [IM.step, hth] at hs
    simp only [IAct.plain, M.step]
    split at hs
    · split at hs
      · injection hs with hs; subst hs; exact ⟨_, by simp_all; rfl, rfl⟩
      · simp at hs
    · simp at hs
  | look i =>
    simp only [IM.step, hth] at hs
    simp only [IAct.plain, M.step]
    split at hs
    · split at hs
      · injection hs with hs; subst hs; rename_i t ht hp
        exact ⟨_, by rw [ht]; exact if_pos hp, rfl⟩
      · simp at hs
    · simp at hs
  | nest i =>
    simp only [IM.step, hth] at hs
    simp only [IAct.plain, M.step]
    split at hs
    · split at hs
      · injection hs with hs; subst hs; exact ⟨_, by simp_all; rfl, rfl⟩
      · simp at hs
    · simp at hs
  | go i =>
    simp only [IM.step, hth] at hs
    simp only [IAct.plain, M.step]
    split at hs
    · rename_i t ht
      rw [go_lift h ht] at hs
      cases hg : m.go body i t with
      | none => rw [hg] at hs; simp at hs
      | some m' => rw [hg] at hs; simp at hs; exact ⟨m', by simp [ht, hg], hs.symm⟩
    · simp at hs
  | interrupt i =>
    simp only [IM.step, hth] at hs
    simp only [IAct.plain, M.step]
    split at hs
    · rename_i t ht
      split at hs
      · simp at hs
      · injection hs with hs
        have hw' := hw t ht
        have hgo : ∃ m', m.go body i t = some m' := by
          obtain ⟨pc, outer, op, prog, seen⟩ := t
          rcases hw' with hw' | ⟨hw', hp⟩
          · simp only at hw'; subst hw'; exact ⟨_, rfl⟩
          · simp only at hw' hp; subst hw' hp; exact ⟨_, rfl⟩
        obtain ⟨m', hg⟩ := hgo
        exact ⟨m', by simp [ht, hg], by rw [← hs]; exact throw_whole hw' hg⟩
    · simp at hs

theorem exec_whole {body : Op → D → List (D → D)} {n : Nat} {d : D} {as : List (IAct Op)} :
    ∀ {m : M D Op} {s : IM D Op}, Reach body n d m → Along WholeAt body (liftM m) as → (liftM m).exec body as = some s →
      ∃ m', Reach body n d m' ∧ s = liftM m' := by
  induction as with
  | nil => intro m s hr _ he; simp only [IM.exec] at he; injection he with he; exact ⟨m, hr, he.symm⟩
  | cons a as ih =>
    intro m s hr ha he
    simp only [IM.exec] at he
    split at he
    · rename_i s1 hs1
      obtain ⟨m1, h1, rfl⟩ := step_whole hr.inv ha.1 hs1
      refine ih (m := m1) ?_ (ha.2 _ hs1) he
      obtain ⟨bs, hb⟩ := hr
      refine ⟨bs ++ [a.plain], ?_⟩
      have : ∀ (x : M D Op) (l : List (Act Op)) y, x.exec body l = some m → m.step body y = some m1 → x.exec body (l ++ [y]) = some m1 := by
        intro x l y
        induction l generalizing x with
        | nil => intro h h2; simp only [M.exec] at h; injection h with h; subst h; simp [M.exec, h2]
        | cons z l ihl =>
          intro h h2
          simp only [M.exec, List.cons_append] at h ⊢
          split at h
          · rename_i x1 hx1; exact ihl x1 h h2
          · simp at h
      exact this _ _ _ hb h1
    · simp at he

/-! ### Torn operations: the lock alone -/

/-- A thread without the data. -/
def erT (t : Th D Op) : Th Unit Unit := ⟨t.pc, t.outer, t.op.map fun _ => (), [], []⟩

/-- No mutations. -/
def noBody : Unit → Unit → List (Unit → Unit) := fun _ _ => []

/-- `e` is `s` without the data. -/
structure Erased (s : IM D Op) (e : IM Unit Unit) : Prop where
  th : e.th = s.th.map erT
  lk : e.lk = s.lk

theorem go_nil {body : Op → D → List (D → D)} {m : IM D Op} {i : Nat} {t : Th D Op} (hp : t.prog = []) :
    m.go body i t = match m.lk.stmt t.pc with
      | .blocked => none
      | .raised => some (m.throw body i t)
      | .on l pc' => some { m.put i (t.arrive body m.data pc') with
          lk := l, done := if t.pc = .wCS then m.done ++ t.op.toList else m.done } := by
  obtain ⟨pc, outer, op, prog, seen⟩ := t
  simp only at hp
  subst hp
  cases pc <;> rfl

theorem Erased.get {s : IM D Op} {e : IM Unit Unit} (h : Erased s e) {i : Nat} {t : Th D Op} (ht : s.th[i]? = some t) :
    e.th[i]? = some (erT t) := by rw [h.th]; simp [ht]

theorem arrive_er (body : Op → D → List (D → D)) (d : D) (t : Th D Op) (pc' : PC) :
    (erT t).arrive noBody () pc' = erT (t.arrive body d pc') := by
  obtain ⟨pc, outer, op, prog, seen⟩ := t
  cases pc' <;> simp [Th.arrive, erT, noBody]
  case idle => split <;> simp_all
  case wCS => cases op <;> rfl

theorem Erased.set {s s' : IM D Op} {e : IM Unit Unit} (h : Erased s e) {i : Nat} {t' : Th D Op} (hth : s'.th = s.th.set i t')
    (l : LkI) (hl : s'.lk = l) (dn : List Unit) : Erased s' ⟨e.th.set i (erT t'), l, (), dn⟩ :=
  ⟨by simp [hth, h.th, List.map_set], hl.symm⟩

theorem Erased.same {s s' : IM D Op} {e : IM Unit Unit} (h : Erased s e) {i : Nat} {t t' : Th D Op} (ht : s.th[i]? = some t)
    (hth : s'.th = s.th.set i t') (hl : s'.lk = s.lk) (he : erT t' = erT t) : Erased s' e := by
  refine ⟨?_, by rw [hl, h.lk]⟩
  rw [hth, List.map_set, he, h.th]
  apply List.ext_getElem?
  intro j
  rw [List.getElem?_set]
  split
  · rename_i hij; subst hij
    have := List.getElem?_eq_some_iff.1 ht
    obtain ⟨h1, rfl⟩ := this
    simp [h1]
  · rfl

theorem throw_er {body : Op → D → List (D → D)} {s : IM D Op} {e : IM Unit Unit} (h : Erased s e) (i : Nat) (t : Th D Op) :
    Erased (s.throw body i t) (e.throw noBody i (erT t)) := by
  refine ⟨?_, h.lk⟩
  simp only [IM.throw, IM.put, h.th, List.map_set]
  congr 1
  have := arrive_er body s.data t (unwind t.pc)
  have h2 : (erT t).pc = t.pc := rfl
  rw [h2, show e.data = () from rfl, this]
  simp [erT]

/-- Steps seen without the data: one step, or none. -/
theorem step_er {body : Op → D → List (D → D)} {s s' : IM D Op} {e : IM Unit Unit} (h : Erased s e) {a : IAct Op}
    (hin : InSectionAt s a) (hs : s.step body a = some s') :
    Erased s' e ∨ ∃ b e', e.step noBody b = some e' ∧ WholeAt e b ∧ Erased s' e' := by
  cases a with
  | beginRead i =>
    simp only [IM.step] at hs
    split at hs
    · rename_i t ht
      split at hs
      · rename_i hp
        injection hs with hs; subst hs
        refine .inr ⟨.beginRead i, ⟨e.th.set i (erT { t with pc := .r1, seen := [] }), e.lk, (), e.done⟩, ?_, trivial, ?_⟩
        · simp only [IM.step, h.get ht]
          rw [if_pos (show (erT t).pc = .idle from hp)]; rfl
        · exact h.set (s' := s.put i _) rfl _ h.lk.symm _
      · simp at hs
    · simp at hs
  | beginWrite i op =>
    simp only [IM.step] at hs
    split at hs
    · rename_i t ht
      split at hs
      · rename_i hp
        injection hs with hs; subst hs
        refine .inr ⟨.beginWrite i (), ⟨e.th.set i (erT { t with pc := .w1, op := some op }), e.lk, (), e.done⟩, ?_, trivial, ?_⟩
        · simp only [IM.step, h.get ht]
          rw [if_pos (show (erT t).pc = .idle from hp)]; rfl
        · exact h.set (s' := s.put i _) rfl _ h.lk.symm _
      · simp at hs
    · simp at hs
  | look i =>
    simp only [IM.step] at hs
    split at hs
    · rename_i t ht
      split at hs
      · injection hs with hs; subst hs
        exact .inl (h.same ht rfl rfl rfl)
      · simp at hs
    · simp at hs
  | nest i =>
    simp only [IM.step] at hs
    split at hs
    · rename_i t ht
      split at hs
      · rename_i hp
        injection hs with hs; subst hs
        refine .inr ⟨.nest i, ⟨e.th.set i (erT { t with pc := .r1, outer := t.outer + 1 }), e.lk, (), e.done⟩, ?_, trivial, ?_⟩
        · simp only [IM.step, h.get ht]
          rw [if_pos (show (erT t).pc = .rCS from hp)]; rfl
        · exact h.set (s' := s.put i _) rfl _ h.lk.symm _
      · simp at hs
    · simp at hs
  | go i =>
    simp only [IM.step] at hs
    split at hs
    · rename_i t ht
      unfold IM.go at hs
      split at hs
      · rename_i f fs hp hf
        injection hs with hs; subst hs
        exact .inl (h.same ht rfl rfl rfl)
      · split at hs
        · simp at hs
        · rename_i hr
          injection hs with hs; subst hs
          refine .inr ⟨.go i, _, ?_, trivial, throw_er h i t⟩
          simp only [IM.step, h.get ht]
          rw [go_nil rfl, h.lk, show (erT t).pc = t.pc from rfl, hr]
        · rename_i l pc' hr
          injection hs with hs; subst hs
          refine .inr ⟨.go i, ⟨e.th.set i (erT (t.arrive body s.data pc')), l, (), if t.pc = .wCS then e.done ++ (erT t).op.toList else e.done⟩, ?_, trivial, h.set rfl _ rfl _⟩
          simp only [IM.step, h.get ht]
          rw [go_nil rfl, h.lk, show (erT t).pc = t.pc from rfl, hr]
          simp only [IM.put, ← arrive_er body s.data t pc']
    · simp at hs
  | interrupt i =>
    simp only [IM.step] at hs
    split at hs
    · rename_i t ht
      split at hs
      · simp at hs
      · rename_i hp
        injection hs with hs; subst hs
        refine .inr ⟨.interrupt i, _, ?_, ?_, throw_er h i t⟩
        · simp only [IM.step, h.get ht]
          rw [if_neg (show ¬ (erT t).pc = .idle from hp)]
        · intro u hu
          rw [h.get ht] at hu
          injection hu with hu; subst hu
          rcases hin t ht with hq | hq
          · exact .inl hq
          · exact .inr ⟨hq, rfl⟩
    · simp at hs

theorem exec_er {body : Op → D → List (D → D)} {as : List (IAct Op)} :
    ∀ {s s' : IM D Op} {e : IM Unit Unit}, Erased s e → Along InSectionAt body s as → s.exec body as = some s' →
      ∃ bs e', e.exec noBody bs = some e' ∧ Along WholeAt noBody e bs ∧ Erased s' e' := by
  induction as with
  | nil => intro s s' e h _ he; simp only [IM.exec] at he; injection he with he; subst he; exact ⟨[], e, rfl, trivial, h⟩
  | cons a as ih =>
    intro s s' e h ha he
    simp only [IM.exec] at he
    split at he
    · rename_i s1 hs1
      rcases step_er h ha.1 hs1 with h1 | ⟨b, e1, hb, hw, h1⟩
      · exact ih h1 (ha.2 _ hs1) he
      · obtain ⟨bs, e', h2, h3, h4⟩ := ih h1 (ha.2 _ hs1) he
        refine ⟨b :: bs, e', by simp [IM.exec, hb, h2], ⟨hw, ?_⟩, h4⟩
        intro e2 he2
        rw [hb] at he2
        injection he2 with he2
        subst he2
        exact h3
    · simp at he

/-! ### Who holds the readers' queue -/

/-- Between line 42 and line 46 of reader_writer_lock.py. -/
def PC.holds : PC → Bool
  | .r2 | .r3 | .r4 | .r5 | .r6 | .r7 | .r8 => true
  | _ => false

/-- What a step does to the readers' queue lock and to the thread that takes it. -/
inductive Shape (rq rq' : Bool) (t t' : Th D Op) : Prop
  | keep (h1 : rq' = rq) (h2 : PC.holds t'.pc = true → PC.holds t.pc = true)
  | take (h1 : rq = false) (h2 : rq' = true) (h3 : PC.holds t.pc = false)
  | give (h1 : rq' = false) (h2 : PC.holds t.pc = true) (h3 : PC.holds t'.pc = false)

theorem stmt_shape {l l' : LkI} {pc pc' : PC} (h : l.stmt pc = .on l' pc') :
    (l'.rq = l.rq ∧ (PC.holds pc' = true → PC.holds pc = true)) ∨ (l.rq = false ∧ l'.rq = true ∧ PC.holds pc = false) ∨
      (l'.rq = false ∧ PC.holds pc = true ∧ PC.holds pc' = false) := by
  obtain ⟨rq, nr, nw, rm, wm, rc, wc⟩ := l
  cases pc <;> simp only [LkI.stmt] at h <;> (repeat' split at h) <;> simp at h <;> obtain ⟨rfl, rfl⟩ := h <;> simp_all [PC.holds]

theorem holds_arrive (body : Op → D → List (D → D)) (d : D) (t : Th D Op) (pc' : PC) :
    PC.holds (t.arrive body d pc').pc = PC.holds pc' := by
  cases pc' <;> simp [Th.arrive]
  split <;> rfl

theorem holds_unwind (pc : PC) : PC.holds (unwind pc) = false := by cases pc <;> rfl

theorem inside_arrive (body : Op → D → List (D → D)) (d : D) (t : Th D Op) (pc' : PC) (h : (t.arrive body d pc').inside) :
    pc' = .rCS ∨ 0 < t.outer := by
  cases pc' <;> simp only [Th.arrive, Th.inside] at h <;> try (simp at h; simp [h])
  split at h
  · simp at h; omega
  · simp at h; omega

theorem stmt_rCS {l l' : LkI} {pc : PC} (h : l.stmt pc = .on l' .rCS) : pc = .r8 := by
  obtain ⟨rq, nr, nw, rm, wm, rc, wc⟩ := l
  cases pc <;> simp only [LkI.stmt] at h <;> (repeat' split at h) <;> simp_all

/-- The shape of every step. -/
theorem step_shape {body : Op → D → List (D → D)} {s s' : IM D Op} {a : IAct Op} (hs : s.step body a = some s') :
    ∃ (i : Nat) (t t' : Th D Op), s.th[i]? = some t ∧ s'.th = s.th.set i t' ∧ Shape s.lk.rq s'.lk.rq t t' ∧ (t'.inside → t.inside ∨ t.pc = .r8) := by
  have thr : ∀ (i : Nat) (t : Th D Op), s.th[i]? = some t →
      ∃ (j : Nat) (u u' : Th D Op), s.th[j]? = some u ∧ (s.throw body i t).th = s.th.set j u' ∧ Shape s.lk.rq (s.throw body i t).lk.rq u u' ∧ (u'.inside → u.inside ∨ u.pc = .r8) := by
    intro i t ht
    refine ⟨i, t, _, ht, rfl, .keep rfl ?_, ?_⟩
    · intro h
      simp only [holds_arrive, holds_unwind] at h
      exact absurd h (by simp)
    · intro h
      have h' : (t.arrive body s.data (unwind t.pc)).inside := h
      rcases inside_arrive body s.data t _ h' with h1 | h1
      · cases hp : t.pc <;> rw [hp] at h1 <;> simp [unwind] at h1
      · exact .inl (.inr h1)
  cases a with
  | beginRead i =>
    simp only [IM.step] at hs
    split at hs
    · rename_i t ht
      split at hs
      · rename_i hp
        injection hs with hs; subst hs
        refine ⟨i, t, _, ht, rfl, .keep rfl (by simp [PC.holds]), ?_⟩
        rintro (h | h)
        · simp at h
        · exact .inl (.inr h)
      · simp at hs
    · simp at hs
  | beginWrite i op =>
    simp only [IM.step] at hs
    split at hs
    · rename_i t ht
      split at hs
      · injection hs with hs; subst hs
        refine ⟨i, t, _, ht, rfl, .keep rfl (by simp [PC.holds]), ?_⟩
        rintro (h | h)
        · simp at h
        · exact .inl (.inr h)
      · simp at hs
    · simp at hs
  | look i =>
    simp only [IM.step] at hs
    split at hs
    · rename_i t ht
      split at hs
      · rename_i hp
        injection hs with hs; subst hs
        exact ⟨i, t, _, ht, rfl, .keep rfl id, fun _ => .inl (.inl hp)⟩
      · simp at hs
    · simp at hs
  | nest i =>
    simp only [IM.step] at hs
    split at hs
    · rename_i t ht
      split at hs
      · rename_i hp
        injection hs with hs; subst hs
        exact ⟨i, t, _, ht, rfl, .keep rfl (by simp [PC.holds]), fun _ => .inl (.inl hp)⟩
      · simp at hs
    · simp at hs
  | go i =>
    simp only [IM.step] at hs
    split at hs
    · rename_i t ht
      unfold IM.go at hs
      split at hs
      · injection hs with hs; subst hs
        exact ⟨i, t, _, ht, rfl, .keep rfl id, fun h => .inl h⟩
      · split at hs
        · simp at hs
        · injection hs with hs; subst hs
          exact thr i t ht
        · rename_i l pc' hr
          injection hs with hs; subst hs
          refine ⟨i, t, _, ht, rfl, ?_, ?_⟩
          · rcases stmt_shape hr with ⟨h1, h2⟩ | ⟨h1, h2, h3⟩ | ⟨h1, h2, h3⟩
            · exact .keep h1 (by rw [holds_arrive]; exact h2)
            · exact .take h1 h2 h3
            · exact .give h1 h2 (by rw [holds_arrive]; exact h3)
          · intro h
            rcases inside_arrive body s.data t pc' h with h1 | h1
            · subst h1; exact .inr (stmt_rCS hr)
            · exact .inl (.inr h1)
    · simp at hs
  | interrupt i =>
    simp only [IM.step] at hs
    split at hs
    · rename_i t ht
      split at hs
      · simp at hs
      · injection hs with hs; subst hs
        exact thr i t ht
    · simp at hs

/-- At most one thread is in the queue, and then it is locked. -/
structure QInv (s : IM D Op) : Prop where
  locked : ∀ (i : Nat) t, s.th[i]? = some t → PC.holds t.pc = true → s.lk.rq = true
  one : ∀ (i j : Nat) t u, s.th[i]? = some t → s.th[j]? = some u → PC.holds t.pc = true → PC.holds u.pc = true → i = j

theorem get_set_cases {α : Type} {l : List α} {i j : Nat} {x y : α} (h : (l.set i x)[j]? = some y) : (j = i ∧ y = x) ∨ (j ≠ i ∧ l[j]? = some y) := by
  rw [List.getElem?_set] at h
  split at h
  · rename_i hij
    subst hij
    split at h
    · exact .inl ⟨rfl, by injection h with h; exact h.symm⟩
    · simp at h
  · rename_i hij
    exact .inr ⟨fun h' => hij h'.symm, h⟩

theorem QInv.init (n : Nat) (d : D) : QInv (RWI.init n d : IM D Op) := by
  have hz : ∀ (i : Nat) t, (RWI.init n d : IM D Op).th[i]? = some t → PC.holds t.pc = false := by
    intro i t ht
    have := List.eq_of_mem_replicate (List.mem_of_getElem? ht)
    subst this
    rfl
  exact ⟨fun i t ht h => by rw [hz i t ht] at h; simp at h, fun i j t u ht hu h => by rw [hz i t ht] at h; simp at h⟩

theorem QInv.step {body : Op → D → List (D → D)} {s s' : IM D Op} {a : IAct Op} (h : QInv s) (hs : s.step body a = some s') : QInv s' := by
  obtain ⟨k, t, t', ht, hth, hsh, -⟩ := step_shape hs
  rcases hsh with ⟨h1, h2⟩ | ⟨h1, h2, h3⟩ | ⟨h1, h2, h3⟩
  · -- who holds now held before
    have back : ∀ (i : Nat) u, s'.th[i]? = some u → PC.holds u.pc = true → ∃ u0, s.th[i]? = some u0 ∧ PC.holds u0.pc = true := by
      intro i u hu hh
      rw [hth] at hu
      rcases get_set_cases hu with ⟨rfl, rfl⟩ | ⟨-, hu⟩
      · exact ⟨t, ht, h2 hh⟩
      · exact ⟨u, hu, hh⟩
    refine ⟨fun i u hu hh => ?_, fun i j u v hu hv hhu hhv => ?_⟩
    · obtain ⟨u0, h4, h5⟩ := back i u hu hh
      rw [h1]; exact h.locked i u0 h4 h5
    · obtain ⟨u0, h4, h5⟩ := back i u hu hhu
      obtain ⟨v0, h6, h7⟩ := back j v hv hhv
      exact h.one i j u0 v0 h4 h6 h5 h7
  · -- nobody held
    have none : ∀ (i : Nat) u, s.th[i]? = some u → PC.holds u.pc = false := by
      intro i u hu
      cases hb : PC.holds u.pc with
      | false => rfl
      | true => rw [h.locked i u hu hb] at h1; simp at h1
    have only : ∀ (i : Nat) u, s'.th[i]? = some u → PC.holds u.pc = true → i = k := by
      intro i u hu hh
      rw [hth] at hu
      rcases get_set_cases hu with ⟨rfl, rfl⟩ | ⟨-, hu⟩
      · rfl
      · rw [none i u hu] at hh; simp at hh
    exact ⟨fun _ _ _ _ => h2, fun i j u v hu hv hhu hhv => by rw [only i u hu hhu, only j v hv hhv]⟩
  · have none : ∀ (i : Nat) u, s'.th[i]? = some u → PC.holds u.pc = false := by
      intro i u hu
      rw [hth] at hu
      rcases get_set_cases hu with ⟨rfl, rfl⟩ | ⟨hne, hu⟩
      · exact h3
      · cases hb : PC.holds u.pc with
        | false => rfl
        | true => exact absurd (h.one i k u t hu ht hb h2) hne
    exact ⟨fun i u hu hh => by rw [none i u hu] at hh; simp at hh, fun i j u v hu hv hhu => by rw [none i u hu] at hhu; simp at hhu⟩

theorem exec_keeps {P : IM D Op → Prop} {body : Op → D → List (D → D)} (hstep : ∀ s a s', P s → s.step body a = some s' → P s') :
    ∀ (as : List (IAct Op)) (s s' : IM D Op), P s → s.exec body as = some s' → P s' := by
  intro as
  induction as with
  | nil => intro s s' h he; simp only [IM.exec] at he; injection he with he; subst he; exact h
  | cons a as ih =>
    intro s s' h he
    simp only [IM.exec] at he
    split at he
    · rename_i s1 hs1; exact ih s1 s' (hstep _ _ _ h hs1) he
    · simp at he

/-- The queue is locked and nobody is in it. -/
structure Lost (s : IM D Op) : Prop where
  rq : s.lk.rq = true
  nobody : ∀ (i : Nat) t, s.th[i]? = some t → PC.holds t.pc = false

theorem Lost.step {body : Op → D → List (D → D)} {s s' : IM D Op} {a : IAct Op} (h : Lost s) (hs : s.step body a = some s') :
    Lost s' ∧ ∀ (j : Nat) u, s'.th[j]? = some u → u.inside → ∃ u0, s.th[j]? = some u0 ∧ u0.inside := by
  obtain ⟨k, t, t', ht, hth, hsh, hin⟩ := step_shape hs
  have ht0 := h.nobody k t ht
  constructor
  · rcases hsh with ⟨h1, h2⟩ | ⟨h1, h2, h3⟩ | ⟨h1, h2, h3⟩
    · refine ⟨h1.trans h.rq, fun i u hu => ?_⟩
      rw [hth] at hu
      rcases get_set_cases hu with ⟨rfl, rfl⟩ | ⟨-, hu⟩
      · cases hb : PC.holds u.pc with
        | false => rfl
        | true => rw [h2 hb] at ht0; simp at ht0
      · exact h.nobody i u hu
    · rw [h.rq] at h1; simp at h1
    · rw [h2] at ht0; simp at ht0
  · intro j u hu hi
    rw [hth] at hu
    rcases get_set_cases hu with ⟨rfl, rfl⟩ | ⟨-, hu⟩
    · rcases hin hi with h1 | h1
      · exact ⟨t, ht, h1⟩
      · rw [h1] at ht0; simp [PC.holds] at ht0
    · exact ⟨u, hu, hi⟩

theorem Lost.exec {body : Op → D → List (D → D)} (as : List (IAct Op)) : ∀ {s s' : IM D Op}, Lost s → s.exec body as = some s' →
    Lost s' ∧ ∀ (j : Nat) u, s'.th[j]? = some u → u.inside → ∃ u0, s.th[j]? = some u0 ∧ u0.inside := by
  induction as with
  | nil => intro s s' h he; simp only [IM.exec] at he; injection he with he; subst he; exact ⟨h, fun j u hu hi => ⟨u, hu, hi⟩⟩
  | cons a as ih =>
    intro s s' h he
    simp only [IM.exec] at he
    split at he
    · rename_i s1 hs1
      obtain ⟨h1, h2⟩ := h.step hs1
      obtain ⟨h3, h4⟩ := ih h1 he
      refine ⟨h3, fun j u hu hi => ?_⟩
      obtain ⟨u0, h5, h6⟩ := h4 j u hu hi
      exact h2 j u0 h5 h6
    · simp at he

end S2P.RWI
