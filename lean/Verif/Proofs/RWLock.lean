import Verif.Proofs.RWAcc
import Mathlib.Tactic.Common
/- Invariants of the reader-writer lock machine. -/
namespace S2P.RW
variable {D Op : Type}

/-- Sum of a thread measure. -/
def total (f : Th D Op → Nat) (l : List (Th D Op)) : Nat := (l.map f).sum

theorem total_set (f : Th D Op → Nat) {l : List (Th D Op)} {i : Nat} {t : Th D Op} (h : l[i]? = some t) (t' : Th D Op) :
    total f (l.set i t') + f t = total f l + f t' := by
  induction l generalizing i with
  | nil => simp at h
  | cons a l ih =>
    cases i with
    | zero => simp at h; subst h; simp [total]; omega
    | succ i =>
      simp only [List.getElem?_cons_succ] at h
      have := ih h
      simp only [total, List.set_cons_succ, List.map_cons, List.sum_cons] at this ⊢
      omega

theorem total_ge (f : Th D Op → Nat) {l : List (Th D Op)} {i : Nat} {t : Th D Op} (h : l[i]? = some t) : f t ≤ total f l := by
  have := total_set f h { t with pc := .idle }
  induction l generalizing i with
  | nil => simp at h
  | cons a l ih =>
    cases i with
    | zero => simp at h; subst h; simp [total]
    | succ i =>
      simp only [List.getElem?_cons_succ] at h
      have := ih h (total_set f h _)
      simp only [total, List.map_cons, List.sum_cons] at this ⊢
      omega

theorem total_zero {f : Th D Op → Nat} {l : List (Th D Op)} (h : ∀ t ∈ l, f t = 0) : total f l = 0 := by
  induction l with
  | nil => rfl
  | cons a l ih =>
    have := ih (fun t ht => h t (by simp [ht]))
    have := h a (by simp)
    simp only [total, List.map_cons, List.sum_cons] at *
    omega

theorem total_pos {f : Th D Op → Nat} {l : List (Th D Op)} (h : 0 < total f l) : ∃ (i : Nat) (t : Th D Op), l[i]? = some t ∧ 0 < f t := by
  by_contra hc
  have : total f l = 0 := by
    apply total_zero
    intro t ht
    obtain ⟨i, hi⟩ := List.getElem?_of_mem ht
    by_contra h0
    exact hc ⟨i, t, hi, by omega⟩
  omega

/-- 1 at program counter `q`. -/
def at_ (q : PC) (t : Th D Op) : Nat := if t.pc = q then 1 else 0

/-- Number of threads at program counter `q`. -/
def M.cnt (m : M D Op) (q : PC) : Nat := total (at_ q) m.th

/-- Number of surrounding reader sections over all threads. -/
def M.outers (m : M D Op) : Nat := total (·.outer) m.th


theorem total_two (f : Th D Op → Nat) {l : List (Th D Op)} {i j : Nat} {a b : Th D Op} (hij : i ≠ j) (hi : l[i]? = some a)
    (hj : l[j]? = some b) : f a + f b ≤ total f l := by
  have h1 := total_set f hi ⟨a.pc, a.outer, a.op, a.prog, a.seen⟩
  induction l generalizing i j with
  | nil => simp at hi
  | cons x l ih =>
    cases i with
    | zero =>
      cases j with
      | zero => exact absurd rfl hij
      | succ j =>
        simp at hi hj
        subst hi
        have := total_ge f hj
        simp only [total, List.map_cons, List.sum_cons] at this ⊢
        omega
    | succ i =>
      cases j with
      | zero =>
        simp at hi hj
        subst hj
        have := total_ge f hi
        simp only [total, List.map_cons, List.sum_cons] at this ⊢
        omega
      | succ j =>
        simp only [List.getElem?_cons_succ] at hi hj
        have := ih (i := i) (j := j) (by omega) hi hj (total_set f hi _)
        simp only [total, List.map_cons, List.sum_cons] at this ⊢
        omega

/-- Invariant of the machine's lock part. -/
structure Inv (m : M D Op) : Prop where
  acc : Acc m.cnt m.outers m.lk
  outer : ∀ t ∈ m.th, t.pc.reading = false → t.outer = 0

theorem at_is (q : PC) (t : Th D Op) : at_ q t = t.pc.is q := rfl

theorem Inv.init (n : Nat) (d : D) : Inv (RW.init n d : M D Op) := by
  have hz : ∀ q, q ≠ .idle → (RW.init n d : M D Op).cnt q = 0 := by
    intro q hq
    apply total_zero
    intro t ht
    have := List.eq_of_mem_replicate ht
    subst this
    simp [at_, hq.symm]
  have ho : (RW.init n d : M D Op).outers = 0 := by
    apply total_zero
    intro t ht
    have := List.eq_of_mem_replicate ht
    subst this
    rfl
  refine ⟨?_, ?_⟩
  · rw [ho]
    have hlk : (RW.init n d : M D Op).lk = .fresh := rfl
    rw [hlk]
    constructor <;> simp [hz, Lk.fresh]
  · intro t ht _
    have := List.eq_of_mem_replicate ht
    subst this
    rfl

theorem Th.arrive_outer (body : Op → D → List (D → D)) (d : D) (t : Th D Op) (pc' : PC) (h : pc' ≠ .idle) :
    (t.arrive body d pc').outer = t.outer ∧ (t.arrive body d pc').pc = pc' := by
  cases pc' <;> first | exact absurd rfl h | exact ⟨rfl, rfl⟩

theorem stmt_reading {l l' : Lk} {pc pc' : PC} (h : l.stmt pc = some (l', pc')) (hi : pc' ≠ .idle) : pc'.reading = pc.reading := by
  cases pc <;> simp only [Lk.stmt] at h <;> (repeat' split at h) <;>
    simp only [Option.some.injEq, Prod.mk.injEq, reduceCtorEq] at h <;> obtain ⟨_, rfl⟩ := h <;> first | rfl | exact absurd rfl hi

theorem stmt_idle {l l' : Lk} {pc : PC} (h : l.stmt pc = some (l', .idle)) :
    (pc = .x4 ∧ l' = { l with rm := false }) ∨ pc = .y4 := by
  cases pc <;> simp only [Lk.stmt] at h <;> (repeat' split at h) <;>
    simp only [Option.some.injEq, Prod.mk.injEq, reduceCtorEq, and_false] at h
  · exact .inl ⟨rfl, h.1.symm⟩
  · exact .inr rfl

/-- `M.go` is a mutation or a lock statement. -/
theorem go_cases {body : Op → D → List (D → D)} {m m' : M D Op} {i : Nat} {t : Th D Op} (h : m.go body i t = some m') :
    (∃ f fs, t.pc = .wCS ∧ t.prog = f :: fs ∧ m' = { m.put i { t with prog := fs } with data := f m.data }) ∨
    (∃ l pc', m.lk.stmt t.pc = some (l, pc') ∧ (t.pc = .wCS → t.prog = []) ∧
      m' = { m.put i (t.arrive body m.data pc') with lk := l, done := if t.pc = .wCS then m.done ++ t.op.toList else m.done }) := by
  unfold M.go at h
  split at h
  · rename_i f fs hp hf
    injection h with h
    exact .inl ⟨f, fs, hp, hf, h.symm⟩
  · rename_i hn
    split at h
    · simp at h
    · rename_i l pc' hs
      injection h with h
      refine .inr ⟨l, pc', hs, ?_, h.symm⟩
      intro hw
      cases hp : t.prog with
      | nil => rfl
      | cons f fs => exact (hn f fs hw hp).elim

theorem Inv.put {m m' : M D Op} {i : Nat} {t : Th D Op} (t' : Th D Op) (h : Inv m) (ht : m.th[i]? = some t) (hth : m'.th = m.th.set i t')
    (key : ∀ (c : PC → Nat) (o : Nat), (∀ q, c q + t.pc.is q = m.cnt q + t'.pc.is q) → o + t.outer = m.outers + t'.outer →
      Acc c o m'.lk) (hout : t'.pc.reading = false → t'.outer = 0) : Inv m' := by
  refine ⟨key _ _ (fun q => ?_) ?_, ?_⟩
  · simp only [M.cnt, hth]; exact total_set _ ht t'
  · simp only [M.outers, hth]; exact total_set _ ht t'
  · intro s hs
    rw [hth] at hs
    rcases List.mem_or_eq_of_mem_set hs with hs | rfl
    · exact h.outer s hs
    · exact hout

theorem Acc.congr {c c' : PC → Nat} {o o' : Nat} {l : Lk} (h : Acc c o l) (hc : ∀ q, c' q = c q) (ho : o' = o) : Acc c' o' l := by
  have : c' = c := funext hc
  subst this; subst ho; exact h

theorem Inv.go {body : Op → D → List (D → D)} {m m' : M D Op} {i : Nat} {t : Th D Op} (h : Inv m) (ht : m.th[i]? = some t)
    (hs : m.go body i t = some m') : Inv m' := by
  have hout := h.outer t (List.mem_of_getElem? ht)
  rcases go_cases hs with ⟨f, fs, hp, hf, rfl⟩ | ⟨l, pc', hst, _, rfl⟩
  · refine h.put { t with prog := fs } ht rfl (fun c o hq ho => ?_) (by simpa [hp, PC.reading] using hout)
    refine h.acc.congr (fun q => ?_) ?_
    · exact Nat.add_right_cancel (hq q)
    · exact Nat.add_right_cancel ho
  · by_cases hi : pc' = .idle
    · subst hi
      by_cases h0 : t.outer = 0
      · have ha : t.arrive body m.data .idle = { t with pc := .idle } := by simp [Th.arrive, h0]
        rw [ha]
        refine h.put { t with pc := .idle } ht rfl (fun c o hq ho => ?_) (fun _ => h0)
        have ho' : o = m.outers := Nat.add_right_cancel ho
        rw [ho']
        exact h.acc.stmt hst hq
      · have ha : t.arrive body m.data .idle = { t with pc := .rCS, outer := t.outer - 1 } := by simp [Th.arrive, h0]
        rw [ha]
        rcases stmt_idle hst with ⟨hx, rfl⟩ | hy
        · refine h.put { t with pc := .rCS, outer := t.outer - 1 } ht rfl (fun c o hq ho => ?_) (fun hr => by simp [PC.reading] at hr)
          rw [hx] at hq
          refine h.acc.unnest ?_ hq
          dsimp only at ho; omega
        · rw [hy] at hout
          exact absurd (hout rfl) h0
    · obtain ⟨ha1, ha2⟩ := Th.arrive_outer body m.data t pc' hi
      refine h.put _ ht rfl (fun c o hq ho => ?_) ?_
      · rw [ha1] at ho
        have ho' : o = m.outers := Nat.add_right_cancel ho
        rw [ho']
        rw [ha2] at hq
        exact h.acc.stmt hst hq
      · rw [ha1, ha2, stmt_reading hst hi]; exact hout

theorem Inv.step {body : Op → D → List (D → D)} {m m' : M D Op} (h : Inv m) (a : Act Op) (hs : m.step body a = some m') : Inv m' := by
  cases a with
  | go i =>
    simp only [M.step] at hs
    split at hs
    · rename_i t ht; exact h.go ht hs
    · simp at hs
  | beginRead i =>
    simp only [M.step] at hs
    split at hs
    · rename_i t ht
      split at hs
      · rename_i hp
        injection hs with hs; subst hs
        refine h.put { t with pc := .r1, seen := [] } ht rfl (fun c o hq ho => ?_) (fun _ => h.outer t (List.mem_of_getElem? ht) (by rw [hp]; rfl))
        rw [hp] at hq
        exact (Nat.add_right_cancel ho) ▸ (h.acc.begin (.inl rfl) hq)
      · simp at hs
    · simp at hs
  | beginWrite i op =>
    simp only [M.step] at hs
    split at hs
    · rename_i t ht
      split at hs
      · rename_i hp
        injection hs with hs; subst hs
        refine h.put { t with pc := .w1, op := some op } ht rfl (fun c o hq ho => ?_) (fun _ => h.outer t (List.mem_of_getElem? ht) (by rw [hp]; rfl))
        rw [hp] at hq
        exact (Nat.add_right_cancel ho) ▸ (h.acc.begin (.inr rfl) hq)
      · simp at hs
    · simp at hs
  | look i =>
    simp only [M.step] at hs
    split at hs
    · rename_i t ht
      split at hs
      · rename_i hp
        injection hs with hs; subst hs
        refine h.put { t with seen := t.seen ++ [m.data] } ht rfl (fun c o hq ho => ?_) (fun hr => by simp [hp, PC.reading] at hr)
        exact h.acc.congr (fun q => Nat.add_right_cancel (hq q)) (Nat.add_right_cancel ho)
      · simp at hs
    · simp at hs
  | nest i =>
    simp only [M.step] at hs
    split at hs
    · rename_i t ht
      split at hs
      · rename_i hp
        injection hs with hs; subst hs
        refine h.put { t with pc := .r1, outer := t.outer + 1 } ht rfl (fun c o hq ho => ?_) (fun hr => by simp [PC.reading] at hr)
        rw [hp] at hq
        exact h.acc.nest (by dsimp only at ho; omega) hq
      · simp at hs
    · simp at hs

theorem exec_inv {P : M D Op → Prop} {body : Op → D → List (D → D)} (hstep : ∀ m a m', P m → m.step body a = some m' → P m')
    (as : List (Act Op)) {m m' : M D Op} (h : P m) (he : m.exec body as = some m') : P m' := by
  induction as generalizing m with
  | nil => simp only [M.exec, Option.some.injEq] at he; subst he; exact h
  | cons a as ih =>
    simp only [M.exec] at he
    split at he
    · rename_i m1 hs; exact ih (hstep _ _ _ h hs) he
    · simp at he

theorem Reach.inv {body : Op → D → List (D → D)} {n : Nat} {d : D} {m : M D Op} (h : Reach body n d m) : Inv m := by
  obtain ⟨as, he⟩ := h
  exact exec_inv (fun m a m' hm hs => hm.step a hs) as (Inv.init n d) he

/-! ### The protected data -/

/-- Is the thread inside a reader section? -/
def Th.inside (t : Th D Op) : Prop := t.pc = .rCS ∨ 0 < t.outer

/-- A writer operation executed in one go. -/
def runBody (body : Op → D → List (D → D)) (d : D) (op : Op) : D := (body op d).foldl (fun x f => f x) d

/-- Data invariant: `data` is the result of the completed operations, plus the executed part of the one in progress; every look of a
reader is the result of a number of completed operations, and of the current one while it is inside. -/
structure DInv (body : Op → D → List (D → D)) (d0 : D) (m : M D Op) : Prop where
  quiet : (∀ t ∈ m.th, t.pc ≠ .wCS) → m.data = m.done.foldl (runBody body) d0
  busy : ∀ t ∈ m.th, t.pc = .wCS → ∃ op pre, t.op = some op ∧
    body op (m.done.foldl (runBody body) d0) = pre ++ t.prog ∧ m.data = pre.foldl (fun x f => f x) (m.done.foldl (runBody body) d0)
  writers : ∀ t ∈ m.th, t.pc ∈ [PC.w1, .w2, .w3, .w4, .w5] → t.op.isSome = true
  looks : ∀ t ∈ m.th, ∃ ops, ops <+: m.done ∧ (∀ x ∈ t.seen, x = ops.foldl (runBody body) d0) ∧ (t.inside → ops = m.done)
  entering : ∀ t ∈ m.th, t.outer = 0 → t.pc ∈ [PC.r1, .r2, .r3, .r4, .r5, .r6, .r7, .r8] → t.seen = []

theorem mem_set_cases {α : Type} {l : List α} {i : Nat} {t' s : α} (h : s ∈ l.set i t') :
    s = t' ∨ ∃ j, j ≠ i ∧ l[j]? = some s := by
  obtain ⟨j, hj⟩ := List.getElem?_of_mem h
  rw [List.getElem?_set] at hj
  split at hj
  · split at hj
    · injection hj with hj; exact .inl hj.symm
    · simp at hj
  · rename_i hne
    exact .inr ⟨j, fun he => hne he.symm, hj⟩

/-- A writer inside excludes everybody else. -/
theorem Inv.exclusive {m : M D Op} (h : Inv m) {i j : Nat} {t s : Th D Op} (ht : m.th[i]? = some t) (hw : t.pc = .wCS)
    (hij : i ≠ j) (hs : m.th[j]? = some s) : s.pc ≠ .wCS ∧ s.pc ≠ .rCS ∧ s.outer = 0 := by
  have h1 : 0 < m.cnt .wCS := by
    have := total_ge (at_ .wCS) ht
    simp only [at_, hw, if_true] at this
    exact this
  obtain ⟨e1, -, e2, e3, -⟩ := h.acc.exclusive h1
  refine ⟨fun hc => ?_, fun hc => ?_, ?_⟩
  · have := total_two (at_ .wCS) hij ht hs
    simp only [at_, hw, hc, if_true] at this
    simp only [M.cnt] at e1
    have e1' : total (fun t : Th D Op => if t.pc = PC.wCS then 1 else 0) m.th = 1 := e1
    change 1 + 1 ≤ total (fun t : Th D Op => if t.pc = PC.wCS then 1 else 0) m.th at this
    omega
  · have := total_ge (at_ .rCS) hs
    simp only [at_, hc, if_true] at this
    change 1 ≤ m.cnt .rCS at this
    omega
  · have := total_ge (fun t : Th D Op => t.outer) hs
    change s.outer ≤ m.outers at this
    omega

theorem Inv.noWriter {m : M D Op} (h : Inv m) {i : Nat} {t : Th D Op} (ht : m.th[i]? = some t) (hin : t.inside) :
    ∀ s ∈ m.th, s.pc ≠ .wCS := by
  intro s hs hc
  obtain ⟨j, hj⟩ := List.getElem?_of_mem hs
  by_cases hij : j = i
  · subst hij
    rw [ht] at hj; injection hj with hj; subst hj
    have := h.outer t (List.mem_of_getElem? ht) (by rw [hc]; rfl)
    rcases hin with h1 | h1
    · rw [hc] at h1; exact absurd h1 (by decide)
    · omega
  · obtain ⟨-, h2, h3⟩ := h.exclusive hj hc hij ht
    rcases hin with h1 | h1
    · exact h2 h1
    · omega

theorem runBody_step {body : Op → D → List (D → D)} (d0 : D) (done : List Op) (op : Op) :
    (done ++ [op]).foldl (runBody body) d0 = (body op (done.foldl (runBody body) d0)).foldl (fun x f => f x) (done.foldl (runBody body) d0) := by
  simp [runBody]

/-- Steps that change neither the data nor the completed operations. -/
theorem DInv.put {body : Op → D → List (D → D)} {d0 : D} {m m' : M D Op} {i : Nat} {t : Th D Op} (t' : Th D Op) (hd : DInv body d0 m)
    (ht : m.th[i]? = some t) (hth : m'.th = m.th.set i t') (hdata : m'.data = m.data) (hdone : m'.done = m.done)
    (hquiet : t.pc = .wCS → t'.pc = .wCS)
    (hbusy : t'.pc = .wCS → ∃ op pre, t'.op = some op ∧ body op (m.done.foldl (runBody body) d0) = pre ++ t'.prog ∧
      m.data = pre.foldl (fun x f => f x) (m.done.foldl (runBody body) d0))
    (hwr : t'.pc ∈ [PC.w1, .w2, .w3, .w4, .w5] → t'.op.isSome = true)
    (hlook : ∃ ops, ops <+: m.done ∧ (∀ x ∈ t'.seen, x = ops.foldl (runBody body) d0) ∧ (t'.inside → ops = m.done))
    (hent : t'.outer = 0 → t'.pc ∈ [PC.r1, .r2, .r3, .r4, .r5, .r6, .r7, .r8] → t'.seen = []) : DInv body d0 m' := by
  have hmem : ∀ s ∈ m'.th, s = t' ∨ s ∈ m.th := by
    intro s hs
    rw [hth] at hs
    rcases mem_set_cases hs with h | ⟨j, _, hj⟩
    · exact .inl h
    · exact .inr (List.mem_of_getElem? hj)
  refine ⟨fun hq => ?_, fun s hs hp => ?_, fun s hs hp => ?_, fun s hs => ?_, fun s hs => ?_⟩
  · rw [hdata, hdone]
    apply hd.quiet
    intro s hs hc
    obtain ⟨j, hj⟩ := List.getElem?_of_mem hs
    by_cases hij : j = i
    · subst hij
      rw [ht] at hj; injection hj with hj; subst hj
      refine hq t' ?_ (hquiet hc)
      rw [hth]
      exact List.mem_set (List.getElem?_eq_some_iff.1 ht).1 t'
    · refine hq s ?_ hc
      rw [hth]
      refine List.mem_of_getElem? (i := j) ?_
      rw [List.getElem?_set_ne (fun h => hij h.symm)]; exact hj
  · rw [hdata, hdone]
    rcases hmem s hs with rfl | h
    · exact hbusy hp
    · exact hd.busy s h hp
  · rcases hmem s hs with rfl | h
    · exact hwr hp
    · exact hd.writers s h hp
  · rw [hdone]
    rcases hmem s hs with rfl | h
    · exact hlook
    · exact hd.looks s h
  · rcases hmem s hs with rfl | h
    · exact hent
    · exact hd.entering s h

theorem stmt_toW {l l' : Lk} {pc pc' : PC} (h : l.stmt pc = some (l', pc')) :
    (pc' = .wCS → pc = .w5) ∧ (pc' ∈ [PC.w1, .w2, .w3, .w4, .w5] → pc ∈ [PC.w1, .w2, .w3, .w4, .w5]) ∧
    (pc' ∈ [PC.r1, .r2, .r3, .r4, .r5, .r6, .r7, .r8] → pc ∈ [PC.r1, .r2, .r3, .r4, .r5, .r6, .r7, .r8]) ∧
    (pc' = .rCS → pc = .r8) ∧ (pc' = .y0 → pc = .wCS) ∧ (pc = .wCS → pc' = .y0) := by
  cases pc <;> simp only [Lk.stmt] at h <;> (repeat' split at h) <;>
    simp only [Option.some.injEq, Prod.mk.injEq, reduceCtorEq] at h <;> obtain ⟨_, rfl⟩ := h <;> decide

theorem arrive_pc (body : Op → D → List (D → D)) (d : D) (t : Th D Op) (pc' : PC) :
    (t.arrive body d pc').pc = if pc' = .idle ∧ t.outer ≠ 0 then .rCS else pc' := by
  cases pc' <;> simp [Th.arrive]
  split <;> simp_all

theorem arrive_seen (body : Op → D → List (D → D)) (d : D) (t : Th D Op) (pc' : PC) :
    (t.arrive body d pc').seen = t.seen := by
  cases pc' <;> simp [Th.arrive]
  split <;> rfl

theorem arrive_outer_le (body : Op → D → List (D → D)) (d : D) (t : Th D Op) (pc' : PC) :
    (t.arrive body d pc').outer = if pc' = .idle then t.outer - 1 else t.outer := by
  cases pc' <;> simp [Th.arrive]
  split <;> simp_all

theorem arrive_op (body : Op → D → List (D → D)) (d : D) (t : Th D Op) (pc' : PC) (h : pc' ≠ .y0) :
    (t.arrive body d pc').op = t.op := by
  cases pc' <;> simp [Th.arrive] at h ⊢
  split <;> rfl

theorem DInv.go {body : Op → D → List (D → D)} {d0 : D} {m m' : M D Op} {i : Nat} {t : Th D Op} (h : Inv m) (hd : DInv body d0 m)
    (ht : m.th[i]? = some t) (hs : m.go body i t = some m') : DInv body d0 m' := by
  have htm := List.mem_of_getElem? ht
  rcases go_cases hs with ⟨f, fs, hp, hf, rfl⟩ | ⟨l, pc', hst, hnil, rfl⟩
  · -- a mutation
    have ho := h.outer t htm (by rw [hp]; rfl)
    obtain ⟨op, pre, hop, hb, hdt⟩ := hd.busy t htm hp
    have hin' : ¬ ({ t with prog := fs } : Th D Op).inside := by
      rintro (h1 | h1)
      · have : t.pc = .rCS := h1
        rw [hp] at this; exact absurd this (by decide)
      · have : 0 < t.outer := h1
        omega
    refine ⟨fun hq => ?_, fun s hs hps => ?_, fun s hs hps => ?_, fun s hs => ?_, fun s hs => ?_⟩
    · refine absurd hp (hq { t with prog := fs } ?_)
      exact List.mem_set (List.getElem?_eq_some_iff.1 ht).1 _
    · rcases mem_set_cases hs with rfl | ⟨j, hj, hjs⟩
      · refine ⟨op, pre ++ [f], hop, ?_, ?_⟩
        · rw [hf] at hb; change body op (m.done.foldl (runBody body) d0) = _; simpa using hb
        · change f m.data = (pre ++ [f]).foldl (fun x f => f x) (m.done.foldl (runBody body) d0)
          rw [List.foldl_append, ← hdt]; rfl
      · exact absurd hps (h.exclusive ht hp (fun e => hj e.symm) hjs).1
    · rcases mem_set_cases hs with rfl | ⟨j, hj, hjs⟩
      · exact hd.writers t htm hps
      · exact hd.writers s (List.mem_of_getElem? hjs) hps
    · rcases mem_set_cases hs with rfl | ⟨j, hj, hjs⟩
      · obtain ⟨ops, h1, h2, h3⟩ := hd.looks t htm
        exact ⟨ops, h1, h2, fun hin => absurd hin hin'⟩
      · exact hd.looks s (List.mem_of_getElem? hjs)
    · rcases mem_set_cases hs with rfl | ⟨j, hj, hjs⟩
      · exact hd.entering t htm
      · exact hd.entering s (List.mem_of_getElem? hjs)
  · obtain ⟨k1, k2, k3, k4, k5, k6⟩ := stmt_toW hst
    by_cases hp : t.pc = .wCS
    · -- leaving the writer section
      have hpc' := k6 hp
      subst hpc'
      have ho := h.outer t htm (by rw [hp]; rfl)
      obtain ⟨op, pre, hop, hb, hdt⟩ := hd.busy t htm hp
      have ht' : t.arrive body m.data .y0 = { t with pc := .y0, op := none } := rfl
      rw [ht']
      rw [hnil hp, List.append_nil] at hb
      have hdone : (if t.pc = .wCS then m.done ++ t.op.toList else m.done) = m.done ++ [op] := by simp [hp, hop]
      rw [hdone]
      have hin' : ¬ ({ t with pc := .y0, op := none } : Th D Op).inside := by
        rintro (h1 | h1)
        · exact absurd h1 (by simp)
        · have : 0 < t.outer := h1
          omega
      refine ⟨fun hq => ?_, fun s hs hps => ?_, fun s hs hps => ?_, fun s hs => ?_, fun s hs => ?_⟩
      · change m.data = (m.done ++ [op]).foldl (runBody body) d0
        rw [runBody_step, hb]; exact hdt
      · rcases mem_set_cases hs with rfl | ⟨j, hj, hjs⟩
        · exact absurd hps (by simp)
        · exact absurd hps (h.exclusive ht hp (fun e => hj e.symm) hjs).1
      · rcases mem_set_cases hs with rfl | ⟨j, hj, hjs⟩
        · simp at hps
        · exact hd.writers s (List.mem_of_getElem? hjs) hps
      · rcases mem_set_cases hs with rfl | ⟨j, hj, hjs⟩
        · obtain ⟨ops, h1, h2, h3⟩ := hd.looks t htm
          exact ⟨ops, h1.trans (List.prefix_append _ _), h2, fun hin => absurd hin hin'⟩
        · obtain ⟨ops, h1, h2, h3⟩ := hd.looks s (List.mem_of_getElem? hjs)
          refine ⟨ops, h1.trans (List.prefix_append _ _), h2, fun hin => ?_⟩
          obtain ⟨-, e1, e2⟩ := h.exclusive ht hp (fun e => hj e.symm) hjs
          rcases hin with hin | hin
          · exact absurd hin e1
          · omega
      · rcases mem_set_cases hs with rfl | ⟨j, hj, hjs⟩
        · intro _ hc; simp at hc
        · exact hd.entering s (List.mem_of_getElem? hjs)
    · -- any other lock statement
      have hnw : pc' ≠ .y0 := fun e => hp (k5 e)
      have hap := arrive_pc body m.data t pc'
      refine hd.put (t.arrive body m.data pc') ht rfl rfl (by simp [hp]) (fun e => absurd e hp) (fun e => ?_) (fun e => ?_) ?_ (fun e0 e => ?_)
      · -- entering the writer section
        have hpc : pc' = .wCS := by
          rw [hap] at e
          split at e
          · exact absurd e (by decide)
          · exact e
        have h5 := k1 hpc
        subst hpc
        obtain ⟨op, hop⟩ := Option.isSome_iff_exists.1 (hd.writers t htm (by rw [h5]; simp))
        have hq : ∀ s ∈ m.th, s.pc ≠ .wCS := by
          intro s hs hc
          obtain ⟨j, hj⟩ := List.getElem?_of_mem hs
          have hc0 : 0 < m.cnt .wCS := by
            have := total_ge (at_ .wCS) hj
            simp only [at_, hc, if_true] at this
            exact this
          have hnw := h.acc.nwOff
          have hnw' := h.acc.nwOn
          have : l.nw = true ∧ m.lk.nw = false := by
            rw [h5] at hst
            simp only [Lk.stmt] at hst
            split at hst
            · simp at hst
            · rename_i hb
              simp only [Option.some.injEq, Prod.mk.injEq] at hst
              rw [← hst.1]
              exact ⟨rfl, by simpa using hb⟩
          rw [this.2] at hnw hnw'
          simp only [Bool.toNat_false] at hnw hnw'
          omega
        have hdq := hd.quiet hq
        refine ⟨op, [], hop, ?_, hdq⟩
        simp [Th.arrive, hop, ← hdq]
      · rw [arrive_op body m.data t pc' hnw]
        apply hd.writers t htm
        apply k2
        rw [hap] at e
        split at e
        · simp at e
        · exact e
      · obtain ⟨ops, h1, h2, h3⟩ := hd.looks t htm
        rw [arrive_seen]
        by_cases hin : t.inside
        · exact ⟨ops, h1, h2, fun _ => h3 hin⟩
        · by_cases hr : pc' = .rCS
          · have h8 := k4 hr
            have ho0 : t.outer = 0 := by
              by_contra hc
              exact hin (.inr (by omega))
            rw [hd.entering t htm ho0 (by rw [h8]; simp)]
            exact ⟨m.done, List.prefix_refl _, by simp, fun _ => rfl⟩
          · refine ⟨ops, h1, h2, fun hin' => ?_⟩
            exfalso
            apply hin
            rcases hin' with hin' | hin'
            · rw [hap] at hin'
              split at hin'
              · rename_i hc; exact .inr (by omega)
              · exact absurd hin' hr
            · rw [arrive_outer_le] at hin'
              split at hin'
              · exact .inr (by omega)
              · exact .inr hin'
      · have hpc : pc' ∈ [PC.r1, .r2, .r3, .r4, .r5, .r6, .r7, .r8] := by
          rw [hap] at e
          split at e
          · simp at e
          · exact e
        rw [arrive_seen]
        refine hd.entering t htm ?_ (k3 hpc)
        rw [arrive_outer_le] at e0
        split at e0
        · rename_i hc; subst hc; simp at hpc
        · exact e0

theorem DInv.step {body : Op → D → List (D → D)} {d0 : D} {m m' : M D Op} (h : Inv m) (hd : DInv body d0 m) (a : Act Op)
    (hs : m.step body a = some m') : DInv body d0 m' := by
  cases a with
  | go i =>
    simp only [M.step] at hs
    split at hs
    · rename_i t ht; exact hd.go h ht hs
    · simp at hs
  | beginRead i =>
    simp only [M.step] at hs
    split at hs
    · rename_i t ht
      split at hs
      · rename_i hp
        injection hs with hs; subst hs
        have ho := h.outer t (List.mem_of_getElem? ht) (by rw [hp]; rfl)
        refine hd.put { t with pc := .r1, seen := [] } ht rfl rfl rfl (fun e => ?_) (fun e => ?_) (fun e => ?_) ?_ (fun _ _ => rfl)
        · rw [hp] at e; exact absurd e (by decide)
        · exact absurd e (by simp)
        · simp at e
        · exact ⟨m.done, List.prefix_refl _, by simp, fun _ => rfl⟩
      · simp at hs
    · simp at hs
  | beginWrite i op =>
    simp only [M.step] at hs
    split at hs
    · rename_i t ht
      split at hs
      · rename_i hp
        injection hs with hs; subst hs
        have ho := h.outer t (List.mem_of_getElem? ht) (by rw [hp]; rfl)
        obtain ⟨ops, h1, h2, h3⟩ := hd.looks t (List.mem_of_getElem? ht)
        refine hd.put { t with pc := .w1, op := some op } ht rfl rfl rfl (fun e => ?_) (fun e => ?_) (fun e => rfl)
          ⟨ops, h1, h2, fun hin => ?_⟩ (fun _ e => ?_)
        · rw [hp] at e; exact absurd e (by decide)
        · exact absurd e (by simp)
        · rcases hin with hin | hin
          · exact absurd hin (by simp)
          · exact h3 (.inr hin)
        · simp at e
      · simp at hs
    · simp at hs
  | look i =>
    simp only [M.step] at hs
    split at hs
    · rename_i t ht
      split at hs
      · rename_i hp
        injection hs with hs; subst hs
        obtain ⟨ops, h1, h2, h3⟩ := hd.looks t (List.mem_of_getElem? ht)
        have hin : t.inside := .inl hp
        have hq := hd.quiet (h.noWriter ht hin)
        refine hd.put { t with seen := t.seen ++ [m.data] } ht rfl rfl rfl (fun e => e) (fun e => ?_) (fun e => ?_)
          ⟨ops, h1, fun x hx => ?_, fun _ => h3 hin⟩ (fun _ e => ?_)
        · have e' : t.pc = .wCS := e
          rw [hp] at e'; exact absurd e' (by decide)
        · change t.pc ∈ _ at e
          rw [hp] at e; simp at e
        · rcases List.mem_append.1 hx with hx | hx
          · exact h2 x hx
          · rw [List.mem_singleton.1 hx, hq, h3 hin]
        · change t.pc ∈ _ at e
          rw [hp] at e; simp at e
      · simp at hs
    · simp at hs
  | nest i =>
    simp only [M.step] at hs
    split at hs
    · rename_i t ht
      split at hs
      · rename_i hp
        injection hs with hs; subst hs
        obtain ⟨ops, h1, h2, h3⟩ := hd.looks t (List.mem_of_getElem? ht)
        refine hd.put { t with pc := .r1, outer := t.outer + 1 } ht rfl rfl rfl (fun e => ?_) (fun e => ?_) (fun e => ?_)
          ⟨ops, h1, h2, fun _ => h3 (.inl hp)⟩ (fun e => ?_)
        · rw [hp] at e; exact absurd e (by decide)
        · exact absurd e (by simp)
        · simp at e
        · simp at e
      · simp at hs
    · simp at hs

theorem Reach.dinv {body : Op → D → List (D → D)} {n : Nat} {d : D} {m : M D Op} (h : Reach body n d m) : DInv body d m := by
  obtain ⟨as, he⟩ := h
  refine (exec_inv (P := fun m => Inv m ∧ DInv body d m) (fun m a m' hm hs => ⟨hm.1.step a hs, hm.2.step hm.1 a hs⟩) as ⟨Inv.init n d, ?_⟩ he).2
  have hmem : ∀ t ∈ (RW.init n d : M D Op).th, t = ⟨.idle, 0, none, [], []⟩ := fun t ht => List.eq_of_mem_replicate ht
  refine ⟨fun _ => rfl, fun t ht hp => ?_, fun t ht hp => ?_, fun t ht => ?_, fun t ht _ hp => ?_⟩
  · rw [hmem t ht] at hp; exact absurd hp (by simp)
  · rw [hmem t ht] at hp; simp at hp
  · rw [hmem t ht]; exact ⟨[], List.prefix_refl _, by simp, fun _ => rfl⟩
  · rw [hmem t ht]

end S2P.RW
