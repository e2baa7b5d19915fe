import Verif.Proofs.LinearProg
import Verif.Proofs.RWProgress
/- The calls of Model/Linear.lean take effect one at a time. -/
namespace S2P
open Spec

namespace RW
variable {D Op : Type}

/-- The statement after each statement. -/
def PC.next : PC → PC
  | .idle => .idle
  | .r1 => .r2 | .r2 => .r3 | .r3 => .r4 | .r4 => .r5 | .r5 => .r6 | .r6 => .r7 | .r7 => .r8 | .r8 => .rCS
  | .rCS => .x1 | .x1 => .x2 | .x2 => .x3 | .x3 => .x4 | .x4 => .idle
  | .w1 => .w2 | .w2 => .w3 | .w3 => .w4 | .w4 => .w5 | .w5 => .wCS
  | .wCS => .y0 | .y0 => .y1 | .y1 => .y2 | .y2 => .y3 | .y3 => .y4 | .y4 => .idle

theorem stmt_next {l l' : Lk} {pc pc' : PC} (h : l.stmt pc = some (l', pc')) : pc' = pc.next ∧ pc ≠ .idle := by
  cases pc <;> simp only [Lk.stmt] at h <;> (repeat' split at h) <;>
    simp only [Option.some.injEq, Prod.mk.injEq, reduceCtorEq] at h <;> obtain ⟨_, rfl⟩ := h <;> exact ⟨rfl, by decide⟩

/-- What thread `i` is after a statement that is not a mutation. -/
def Th.after (body : Op → D → List (D → D)) (d : D) (t : Th D Op) : Th D Op := t.arrive body d t.pc.next

theorem step_go {body : Op → D → List (D → D)} {m m' : M D Op} {i : Nat} {t : Th D Op} (h : m.step body (.go i) = some m') (ht : m.th[i]? = some t) :
    (∃ f fs, t.pc = .wCS ∧ t.prog = f :: fs ∧ m'.th = m.th.set i { t with prog := fs } ∧ m'.data = f m.data ∧ m'.done = m.done) ∨
    (t.pc ≠ .idle ∧ (t.pc = .wCS → t.prog = []) ∧ m'.th = m.th.set i (t.after body m.data) ∧ m'.data = m.data ∧
      m'.done = if t.pc = .wCS then m.done ++ t.op.toList else m.done) := by
  simp only [M.step, ht] at h
  rcases go_cases h with ⟨f, fs, h1, h2, rfl⟩ | ⟨l, pc', h1, h2, rfl⟩
  · exact .inl ⟨f, fs, h1, h2, rfl, rfl, rfl⟩
  · obtain ⟨rfl, h3⟩ := stmt_next h1
    exact .inr ⟨h3, h2, rfl, rfl, rfl⟩

theorem step_begin {body : Op → D → List (D → D)} {m m' : M D Op} {i : Nat} (h : m.step body (.beginRead i) = some m') :
    ∃ t, m.th[i]? = some t ∧ t.pc = .idle ∧ m'.th = m.th.set i { t with pc := .r1, seen := [] } ∧ m'.data = m.data ∧ m'.done = m.done := by
  simp only [M.step] at h
  split at h
  · split at h
    · injection h with h; subst h; exact ⟨_, ‹_›, ‹_›, rfl, rfl, rfl⟩
    · simp at h
  · simp at h

theorem step_beginW {body : Op → D → List (D → D)} {m m' : M D Op} {i : Nat} {op : Op} (h : m.step body (.beginWrite i op) = some m') :
    ∃ t, m.th[i]? = some t ∧ t.pc = .idle ∧ m'.th = m.th.set i { t with pc := .w1, op := some op } ∧ m'.data = m.data ∧ m'.done = m.done := by
  simp only [M.step] at h
  split at h
  · split at h
    · injection h with h; subst h; exact ⟨_, ‹_›, ‹_›, rfl, rfl, rfl⟩
    · simp at h
  · simp at h

theorem step_look {body : Op → D → List (D → D)} {m m' : M D Op} {i : Nat} {t : Th D Op} (h : m.step body (.look i) = some m') (ht : m.th[i]? = some t) :
    t.pc = .rCS ∧ m'.th = m.th.set i { t with seen := t.seen ++ [m.data] } ∧ m'.data = m.data ∧ m'.done = m.done := by
  simp only [M.step, ht] at h
  split at h
  · injection h with h; subst h; exact ⟨‹_›, rfl, rfl, rfl⟩
  · simp at h

theorem step_nest {body : Op → D → List (D → D)} {m m' : M D Op} {i : Nat} {t : Th D Op} (h : m.step body (.nest i) = some m') (ht : m.th[i]? = some t) :
    t.pc = .rCS ∧ m'.th = m.th.set i { t with pc := .r1, outer := t.outer + 1 } ∧ m'.data = m.data ∧ m'.done = m.done := by
  simp only [M.step, ht] at h
  split at h
  · injection h with h; subst h; exact ⟨‹_›, rfl, rfl, rfl⟩
  · simp at h

theorem set_get {l : List (Th D Op)} {i j : Nat} {t s : Th D Op} (h : (l.set i t)[j]? = some s) :
    (j = i ∧ s = t) ∨ (j ≠ i ∧ l[j]? = some s) := by
  rw [List.getElem?_set] at h
  split at h
  · split at h
    · injection h with h; exact .inl ⟨by omega, h.symm⟩
    · simp at h
  · exact .inr ⟨by omega, h⟩

end RW

namespace LM
open RW
variable {K V : Type} [LinearOrder K] [BEq V]

/-- The buffer after the writer operations completed so far. -/
def buf (d0 : SD K V) (m : M (SD K V) (WOp V)) : SD K V := m.done.foldl (runBody bufBody) d0

/-- Where a thread is, given the call it is executing. -/
def ThOk (d : SD K V) (readers : Nat → Reader K V) (t : Th (SD K V) (WOp V)) : Option (Pend K V) → Prop
  | none => t.pc = .idle
  | some p => match p.call with
    | .rd r op => t.pc.reading = true ∧
      (p.eff = false → (t.outer = 0 → t.pc ∉ [PC.x1, .x2, .x3, .x4]) ∧ (t.inside → p.rest.run d = Ch.rdStep d (readers r) op) ∧
        (¬ t.inside → ∀ d, p.rest.run d = Ch.rdStep d (readers r) op)) ∧
      (p.eff = true → t.outer = 0 ∧ t.pc ∈ [PC.x1, .x2, .x3, .x4])
    | c => ∃ op, asW c = some op ∧ t.outer = 0 ∧
      (p.eff = false → t.pc ∈ [PC.w1, .w2, .w3, .w4, .w5, .wCS] ∧ t.op = some op ∧ (t.pc = .wCS → p.out = some (wout d op))) ∧
      (p.eff = true → t.pc ∈ [PC.y0, .y1, .y2, .y3, .y4])

/-- The machine and the atomic execution agree. -/
structure AInv (d0 : SD K V) (r0 : Nat → Reader K V) (s : LM K V) : Prop where
  rw : Inv s.m
  data : DInv bufBody d0 s.m
  atom : Ch.run ⟨d0, r0⟩ (s.lin.map (·.2.1)) = (⟨buf d0 s.m, s.readers⟩, s.lin.map (·.2.2))
  thr : ∀ i t, s.m.th[i]? = some t → ThOk (buf d0 s.m) s.readers t (s.pend i)

/-- Call numbers, history and order. -/
structure HInv (s : LM K V) : Prop where
  pend : ∀ i p, s.pend i = some p → p.id < s.next ∧ HEv.inv p.id p.call ∈ s.hist ∧ (∀ r, HEv.ret p.id r ∉ s.hist) ∧
    (p.eff = false → p.id ∉ s.lin.map (·.1)) ∧ (p.eff = true → ∃ o, p.out = some o ∧ (p.id, p.call, o) ∈ s.lin)
  uniq : ∀ i j p q, s.pend i = some p → s.pend j = some q → p.id = q.id → i = j
  inv : ∀ id c, HEv.inv id c ∈ s.hist → id < s.next
  ret : ∀ id r, HEv.ret id r ∈ s.hist → ∃ c, (id, c, r) ∈ s.lin
  lin : ∀ x ∈ s.lin, HEv.inv x.1 x.2.1 ∈ s.hist
  once : (s.lin.map (·.1)).Nodup
  order : s.lin.Pairwise fun x y => ¬ Precedes s.hist y.1 x.1

theorem run_append (c : Ch K V) (xs ys : List (ChOp K V)) : c.run (xs ++ ys) =
    (((c.run xs).1.run ys).1, (c.run xs).2 ++ ((c.run xs).1.run ys).2) := by
  induction xs generalizing c with
  | nil => simp [Ch.run]
  | cons x xs ih => simp only [List.cons_append, Ch.run, ih]

/-! ### The history -/

theorem precedes_ret {C R : Type} {h : List (HEv C R)} {a b id : Nat} {r : R} (hp : Precedes (h ++ [.ret id r]) a b) : Precedes h a b := by
  obtain ⟨h1, h2, h3, r', c, e⟩ := hp
  rcases List.eq_nil_or_concat h3 with rfl | ⟨h3', x, rfl⟩
  · have e' : h ++ [.ret id r] = (h1 ++ .ret a r' :: h2) ++ [.inv b c] := by rw [e]
    have := (List.append_inj' e' rfl).2
    simp at this
  · refine ⟨h1, h2, h3', r', c, ?_⟩
    have e' : h ++ [.ret id r] = (h1 ++ .ret a r' :: h2 ++ .inv b c :: h3') ++ [x] := by rw [e]; simp
    exact (List.append_inj' e' rfl).1

theorem precedes_inv {C R : Type} {h : List (HEv C R)} {a b id : Nat} {c : C} (hp : Precedes (h ++ [.inv id c]) a b) : Precedes h a b ∨ (b = id ∧ ∃ r, HEv.ret a r ∈ h) := by
  obtain ⟨h1, h2, h3, r', c', e⟩ := hp
  rcases List.eq_nil_or_concat h3 with rfl | ⟨h3', x, rfl⟩
  · right
    have e' : h ++ [.inv id c] = (h1 ++ .ret a r' :: h2) ++ [.inv b c'] := by rw [e]
    obtain ⟨e1, e2⟩ := List.append_inj' e' rfl
    simp only [List.cons.injEq, HEv.inv.injEq, and_true] at e2
    exact ⟨e2.1.symm, r', by rw [e1]; simp⟩
  · left
    refine ⟨h1, h2, h3', r', c', ?_⟩
    have e' : h ++ [.inv id c] = (h1 ++ .ret a r' :: h2 ++ .inv b c' :: h3') ++ [x] := by rw [e]; simp
    exact (List.append_inj' e' rfl).1

theorem precedes_mem {C R : Type} {h : List (HEv C R)} {a b : Nat} (hp : Precedes h a b) : ∃ r, HEv.ret a r ∈ h := by
  obtain ⟨h1, h2, h3, r, c, rfl⟩ := hp
  exact ⟨r, by simp⟩

variable {s s' : LM K V} {i : Nat} {p : Pend K V}

omit [LinearOrder K] [BEq V] in
theorem HInv.lt (h : HInv s) (x : Nat × ChOp K V × Py (Ret V)) (hx : x ∈ s.lin) : x.1 < s.next := h.inv _ _ (h.lin x hx)

omit [LinearOrder K] [BEq V] in
theorem HInv.invoke (h : HInv s) (hn : s.pend i = none) (c : ChOp K V) (rest : Prog (SD K V) (Py (Ret V) × Reader K V))
    (e1 : s'.pend = fun j => if j = i then some ⟨s.next, c, rest, none, false⟩ else s.pend j) (e2 : s'.next = s.next + 1)
    (e3 : s'.hist = s.hist ++ [.inv s.next c]) (e4 : s'.lin = s.lin) : HInv s' := by
  have hlt := h.lt
  obtain ⟨h1, h2, h3, h4, h5, h6, h7⟩ := h
  constructor
  · intro j q hq
    rw [e1] at hq
    simp only at hq
    rw [e2, e3, e4]
    split at hq
    · injection hq with hq; subst hq
      refine ⟨by simp, by simp, fun r hr => ?_, fun _ hm => ?_, by simp⟩
      · simp at hr
        obtain ⟨c', hc'⟩ := h4 _ _ hr
        have := hlt _ hc'
        simp at this
      · obtain ⟨x, hx, he⟩ := List.mem_map.1 hm
        have := hlt x hx
        simp only at he
        omega
    · obtain ⟨a1, a2, a3, a4, a5⟩ := h1 j q hq
      exact ⟨by omega, by simp [a2], fun r hr => by simp at hr; exact a3 r hr, a4, a5⟩
  · intro j k q q' hq hq' he
    rw [e1] at hq hq'
    simp only at hq hq'
    split at hq <;> split at hq'
    · omega
    · injection hq with hq; subst hq
      have := (h1 k q' hq').1
      simp only at he; omega
    · injection hq' with hq'; subst hq'
      have := (h1 j q hq).1
      simp only at he; omega
    · exact h2 j k q q' hq hq' he
  · intro id c' hm
    rw [e3] at hm
    rw [e2]
    rcases List.mem_append.1 hm with hm | hm
    · have := h3 id c' hm; omega
    · simp at hm; omega
  · intro id r hm
    rw [e3] at hm
    rw [e4]
    rcases List.mem_append.1 hm with hm | hm
    · exact h4 id r hm
    · simp at hm
  · intro x hx
    rw [e4] at hx
    rw [e3]; exact List.mem_append_left _ (h5 x hx)
  · rw [e4]; exact h6
  · rw [e4, e3]
    refine h7.imp_of_mem ?_
    intro x y hx hy hxy hp
    rcases precedes_inv hp with hp | ⟨hp, -⟩
    · exact hxy hp
    · have := hlt x hx; omega

omit [LinearOrder K] [BEq V] in
theorem HInv.effect (h : HInv s) (hp : s.pend i = some p) (heff : p.eff = false) {p' : Pend K V} (o : Py (Ret V))
    (e1 : s'.pend = fun j => if j = i then some p' else s.pend j) (hid : p'.id = p.id) (hcall : p'.call = p.call) (he' : p'.eff = true) (ho : p'.out = some o)
    (e2 : s'.next = s.next) (e3 : s'.hist = s.hist) (e4 : s'.lin = s.lin ++ [(p.id, p.call, o)]) : HInv s' := by
  obtain ⟨h1, h2, h3, h4, h5, h6, h7⟩ := h
  obtain ⟨b1, b2, b3, b4, -⟩ := h1 i p hp
  constructor
  · intro j q hq
    rw [e1] at hq
    simp only at hq
    rw [e2, e3, e4]
    split at hq
    · injection hq with hq; subst hq
      rw [hid, hcall]
      exact ⟨b1, b2, b3, by simp [he'], fun _ => ⟨o, ho, by simp⟩⟩
    · rename_i hji
      obtain ⟨a1, a2, a3, a4, a5⟩ := h1 j q hq
      refine ⟨a1, a2, a3, fun hf hm => ?_, fun ht => ?_⟩
      · simp only [List.map_append, List.mem_append] at hm
        rcases hm with hm | hm
        · exact a4 hf hm
        · simp at hm
          exact hji (h2 j i q p hq hp hm)
      · obtain ⟨o', ho', hm⟩ := a5 ht
        exact ⟨o', ho', by simp [hm]⟩
  · intro j k q q' hq hq' he
    rw [e1] at hq hq'
    simp only at hq hq'
    split at hq <;> split at hq'
    · omega
    · injection hq with hq; subst hq
      have := h2 i k p q' hp hq' (by omega)
      omega
    · injection hq' with hq'; subst hq'
      have := h2 j i q p hq hp (by omega)
      omega
    · exact h2 j k q q' hq hq' he
  · intro id c' hm
    rw [e3] at hm
    rw [e2]; exact h3 id c' hm
  · intro id r hm
    rw [e3] at hm
    rw [e4]
    obtain ⟨c, hc⟩ := h4 id r hm
    exact ⟨c, by simp [hc]⟩
  · intro x hx
    rw [e4] at hx
    rw [e3]
    rcases List.mem_append.1 hx with hx | hx
    · exact h5 x hx
    · simp at hx; subst hx; exact b2
  · rw [e4, List.map_append, List.nodup_append]
    refine ⟨h6, by simp, ?_⟩
    intro a ha b hb
    simp at hb; subst hb
    rintro rfl
    exact b4 heff ha
  · rw [e4, e3, List.pairwise_append]
    refine ⟨h7, by simp, ?_⟩
    intro x hx y hy hpr
    simp at hy; subst hy
    obtain ⟨r, hr⟩ := precedes_mem hpr
    exact b3 r hr

omit [LinearOrder K] [BEq V] in
theorem HInv.keep (h : HInv s) (hp : s.pend i = some p) {p' : Pend K V}
    (e1 : s'.pend = fun j => if j = i then some p' else s.pend j) (hid : p'.id = p.id) (hcall : p'.call = p.call) (he' : p'.eff = p.eff)
    (ho : p.eff = true → p'.out = p.out) (e2 : s'.next = s.next) (e3 : s'.hist = s.hist) (e4 : s'.lin = s.lin) : HInv s' := by
  obtain ⟨h1, h2, h3, h4, h5, h6, h7⟩ := h
  constructor
  · intro j q hq
    rw [e1] at hq
    simp only at hq
    rw [e2, e3, e4]
    split at hq
    · injection hq with hq; subst hq
      obtain ⟨b1, b2, b3, b4, b5⟩ := h1 i p hp
      rw [hid, hcall, he']
      exact ⟨b1, b2, b3, b4, fun ht => by rw [ho ht]; exact b5 ht⟩
    · exact h1 j q hq
  · intro j k q q' hq hq' he
    rw [e1] at hq hq'
    simp only at hq hq'
    split at hq <;> split at hq'
    · omega
    · injection hq with hq; subst hq
      have := h2 i k p q' hp hq' (by omega)
      omega
    · injection hq' with hq'; subst hq'
      have := h2 j i q p hq hp (by omega)
      omega
    · exact h2 j k q q' hq hq' he
  · rw [e3, e2]; exact h3
  · rw [e3, e4]; exact h4
  · rw [e3, e4]; exact h5
  · rw [e4]; exact h6
  · rw [e4, e3]; exact h7

omit [LinearOrder K] [BEq V] in
theorem HInv.return (h : HInv s) (hp : s.pend i = some p) (heff : p.eff = true) (o : Py (Ret V)) (ho : p.out = some o)
    (e1 : s'.pend = fun j => if j = i then none else s.pend j)
    (e2 : s'.next = s.next) (e3 : s'.hist = s.hist ++ [.ret p.id o]) (e4 : s'.lin = s.lin) : HInv s' := by
  obtain ⟨h1, h2, h3, h4, h5, h6, h7⟩ := h
  obtain ⟨b1, b2, b3, -, b5⟩ := h1 i p hp
  constructor
  · intro j q hq
    rw [e1] at hq
    simp only at hq
    rw [e2, e3, e4]
    split at hq
    · simp at hq
    · rename_i hji
      obtain ⟨a1, a2, a3, a4, a5⟩ := h1 j q hq
      refine ⟨a1, by simp [a2], fun r hr => ?_, a4, a5⟩
      rcases List.mem_append.1 hr with hr | hr
      · exact a3 r hr
      · simp at hr
        exact hji (h2 j i q p hq hp hr.1)
  · intro j k q q' hq hq' he
    rw [e1] at hq hq'
    simp only at hq hq'
    split at hq <;> split at hq'
    · simp at hq
    · simp at hq
    · simp at hq'
    · exact h2 j k q q' hq hq' he
  · intro id c hm
    rw [e3] at hm; rw [e2]
    exact h3 id c (by simpa using hm)
  · intro id r hm
    rw [e3] at hm; rw [e4]
    rcases List.mem_append.1 hm with hm | hm
    · exact h4 id r hm
    · simp at hm
      obtain ⟨rfl, rfl⟩ := hm
      obtain ⟨o', ho', hm⟩ := b5 heff
      rw [ho] at ho'; injection ho' with ho'; subst ho'
      exact ⟨_, hm⟩
  · intro x hx
    rw [e4] at hx; rw [e3]; exact List.mem_append_left _ (h5 x hx)
  · rw [e4]; exact h6
  · rw [e4, e3]
    exact h7.imp fun hxy hpr => hxy (precedes_ret hpr)

omit [LinearOrder K] [BEq V] in
theorem HInv.instant (h : HInv s) (c : ChOp K V) (o : Py (Ret V)) (e1 : s'.pend = s.pend) (e2 : s'.next = s.next + 1)
    (e3 : s'.hist = s.hist ++ [.inv s.next c, .ret s.next o]) (e4 : s'.lin = s.lin ++ [(s.next, c, o)]) : HInv s' := by
  have hlt := h.lt
  obtain ⟨h1, h2, h3, h4, h5, h6, h7⟩ := h
  have hnot : ∀ r, HEv.ret s.next r ∉ s.hist := by
    intro r hr
    obtain ⟨c', hc'⟩ := h4 _ _ hr
    have := hlt _ hc'
    simp at this
  constructor
  · intro j q hq
    rw [e1] at hq
    rw [e2, e3, e4]
    obtain ⟨a1, a2, a3, a4, a5⟩ := h1 j q hq
    refine ⟨by omega, by simp [a2], fun r hr => ?_, fun hf hm => ?_, fun ht => ?_⟩
    · rcases List.mem_append.1 hr with hr | hr
      · exact a3 r hr
      · simp at hr; omega
    · simp only [List.map_append, List.mem_append] at hm
      rcases hm with hm | hm
      · exact a4 hf hm
      · simp at hm; omega
    · obtain ⟨o', ho', hm⟩ := a5 ht
      exact ⟨o', ho', by simp [hm]⟩
  · rw [e1]; exact h2
  · intro id c' hm
    rw [e3] at hm; rw [e2]
    rcases List.mem_append.1 hm with hm | hm
    · have := h3 id c' hm; omega
    · simp at hm; omega
  · intro id r hm
    rw [e3] at hm; rw [e4]
    rcases List.mem_append.1 hm with hm | hm
    · obtain ⟨c', hc'⟩ := h4 id r hm
      exact ⟨c', by simp [hc']⟩
    · simp at hm
      obtain ⟨rfl, rfl⟩ := hm
      exact ⟨c, by simp⟩
  · intro x hx
    rw [e4] at hx; rw [e3]
    rcases List.mem_append.1 hx with hx | hx
    · exact List.mem_append_left _ (h5 x hx)
    · simp at hx; subst hx; simp
  · rw [e4, List.map_append, List.nodup_append]
    refine ⟨h6, by simp, ?_⟩
    intro a ha b hb
    simp at hb; subst hb
    rintro rfl
    obtain ⟨x, hx, he⟩ := List.mem_map.1 ha
    have := hlt x hx
    omega
  · rw [e4, e3, List.pairwise_append]
    have hsplit : s.hist ++ [HEv.inv s.next c, .ret s.next o] = (s.hist ++ [.inv s.next c]) ++ [.ret s.next o] := by simp
    rw [hsplit]
    refine ⟨h7.imp_of_mem ?_, by simp, ?_⟩
    · intro x y hx hy hxy hpr
      rcases precedes_inv (precedes_ret hpr) with hpr | ⟨hpr, -⟩
      · exact hxy hpr
      · have := hlt x hx; omega
    · intro x hx y hy hpr
      simp at hy; subst hy
      rcases precedes_inv (precedes_ret hpr) with hpr | ⟨hpr, -⟩
      · obtain ⟨r, hr⟩ := precedes_mem hpr
        exact hnot r hr
      · have := hlt x hx; omega

/-! ### The machine -/

variable {d d' d0 : SD K V} {R R' r0 : Nat → Reader K V} {t : Th (SD K V) (WOp V)}

theorem ThOk.frame {q : Option (Pend K V)} (h : ThOk d R t q) (hd : d' = d ∨ (¬ t.inside ∧ t.pc ≠ .wCS))
    (hR : ∀ p r op, q = some p → p.call = .rd r op → R' r = R r) : ThOk d' R' t q := by
  cases q with
  | none => exact h
  | some q =>
    obtain ⟨id, c, rest, out, eff⟩ := q
    cases c with
    | rd r op =>
      simp only [ThOk] at h ⊢
      obtain ⟨h2, h3, h4⟩ := h
      rw [hR _ r op rfl rfl]
      refine ⟨h2, fun he => ?_, h4⟩
      obtain ⟨a1, a2, a3⟩ := h3 he
      refine ⟨a1, fun hin => ?_, a3⟩
      rcases hd with rfl | ⟨hd, -⟩
      · exact a2 hin
      · exact absurd hin hd
    | append v | drop n =>
      simp only [ThOk] at h ⊢
      obtain ⟨op, h1, h2, h3, h4⟩ := h
      refine ⟨op, h1, h2, fun he => ?_, h4⟩
      obtain ⟨a1, a2, a3⟩ := h3 he
      refine ⟨a1, a2, fun hin => ?_⟩
      rcases hd with rfl | ⟨-, hd⟩
      · exact a3 hin
      · exact absurd hin hd

/-- While nobody is inside the writer section, the data are the result of the completed operations. -/
theorem AInv.data_eq (h : AInv d0 r0 s) (hn : ∀ t ∈ s.m.th, t.pc ≠ .wCS) : s.m.data = buf d0 s.m := h.data.quiet hn

theorem bufBody_key (op : WOp V) (d x : SD K V) (f : SD K V → SD K V) (hf : f ∈ bufBody op d) : (f x).key = x.key := by
  cases op with
  | append v =>
    simp only [bufBody] at hf
    split at hf
    · simp at hf; rcases hf with rfl | rfl <;> rfl
    · simp at hf
  | drop n =>
    simp only [bufBody] at hf
    revert d hf
    induction n.toNat with
    | zero => intro d hf; simp [dropMuts] at hf
    | succ n ih =>
      intro d hf
      simp only [dropMuts] at hf
      split at hf
      · simp at hf
      · simp only [List.mem_cons] at hf
        rcases hf with rfl | hf
        · rfl
        · split at hf
          · simp at hf
          · rcases List.mem_cons.1 hf with rfl | hf
            · rfl
            · exact ih _ hf

theorem foldl_key (op : WOp V) (d : SD K V) (l : List (SD K V → SD K V)) (hl : ∀ f ∈ l, f ∈ bufBody op d) (x : SD K V) :
    (l.foldl (fun x f => f x) x).key = x.key := by
  induction l generalizing x with
  | nil => rfl
  | cons f l ih =>
    rw [List.foldl_cons, ih (fun g hg => hl g (List.mem_cons_of_mem _ hg)), bufBody_key op d x f (hl f (by simp))]

/-- The key function does not change. -/
theorem AInv.key_eq (h : AInv d0 r0 s) : s.m.data.key = (buf d0 s.m).key := by
  by_cases hn : ∀ t ∈ s.m.th, t.pc ≠ .wCS
  · rw [h.data_eq hn]
  · simp only [not_forall, not_not] at hn
    obtain ⟨t, ht, hp⟩ := hn
    obtain ⟨op, pre, -, h2, h3⟩ := h.data.busy t ht hp
    rw [h3]
    exact foldl_key op _ pre (fun f hf => by rw [h2]; exact List.mem_append_left _ hf) _

/-- Steps of thread `i` that complete no operation. -/
theorem AInv.put (h : AInv d0 r0 s) (ht : s.m.th[i]? = some t) {t' : Th (SD K V) (WOp V)} {a : RW.Act (WOp V)}
    (hm : s.m.step bufBody a = some s'.m) (hth : s'.m.th = s.m.th.set i t') (hdone : s'.m.done = s.m.done)
    (hlin : s'.lin = s.lin) (hrd : s'.readers = s.readers) (hpend : ∀ j, j ≠ i → s'.pend j = s.pend j)
    (hok : ThOk (buf d0 s.m) s.readers t' (s'.pend i)) : AInv d0 r0 s' := by
  have hb : buf d0 s'.m = buf d0 s.m := by simp only [buf, hdone]
  refine ⟨h.rw.step _ hm, h.data.step h.rw _ hm, ?_, ?_⟩
  · rw [hlin, hb, hrd]; exact h.atom
  · intro j tj hj
    rw [hb, hrd]
    rw [hth] at hj
    rcases set_get hj with ⟨rfl, rfl⟩ | ⟨hne, hj⟩
    · exact hok
    · rw [hpend j hne]; exact h.thr j tj hj

end LM
end S2P
