import Verif.Props.EndToEnd
/-
C162: what a consumer receives from a given moment on, whatever happened to its reader before.
-/
namespace S2P
open Spec
variable {K V I : Type}

section props
variable [LinearOrder K] [BEq V] {cfg : Nat → Cfg} {s s' : Cons K V}

/-- What consumer `i` was handed between `s` and `t` is what its reader delivered. -/
def Grown (cfg : Nat → Cfg) (i : Nat) (s t : Cons K V) : Prop :=
  ∃ h, received t i = received s i ++ h ∧ delivered cfg i t.ops t.outs = delivered cfg i s.ops s.outs ++ h

/-- The calls after `ops` in `ops'`: those on reader `i` are reads or peeks. -/
def Added (cfg : Nat → Cfg) (i : Nat) (ops ops' : List (ChOp K V)) : Prop :=
  ∃ l, ops' = ops ++ l ∧ ∀ o, .rd i o ∈ l → consumes (cfg i) o ∨ peeks (cfg i) o

omit [LinearOrder K] [BEq V] in
theorem Added.refl {i : Nat} {ops : List (ChOp K V)} : Added cfg i ops ops := ⟨[], (List.append_nil _).symm, by simp⟩

/-- One step hands consumer `i` what its reader delivers in that step, whatever happened before. -/
theorem grow_step (i : Nat) {a : CAct K V} (hpk : (cfg i).peek = false) (ha : OneUser i a) (hs : s.step cfg a = some s')
    (hlen : s.outs.length = s.ops.length) (hq : quietPC (s.pc i)) :
    s'.outs.length = s'.ops.length ∧ quietPC (s'.pc i) ∧ Grown cfg i s s' ∧
      Added cfg i s.ops s'.ops := by
  cases a with
  | call op =>
    simp only [Cons.step, Option.some.injEq] at hs; subst hs
    refine ⟨by simp [Cons.call, hlen], hq, ?_, [op], rfl, fun o ho => ?_⟩
    · refine ⟨[], (List.append_nil _).symm, ?_⟩
      change delivered cfg i (s.ops ++ [op]) (s.outs ++ [(s.ch.step op).2]) = _
      rw [delivered_snoc _ _ _ _ _ _ hlen]
      cases op with
      | append v => simp [handed]
      | drop n => simp [handed]
      | rd j o =>
        have : j ≠ i := ha
        simp [handed, this]
    · simp only [List.mem_singleton] at ho
      subst ho; exact absurd rfl ha
  | setStop => simp only [Cons.step, Option.some.injEq] at hs; subst hs; exact ⟨hlen, hq, ⟨[], (List.append_nil _).symm, (List.append_nil _).symm⟩, Added.refl⟩
  | callNext j | callIter j | leave j =>
    simp only [Cons.step] at hs
    split at hs
    · injection hs with hs; subst hs
      refine ⟨hlen, ?_, ⟨[], (List.append_nil _).symm, (List.append_nil _).symm⟩, Added.refl⟩
      simp only [Cons.goto]; split
      · trivial
      · exact hq
    · simp at hs
  | callRead j n p st =>
    simp only [Cons.step] at hs
    split at hs
    · injection hs with hs; subst hs
      refine ⟨hlen, ?_, ⟨[], (List.append_nil _).symm, (List.append_nil _).symm⟩, Added.refl⟩
      simp only [Cons.goto]; split
      · rename_i e; exact ha e.symm
      · exact hq
    · simp at hs
  | go j =>
    -- a read that is not a peek, with the outcome handed to consumer `j`
    have hread : ∀ (t1 : Cons K V) (o : RdOp K V) (x : Py (Ret V)) (t2 : Cons K V), (s.call (.rd j o)) = (t1, x) →
        (j = i → consumes (cfg i) o = true) → received t2 i = received t1 i ++ (if j = i then outItems x else []) →
        t2.ops = t1.ops → t2.outs = t1.outs → quietPC (t2.pc i) →
        t2.outs.length = t2.ops.length ∧ quietPC (t2.pc i) ∧ Grown cfg i s t2 ∧
          Added cfg i s.ops t2.ops := by
      intro t1 o x t2 hc hcons hrec ho hou hq2
      rw [Cons.call] at hc
      injection hc with h1 h2; subst h1; subst h2
      refine ⟨?_, hq2, ?_, ?_⟩
      · rw [ho, hou]; simp [hlen]
      · refine ⟨_, hrec, ?_⟩
        rw [ho, hou]
        change delivered cfg i (s.ops ++ [.rd j o]) (s.outs ++ [(s.ch.step (.rd j o)).2]) = _
        rw [delivered_snoc _ _ _ _ _ _ hlen]
        congr 1
        simp only [handed]
        by_cases hj : j = i
        · simp [hj, hcons hj]
        · simp [hj]
      · refine ⟨[.rd j o], ho, fun o' ho' => ?_⟩
        simp only [List.mem_singleton] at ho'
        injection ho' with h1 h2
        subst h2
        exact .inl (hcons h1.symm)
    have hpcs : ∀ (t : Cons K V) (p : CPC), (j = i → quietPC p) → (j ≠ i → quietPC (t.pc i)) → quietPC ((t.goto j p).pc i) := by
      intro t p h1 h2
      simp only [Cons.goto]
      split
      · rename_i e; exact h1 e.symm
      · rename_i e; exact h2 (fun e' => e e'.symm)
    have hpcc : ∀ (o : RdOp K V) (t1 : Cons K V) (x : Py (Ret V)), (s.call (.rd j o)) = (t1, x) → t1.pc = s.pc := by
      intro o t1 x hc; rw [Cons.call] at hc; injection hc with h1 h2; subst h1; rfl
    have hemit : ∀ (t : Cons K V) (e : CEvt V) (p : CPC), t.ops = s.ops → t.outs = s.outs → received t i = received s i → t.pc = s.pc →
        e.items = [] → quietPC p →
        ((t.emit j e).goto j p).outs.length = ((t.emit j e).goto j p).ops.length ∧ quietPC (((t.emit j e).goto j p).pc i) ∧
        Grown cfg i s ((t.emit j e).goto j p) ∧
          Added cfg i s.ops ((t.emit j e).goto j p).ops := by
      intro t e p ho hou hr hpc hei hqp
      refine ⟨?_, ?_, ?_, ?_⟩
      · change t.outs.length = t.ops.length; rw [ho, hou, hlen]
      · exact hpcs _ _ (fun _ => hqp) (fun _ => by change quietPC (t.pc i); rw [hpc]; exact hq)
      · refine ⟨[], by rw [received_emit, hr, hei]; simp, ?_⟩
        change delivered cfg i t.ops t.outs = _
        rw [ho, hou]; simp
      · change Added cfg i s.ops t.ops; rw [ho]; exact Added.refl
    have hgoto : ∀ p : CPC, (j = i → quietPC p) →
        (s.goto j p).outs.length = (s.goto j p).ops.length ∧ quietPC ((s.goto j p).pc i) ∧
        Grown cfg i s (s.goto j p) ∧
          Added cfg i s.ops (s.goto j p).ops := by
      intro p hp
      exact ⟨hlen, hpcs _ _ hp (fun _ => hq), ⟨[], (List.append_nil _).symm, (List.append_nil _).symm⟩, Added.refl⟩
    simp only [Cons.step] at hs
    unfold Cons.go at hs
    have hnextc : j = i → consumes (cfg i) (.readForNext : RdOp K V) = true := by intro _; simp [consumes, hpk]
    split at hs
    · simp at hs
    · split at hs <;> (rename_i hc; injection hs with hs; subst hs)
      · exact hread _ _ _ _ hc hnextc (by rw [received_emit]; simp [CEvt.items, outItems]) rfl rfl
          (hpcs _ _ (fun _ => trivial) (fun _ => by simp only [Cons.emit, hpcc _ _ _ hc]; exact hq))
      · exact hread _ _ _ _ hc hnextc (by simp [outItems, Ret.items]; rfl) rfl rfl
          (hpcs _ _ (fun _ => trivial) (fun _ => by rw [hpcc _ _ _ hc]; exact hq))
      · exact hread _ _ _ _ hc hnextc (by rw [received_emit]; simp [CEvt.items, outItems]) rfl rfl
          (hpcs _ _ (fun _ => trivial) (fun _ => by simp only [Cons.emit, hpcc _ _ _ hc]; exact hq))
    · split at hs <;> (injection hs with hs; subst hs)
      · exact hemit _ _ _ rfl rfl rfl rfl rfl trivial
      · exact hemit _ _ _ rfl rfl rfl rfl rfl trivial
    · split at hs <;> (rename_i hc; injection hs with hs; subst hs)
      · exact hread _ _ _ _ hc hnextc (by rw [received_emit]; simp [CEvt.items, outItems]) rfl rfl
          (hpcs _ _ (fun _ => trivial) (fun _ => by simp only [Cons.emit, hpcc _ _ _ hc]; exact hq))
      · exact hread _ _ _ _ hc hnextc (by simp [outItems, Ret.items]; rfl) rfl rfl
          (hpcs _ _ (fun _ => trivial) (fun _ => by rw [hpcc _ _ _ hc]; exact hq))
      · exact hread _ _ _ _ hc hnextc (by rw [received_emit]; simp [CEvt.items, outItems]) rfl rfl
          (hpcs _ _ (fun _ => trivial) (fun _ => by simp only [Cons.emit, hpcc _ _ _ hc]; exact hq))
    · split at hs <;> (injection hs with hs; subst hs)
      · exact hemit _ _ _ rfl rfl rfl rfl rfl trivial
      · exact hgoto _ (fun _ => trivial)
    · split at hs <;> (injection hs with hs; subst hs)
      · exact hemit _ _ _ rfl rfl rfl rfl rfl trivial
      · exact hgoto _ (fun _ => trivial)
    · injection hs with hs; subst hs; exact hgoto _ (fun _ => trivial)
    · injection hs with hs; subst hs; exact hgoto _ (fun _ => trivial)
    · rename_i n p st hpc
      have hqp : j = i → p.getD false = false := by intro e; subst e; rw [hpc] at hq; exact hq
      have hcons : j = i → consumes (cfg i) (.read (some n) p (some true) (some st) : RdOp K V) = true := by
        intro e; simp [consumes, hqp e]
      split at hs <;> (rename_i hc; injection hs with hs; subst hs)
      · exact hread _ _ _ _ hc hcons (by rw [received_emit]; simp [CEvt.items, outItems]) rfl rfl
          (hpcs _ _ (fun _ => trivial) (fun _ => by simp only [Cons.emit, hpcc _ _ _ hc]; exact hq))
      · exact hread _ _ _ _ hc hcons (by simp [outItems, Ret.items]; rfl) rfl rfl
          (hpcs _ _ hqp (fun _ => by rw [hpcc _ _ _ hc]; exact hq))
      · exact hread _ _ _ _ hc hcons (by rw [received_emit]; simp [CEvt.items, outItems]) rfl rfl
          (hpcs _ _ (fun _ => trivial) (fun _ => by simp only [Cons.emit, hpcc _ _ _ hc]; exact hq))
    · rename_i n p st hpc
      split at hs <;> (injection hs with hs; subst hs)
      · exact hemit _ _ _ rfl rfl rfl rfl rfl trivial
      · exact hgoto _ (fun e => by subst e; rw [hpc] at hq; exact hq)
    · rename_i n p st hpc
      injection hs with hs; subst hs
      exact hgoto _ (fun e => by subst e; rw [hpc] at hq; exact hq)

end props
end S2P
