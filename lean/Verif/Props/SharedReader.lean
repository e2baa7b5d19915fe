import Verif.Props.Linear
import Verif.Props.Reader
import Verif.Props.PlainRead
import Verif.Props.LinearWitness
/-
C132: threads that share a reader, calling it one at a time (a lock of their own), while others append, drop and use other readers at any time, statement by
statement (Model/Linear.lean). Stated on the history of calls and returns.
-/
namespace S2P
open LM RW Spec
variable {K V : Type}

namespace LM
section
variable [LT K] [DecidableLT K] [BEq V] {s s' : LM K V}

/-- How a step changes the history. -/
theorem hist_step {a : LAct K V} (h : s.step a = some s') :
    (s'.hist = s.hist ∧ s'.next = s.next) ∨ (∃ id o, s'.hist = s.hist ++ [.ret id o] ∧ s'.next = s.next) ∨
    (∃ c, s'.hist = s.hist ++ [.inv s.next c] ∧ s'.next = s.next + 1) ∨
    (∃ c o, s'.hist = s.hist ++ [.inv s.next c, .ret s.next o] ∧ s'.next = s.next + 1) := by
  have harr : ∀ (i : Nat) (p : Pend K V) (m : RW.M (SD K V) (RW.WOp V)), s' = s.arrive i p m →
      (s'.hist = s.hist ∧ s'.next = s.next) ∨ (∃ id o, s'.hist = s.hist ++ [.ret id o] ∧ s'.next = s.next) := by
    rintro i p m rfl
    unfold arrive
    split
    · split
      · exact .inr ⟨_, _, rfl, rfl⟩
      · exact .inl ⟨rfl, rfl⟩
    · exact .inl ⟨rfl, rfl⟩
  cases a with
  | call i c =>
    simp only [step] at h
    split at h
    · cases h
    · cases c with
      | append v | drop v =>
        simp only [Option.map_eq_some_iff] at h
        obtain ⟨m, -, rfl⟩ := h
        exact .inr (.inr (.inl ⟨_, rfl, rfl⟩))
      | rd r op =>
        cases op with
        | setLast v | delLast =>
          injection h with h; subst h
          exact .inr (.inr (.inr ⟨_, _, rfl, rfl⟩))
        | _ =>
          simp only [Option.map_eq_some_iff] at h
          obtain ⟨m, -, rfl⟩ := h
          exact .inr (.inr (.inl ⟨_, rfl, rfl⟩))
  | go i =>
    simp only [step] at h
    have hW : ∀ p op t, s.goW i p op t = some s' → (s'.hist = s.hist ∧ s'.next = s.next) ∨ (∃ id o, s'.hist = s.hist ++ [.ret id o] ∧ s'.next = s.next) := by
      intro p op t h
      unfold goW at h
      split at h
      · cases h
      · split at h
        · injection h with h; subst h; exact .inl ⟨rfl, rfl⟩
        · split at h
          · split at h
            · injection h with h; subst h; exact .inl ⟨rfl, rfl⟩
            · cases h
          · injection h with h; exact harr _ _ _ h.symm
    have hR : ∀ p r t, s.goR i p r t = some s' → (s'.hist = s.hist ∧ s'.next = s.next) ∨ (∃ id o, s'.hist = s.hist ++ [.ret id o] ∧ s'.next = s.next) := by
      intro p r t h
      unfold goR at h
      split at h
      · split at h
        · simp only [Option.map_eq_some_iff] at h; obtain ⟨m, -, rfl⟩ := h; exact .inl ⟨rfl, rfl⟩
        · simp only [Option.map_eq_some_iff] at h; obtain ⟨m, -, rfl⟩ := h; exact .inl ⟨rfl, rfl⟩
        · split at h
          · simp only [Option.map_eq_some_iff] at h; obtain ⟨m, -, rfl⟩ := h; exact .inl ⟨rfl, rfl⟩
          · cases h
        · split at h
          · simp only [Option.map_eq_some_iff] at h; obtain ⟨m, -, rfl⟩ := h; exact .inl ⟨rfl, rfl⟩
          · cases h
      · simp only [Option.map_eq_some_iff] at h; obtain ⟨m, -, h⟩ := h; exact harr _ _ _ h.symm
    split at h
    · split at h
      · exact (hW _ _ _ h).imp id .inl
      · exact (hW _ _ _ h).imp id .inl
      · exact (hR _ _ _ h).imp id .inl
    · cases h

/-- Every call has a number of its own. -/
theorem numbered (as : List (LAct K V)) : ∀ {s : LM K V}, (∀ id c, HEv.inv id c ∈ s.hist → id < s.next) →
    (∀ id c c', HEv.inv id c ∈ s.hist → HEv.inv id c' ∈ s.hist → c = c') → s.exec as = some s' →
    ∀ id c c', HEv.inv id c ∈ s'.hist → HEv.inv id c' ∈ s'.hist → c = c' := by
  induction as with
  | nil => intro s _ h he; simp only [exec, Option.some.injEq] at he; exact he ▸ h
  | cons a as ih =>
    intro s h1 h2 he
    simp only [exec] at he
    split at he
    swap
    · cases he
    rename_i s1 hs
    have key : ∀ c tail, (∀ id c', HEv.inv id c' ∉ tail) → s1.hist = s.hist ++ HEv.inv s.next c :: tail → s1.next = s.next + 1 →
        (∀ id c, HEv.inv id c ∈ s1.hist → id < s1.next) ∧ (∀ id c c', HEv.inv id c ∈ s1.hist → HEv.inv id c' ∈ s1.hist → c = c') := by
      intro c tail ht e1 e2
      have hm : ∀ id c', HEv.inv id c' ∈ s1.hist → HEv.inv id c' ∈ s.hist ∨ (id = s.next ∧ c' = c) := by
        intro id c' hm
        rw [e1, List.mem_append, List.mem_cons] at hm
        rcases hm with hm | hm | hm
        · exact .inl hm
        · cases hm; exact .inr ⟨rfl, rfl⟩
        · exact absurd hm (ht _ _)
      refine ⟨fun id c' h => ?_, fun id c1 c2 k1 k2 => ?_⟩
      · rcases hm _ _ h with h | ⟨rfl, -⟩
        · have := h1 _ _ h; omega
        · omega
      · rcases hm _ _ k1 with k1 | ⟨rfl, rfl⟩ <;> rcases hm _ _ k2 with k2 | ⟨k2, rfl⟩
        · exact h2 _ _ _ k1 k2
        · subst k2; have := h1 _ _ k1; omega
        · have := h1 _ _ k2; omega
        · rfl
    rcases hist_step hs with ⟨e1, e2⟩ | ⟨id, o, e1, e2⟩ | ⟨c, e1, e2⟩ | ⟨c, o, e1, e2⟩
    · exact ih (by rw [e1, e2]; exact h1) (by rw [e1]; exact h2) he
    · exact ih (by rw [e1, e2]; simpa using h1) (by rw [e1]; simpa using h2) he
    · obtain ⟨k1, k2⟩ := key c [] (by simp) e1 e2
      exact ih k1 k2 he
    · obtain ⟨k1, k2⟩ := key c [.ret s.next o] (by simp) e1 e2
      exact ih k1 k2 he
/-- Every call made has returned or is in progress. -/
def Answered (s : LM K V) : Prop :=
  ∀ id c, HEv.inv id c ∈ s.hist → (∃ o, HEv.ret id o ∈ s.hist) ∨ ∃ i p, s.pend i = some p ∧ p.id = id

theorem Answered.step {a : LAct K V} (hA : Answered s) (h : s.step a = some s') : Answered s' := by
  have keep : ∀ (i : Nat) (p q : Pend K V), s.pend i = some p → s'.pend = (s.setPend i (some q)).pend → q.id = p.id → s'.hist = s.hist → Answered s' := by
    intro i p q hp e2 hid e1 id c hm
    rw [e1] at hm
    rcases hA id c hm with ⟨o, ho⟩ | ⟨j, r, hr, e⟩
    · exact .inl ⟨o, by rw [e1]; exact ho⟩
    · right
      by_cases hj : j = i
      · subst hj; rw [hp] at hr; cases hr
        exact ⟨j, q, by rw [e2]; simp [setPend], hid.trans e⟩
      · exact ⟨j, r, by rw [e2]; simp [setPend, hj, hr], e⟩
  have harr : ∀ (i : Nat) (p : Pend K V) (m : RW.M (SD K V) (RW.WOp V)), s.pend i = some p → s' = s.arrive i p m → Answered s' := by
    rintro i p m hp rfl
    unfold arrive
    split
    · split
      · intro id c hm
        simp only [List.mem_append, List.mem_singleton, reduceCtorEq, or_false] at hm
        rcases hA id c hm with ⟨o, ho⟩ | ⟨j, r, hr, e⟩
        · exact .inl ⟨o, by simp [ho]⟩
        · by_cases hj : j = i
          · subst hj; rw [hp] at hr; cases hr
            exact .inl ⟨_, by rw [← e]; exact List.mem_append_right _ List.mem_cons_self⟩
          · exact .inr ⟨j, r, by simp [setPend, hj, hr], e⟩
      · exact hA
    · exact hA
  have fresh : ∀ (i : Nat) (c : ChOp K V) (q : Pend K V), (s.pend i).isSome = false → q.id = s.next → s'.hist = s.hist ++ [.inv s.next c] →
      s'.pend = (s.setPend i (some q)).pend → Answered s' := by
    intro i c q hn hid e1 e2 id c' hm
    rw [e1, List.mem_append, List.mem_singleton] at hm
    rcases hm with hm | hm
    · rcases hA id c' hm with ⟨o, ho⟩ | ⟨j, r, hr, e⟩
      · exact .inl ⟨o, by rw [e1]; simp [ho]⟩
      · by_cases hj : j = i
        · subst hj; rw [hr] at hn; cases hn
        · exact .inr ⟨j, r, by rw [e2]; simp [setPend, hj, hr], e⟩
    · cases hm
      exact .inr ⟨i, q, by rw [e2]; simp [setPend], hid⟩
  cases a with
  | call i c =>
    simp only [LM.step] at h
    split at h
    · cases h
    · rename_i hn
      have hn : (s.pend i).isSome = false := by simpa using hn
      have atonce : ∀ (c : ChOp K V) (o : Py (Ret V)), s'.hist = s.hist ++ [.inv s.next c, .ret s.next o] → s'.pend = s.pend → Answered s' := by
        intro c o e1 e2 id c' hm
        rw [e1, List.mem_append] at hm
        rcases hm with hm | hm
        · rcases hA id c' hm with ⟨o, ho⟩ | ⟨j, r, hr, e⟩
          · exact .inl ⟨o, by rw [e1]; simp [ho]⟩
          · exact .inr ⟨j, r, by rw [e2]; exact hr, e⟩
        · simp only [List.mem_cons, HEv.inv.injEq, reduceCtorEq, List.not_mem_nil, or_false] at hm
          exact .inl ⟨o, by rw [e1, hm.1]; simp⟩
      cases c with
      | append v | drop v =>
        simp only [Option.map_eq_some_iff] at h
        obtain ⟨m, -, rfl⟩ := h
        exact fresh i _ ⟨s.next, _, _, none, false⟩ hn rfl rfl rfl
      | rd r op =>
        cases op with
        | setLast v | delLast =>
          injection h with h; subst h
          exact atonce _ _ rfl rfl
        | _ =>
          simp only [Option.map_eq_some_iff] at h
          obtain ⟨m, -, rfl⟩ := h
          exact fresh i _ ⟨s.next, _, _, none, false⟩ hn rfl rfl rfl
  | go i =>
    simp only [LM.step] at h
    have hW : ∀ p op t, s.pend i = some p → s.goW i p op t = some s' → Answered s' := by
      intro p op t hp h
      unfold goW at h
      split at h
      · cases h
      · split at h
        · injection h with h; subst h; exact keep i p _ hp rfl rfl rfl
        · split at h
          · split at h
            · injection h with h; subst h; exact keep i p _ hp rfl rfl rfl
            · cases h
          · injection h with h; exact harr _ _ _ hp h.symm
    have hR : ∀ p r t, s.pend i = some p → s.goR i p r t = some s' → Answered s' := by
      intro p r t hp h
      unfold goR at h
      split at h
      · split at h
        · simp only [Option.map_eq_some_iff] at h; obtain ⟨m, -, rfl⟩ := h; exact keep i p _ hp rfl rfl rfl
        · simp only [Option.map_eq_some_iff] at h; obtain ⟨m, -, rfl⟩ := h; exact keep i p _ hp rfl rfl rfl
        · split at h
          · simp only [Option.map_eq_some_iff] at h; obtain ⟨m, -, rfl⟩ := h; exact keep i p _ hp rfl rfl rfl
          · cases h
        · split at h
          · simp only [Option.map_eq_some_iff] at h; obtain ⟨m, -, rfl⟩ := h; exact keep i p _ hp rfl rfl rfl
          · cases h
      · simp only [Option.map_eq_some_iff] at h; obtain ⟨m, -, h⟩ := h; exact harr _ _ _ hp h.symm
    split at h
    · rename_i hp _
      split at h
      · exact hW _ _ _ hp h
      · exact hW _ _ _ hp h
      · exact hR _ _ _ hp h
    · cases h

theorem answered (as : List (LAct K V)) : ∀ {s : LM K V}, Answered s → s.exec as = some s' → Answered s' := by
  induction as with
  | nil => intro s h he; simp only [exec, Option.some.injEq] at he; exact he ▸ h
  | cons a as ih =>
    intro s h he
    simp only [exec] at he
    split at he
    · exact ih (h.step ‹_›) he
    · cases he
end
end LM

/-- Call number `a` was a consuming call (`read`, `next`) on reader `r`, and it returned `out`. -/
def Took (cfg : Nat → Cfg) (r : Nat) (h : List (HEv (ChOp K V) (Py (Ret V)))) (a : Nat) (out : Py (Ret V)) : Prop :=
  ∃ op, HEv.inv a (.rd r op) ∈ h ∧ consumes (cfg r) op ∧ HEv.ret a out ∈ h

/-- All calls on reader `r` are reads and peeks. -/
def OnlyReadCalls (cfg : Nat → Cfg) (r : Nat) (h : List (HEv (ChOp K V) (Py (Ret V)))) : Prop :=
  ∀ a op, HEv.inv a (.rd r op) ∈ h → consumes (cfg r) op ∨ peeks (cfg r) op

variable [LinearOrder K] [BEq V] [ReflBEq V] {n : Nat} {key : V → K} {keyNone : Py (Option K)} {maxlen : Option Nat} {cfg : Nat → Cfg} {as : List (LAct K V)} {s : LM K V}

omit [LinearOrder K] [BEq V] [ReflBEq V] in
theorem takenAll_mem {l : List (ChOp K V × Py (Ret V))} {v : V} (h : v ∈ takenAll (l.map (·.1)) (l.map (·.2))) :
    ∃ o, (ChOp.append v, .ok o) ∈ l := by
  induction l with
  | nil => simp [takenAll] at h
  | cons x l ih =>
    obtain ⟨op, out⟩ := x
    simp only [List.map_cons, takenAll, List.mem_append] at h
    rcases h with h | h
    · unfold taken at h
      split at h
      · simp only [List.mem_singleton] at h; subst h; exact ⟨_, List.mem_cons_self⟩
      · simp at h
    · obtain ⟨o, ho⟩ := ih h; exact ⟨o, by simp [ho]⟩

/-- What the linearization of C67 says of the calls on reader `r`. -/
theorem shared_lin (h : (LM.init n key keyNone maxlen cfg).exec as = some s) (hx : ∀ r, NonOverlapping (onReader r) s.hist) (r : Nat)
    (ho : OnlyReadCalls cfg r s.hist) :
    ∃ S : List (Nat × ChOp K V × Py (Ret V)), Linearizes (fun l => ((Ch.init key keyNone maxlen cfg).run (l.map (·.1))).2 = l.map (·.2)) s.hist S ∧
      (delivered cfg r (S.map (·.2.1)) (S.map (·.2.2))).Pairwise (fun v w => key v < key w) ∧
      (delivered cfg r (S.map (·.2.1)) (S.map (·.2.2))).Sublist (takenAll (S.map (·.2.1)) (S.map (·.2.2))) ∧
      (∀ a out, Took cfg r s.hist a out → ∃ op, (a, ChOp.rd r op, out) ∈ S ∧ consumes (cfg r) op) := by
  obtain ⟨S, hS, -⟩ := C67_linearizable n key keyNone maxlen cfg as h hx
  have huniq := numbered as (s := LM.init n key keyNone maxlen cfg) (by simp [LM.init]) (by simp [LM.init]) h
  have hout : ((Ch.init key keyNone maxlen cfg).run (S.map (·.2.1))).2 = S.map (·.2.2) := by
    have := hS.legal; simpa only [List.map_map, Function.comp_def] using this
  have hops : OnlyReads cfg r (S.map (·.2.1)) := by
    intro o hm
    obtain ⟨⟨a, c, out⟩, hm, e⟩ := List.mem_map.1 hm
    simp only at e; subst e
    exact ho a o (hS.invoked _ hm)
  refine ⟨S, hS, ?_, ?_, ?_⟩
  · rw [← hout]; exact C12_reads_increase key keyNone maxlen cfg r _ hops
  · rw [← hout]
    have := part_run (key := key) (kn := keyNone) (m := maxlen) r _ hops
    exact (List.sublist_append_left _ _).trans this
  · rintro a out ⟨op, h1, h2, h3⟩
    obtain ⟨c, hc⟩ := hS.returned _ _ h3
    have := huniq _ _ _ h1 (hS.invoked _ hc)
    subst this
    exact ⟨op, hc, h2⟩

omit [LinearOrder K] [BEq V] [ReflBEq V] in
theorem delivered_mem {r a : Nat} {op : RdOp K V} {out : Py (Ret V)} {S : List (Nat × ChOp K V × Py (Ret V))} (hm : (a, ChOp.rd r op, out) ∈ S)
    (hc : consumes (cfg r) op) : (outItems out).Sublist (delivered cfg r (S.map (·.2.1)) (S.map (·.2.2))) := by
  induction S with
  | nil => simp at hm
  | cons x S ih =>
    obtain ⟨a', op', out'⟩ := x
    simp only [List.map_cons, delivered]
    rcases List.mem_cons.1 hm with e | hm
    · cases e
      simp only [handed, hc, and_self, if_true]
      exact List.sublist_append_left _ _
    · exact (ih hm).trans (List.sublist_append_right _ _)

omit [LinearOrder K] [BEq V] [ReflBEq V] in
/-- Two calls in order. -/
theorem delivered_two {r a b : Nat} {op op' : RdOp K V} {out out' : Py (Ret V)} {S : List (Nat × ChOp K V × Py (Ret V))} {R : Nat → Nat → Prop}
    (hm : (a, ChOp.rd r op, out) ∈ S) (hm' : (b, ChOp.rd r op', out') ∈ S) (hc : consumes (cfg r) op) (hc' : consumes (cfg r) op') (hab : a ≠ b)
    (hord : S.Pairwise fun x y => ¬ R y.1 x.1) (hR : R a b) :
    (outItems out ++ outItems out').Sublist (delivered cfg r (S.map (·.2.1)) (S.map (·.2.2))) := by
  induction S with
  | nil => simp at hm
  | cons x S ih =>
    obtain ⟨a', op1, out1⟩ := x
    simp only [List.map_cons, delivered]
    rw [List.pairwise_cons] at hord
    rcases List.mem_cons.1 hm with e | hm1
    · cases e
      rcases List.mem_cons.1 hm' with e | hm2
      · cases e; exact absurd rfl hab
      · simp only [handed, hc, and_self, if_true]
        exact List.Sublist.append (List.Sublist.refl _) (delivered_mem hm2 hc')
    · rcases List.mem_cons.1 hm' with e | hm2
      · cases e
        exact absurd hR (hord.1 _ hm1)
      · exact (ih hm1 hm2 hord.2).trans (List.sublist_append_right _ _)

/-- **C132** calls on one reader that do not overlap, by whatever threads: a call gets only items with larger keys than those of the calls before it, in
increasing order; so no item is given to two calls. -/
theorem C132_in_order (h : (LM.init n key keyNone maxlen cfg).exec as = some s) (hx : ∀ r, NonOverlapping (onReader r) s.hist) (r : Nat)
    (ho : OnlyReadCalls cfg r s.hist) {a b : Nat} {out out' : Py (Ret V)} (ha : Took cfg r s.hist a out) (hb : Took cfg r s.hist b out')
    (hp : Precedes s.hist a b) (hab : a ≠ b) : (outItems out ++ outItems out').Pairwise (fun v w => key v < key w) := by
  obtain ⟨S, hS, h1, -, h3⟩ := shared_lin h hx r ho
  obtain ⟨op, k1, k2⟩ := h3 a out ha
  obtain ⟨op', k1', k2'⟩ := h3 b out' hb
  exact h1.sublist (delivered_two k1 k1' k2 k2' hab hS.order hp)

/-- **C132** whatever a call on the reader got had been given to an `append`. -/
theorem C132_appended (h : (LM.init n key keyNone maxlen cfg).exec as = some s) (hx : ∀ r, NonOverlapping (onReader r) s.hist) (r : Nat)
    (ho : OnlyReadCalls cfg r s.hist) {a : Nat} {out : Py (Ret V)} (ha : Took cfg r s.hist a out) (v : V) (hv : v ∈ outItems out) :
    ∃ id, HEv.inv id (.append v) ∈ s.hist := by
  obtain ⟨S, hS, -, h2, h3⟩ := shared_lin h hx r ho
  obtain ⟨op, k1, k2⟩ := h3 a out ha
  have hm := h2.subset ((delivered_mem k1 k2).subset hv)
  have : takenAll (S.map (·.2.1)) (S.map (·.2.2)) = takenAll ((S.map (·.2)).map (·.1)) ((S.map (·.2)).map (·.2)) := by
    simp only [List.map_map, Function.comp_def]
  rw [this] at hm
  obtain ⟨o, ho⟩ := takenAll_mem hm
  obtain ⟨⟨id, c, out⟩, hm, e⟩ := List.mem_map.1 ho
  simp only [Prod.mk.injEq] at e
  obtain ⟨rfl, rfl⟩ := e
  exact ⟨id, hS.invoked _ hm⟩

/-- **C132** no item is given to two calls: of two calls on the reader that both got something, the items are different. -/
theorem C132_split (h : (LM.init n key keyNone maxlen cfg).exec as = some s) (hx : ∀ r, NonOverlapping (onReader r) s.hist) (r : Nat)
    (ho : OnlyReadCalls cfg r s.hist) {a b : Nat} {out out' : Py (Ret V)} (ha : Took cfg r s.hist a out) (hb : Took cfg r s.hist b out') (hab : a ≠ b)
    (v : V) (hv : v ∈ outItems out) : v ∉ outItems out' := by
  intro hv'
  have two : Precedes s.hist a b ∨ Precedes s.hist b a := by
    obtain ⟨op, i1, -, -⟩ := ha
    obtain ⟨op', i2, -, -⟩ := hb
    have H := hx r
    obtain ⟨l1, l2, e⟩ := List.append_of_mem i1
    have pre : ∀ x y cx cy (m1 m2 m3 : List (HEv (ChOp K V) (Py (Ret V)))), s.hist = m1 ++ HEv.inv x cx :: m2 ++ HEv.inv y cy :: m3 → onReader r cx → onReader r cy →
        Precedes s.hist x y := by
      intro x y cx cy m1 m2 m3 e h1 h2
      obtain ⟨o, ho⟩ := H _ _ _ _ _ _ _ e h1 h2
      obtain ⟨t1, t2, e2⟩ := List.append_of_mem ho
      exact ⟨m1 ++ HEv.inv x cx :: t1, t2, m3, o, cy, by rw [e, e2]; simp⟩
    rw [e] at i2
    rcases List.mem_append.1 i2 with i2 | i2
    · obtain ⟨t1, t2, e2⟩ := List.append_of_mem i2
      exact .inr (pre b a (.rd r op') (.rd r op) t1 t2 l2 (by rw [e, e2]) rfl rfl)
    · rcases List.mem_cons.1 i2 with e2 | i2
      · cases e2; exact absurd rfl hab
      · obtain ⟨t1, t2, e2⟩ := List.append_of_mem i2
        exact .inl (pre a b (.rd r op) (.rd r op') l1 t1 t2 (by rw [e, e2]; simp) rfl rfl)
  rcases two with hp | hp
  · have := C132_in_order h hx r ho ha hb hp hab
    exact lt_irrefl _ ((List.pairwise_append.1 this).2.2 v hv v hv')
  · have := C132_in_order h hx r ho hb ha hp hab.symm
    exact lt_irrefl _ ((List.pairwise_append.1 this).2.2 v hv' v hv)

/-- An unbounded buffer from which nothing is dropped holds whatever was accepted. -/
theorem keeps_all (ops : List (ChOp K V)) (hd : ∀ k, .drop k ∉ ops) :
    (Ch.run (Ch.init key keyNone none cfg) ops).1.buf.items = takenAll ops (Ch.run (Ch.init key keyNone none cfg) ops).2 := by
  induction ops using List.reverseRecOn with
  | nil => rfl
  | append_singleton ops op ih =>
    have ih := ih (fun n hn => hd n (by simp [hn]))
    have hlen := Ch.run_length (Ch.init key keyNone none cfg) ops
    rw [Ch.run_snoc, takenAll_snoc _ _ _ _ hlen, ← ih]
    have hr : Ch.Reach key keyNone none cfg (Ch.run (Ch.init key keyNone none cfg) ops).1 := ⟨ops, rfl⟩
    cases op with
    | append v =>
      have hwf := hr.sim.swf
      have hm := hr.sim.maxlen
      simp only [Ch.step]
      rw [SD.append_eq hwf.wf.aligned hwf.wf.bounded v]
      split
      · simp only [hm, newest, taken, Except.map]
      · simp [taken, Except.map]
    | drop k => exact absurd (by simp) (hd k)
    | rd i o => simp [Ch.step, taken]

/-- What reader `r` can still read, of the buffer and cursor of a state. -/
def canRead (s : LM K V) (r : Nat) : List V := unreadOf ⟨s.m.data, s.readers⟩ r

/-- **C132** and on an unbounded buffer from which nobody drops the threads miss nothing: when no call is in progress, every item whose `append` returned
without exception was given to one of the calls on the reader, or can still be read. -/
theorem C132_nothing_missing (h : (LM.init n key keyNone none cfg).exec as = some s) (hx : ∀ r, NonOverlapping (onReader r) s.hist) (r : Nat)
    (ho : OnlyReadCalls cfg r s.hist) (hd : ∀ id k, HEv.inv id (.drop k) ∉ s.hist) (hq : ∀ i, s.pend i = none)
    {id : Nat} {v : V} {o : Ret V} (hi : HEv.inv id (.append v) ∈ s.hist) (hr : HEv.ret id (.ok o) ∈ s.hist) :
    (∃ a out, Took cfg r s.hist a out ∧ v ∈ outItems out) ∨ v ∈ canRead s r := by
  obtain ⟨S, hS, hend⟩ := C67_linearizable n key keyNone none cfg as h hx
  have hend := hend hq
  have huniq := numbered as (s := LM.init n key keyNone none cfg) (by simp [LM.init]) (by simp [LM.init]) h
  have hout : ((Ch.init key keyNone none cfg).run (S.map (·.2.1))).2 = S.map (·.2.2) := by
    have := hS.legal; simpa only [List.map_map, Function.comp_def] using this
  have hops : OnlyReads cfg r (S.map (·.2.1)) := by
    intro o hm
    obtain ⟨⟨a, c, out⟩, hm, e⟩ := List.mem_map.1 hm
    simp only at e; subst e
    exact ho a o (hS.invoked _ hm)
  have hk := keeps_all (key := key) (keyNone := keyNone) (cfg := cfg) (S.map (·.2.1)) (by
    intro k hm
    obtain ⟨⟨a, c, out⟩, hm, e⟩ := List.mem_map.1 hm
    simp only at e; subst e
    exact hd a k (hS.invoked _ hm))
  have hre : Ch.Reach key keyNone none cfg (Ch.run (Ch.init key keyNone none cfg) (S.map (·.2.1))).1 := ⟨_, rfl⟩
  have hw := (retained_run (key := key) (kn := keyNone) (m := none) r _ hops).2 hk
  have hall := hw.all (by rw [← hk]; exact hre.sim.strict) (by rw [← hk]; exact Nat.le_add_right _ _)
  rw [← unreadOf_eq hre, hend, hout] at hall
  have hv : v ∈ takenAll (S.map (·.2.1)) (S.map (·.2.2)) := by
    obtain ⟨c, hc⟩ := hS.returned _ _ hr
    have := huniq _ _ _ hi (hS.invoked _ hc)
    subst this
    clear hall hw hk hre hops hout hend
    have : ∀ S : List (Nat × ChOp K V × Py (Ret V)), (id, ChOp.append v, .ok o) ∈ S → v ∈ takenAll (S.map (·.2.1)) (S.map (·.2.2)) := by
      intro S
      induction S with
      | nil => simp
      | cons x S ih =>
        intro hm
        simp only [List.map_cons, takenAll, List.mem_append]
        rcases List.mem_cons.1 hm with e | hm
        · subst e; exact .inl (by simp [taken])
        · exact .inr (ih hm)
    exact this S hc
  rw [← hall] at hv
  rcases List.mem_append.1 hv with hv | hv
  swap
  · exact .inr hv
  refine .inl ?_
  have hq' : ∀ x ∈ S, ∃ out, HEv.ret x.1 out ∈ s.hist := by
    intro x hm
    have hA := answered as (s := LM.init n key keyNone none cfg) (by simp [Answered, LM.init]) h
    rcases hA _ _ (hS.invoked x hm) with h1 | ⟨i, p, hp, -⟩
    · exact h1
    · rw [hq i] at hp; cases hp
  have : ∀ S' : List (Nat × ChOp K V × Py (Ret V)), v ∈ delivered cfg r (S'.map (·.2.1)) (S'.map (·.2.2)) →
      ∃ a op out, (a, ChOp.rd r op, out) ∈ S' ∧ consumes (cfg r) op ∧ v ∈ outItems out := by
    intro S'
    induction S' with
    | nil => simp [delivered]
    | cons x S' ih =>
      obtain ⟨a, op, out⟩ := x
      intro hm
      simp only [List.map_cons, delivered, List.mem_append] at hm
      rcases hm with hm | hm
      · unfold handed at hm
        split at hm
        · rename_i j op'
          split at hm
          · rename_i hj
            obtain ⟨rfl, hj⟩ := hj
            exact ⟨a, op', out, by simp, hj, hm⟩
          · simp at hm
        · simp at hm
      · obtain ⟨a, op, out, h1, h2⟩ := ih hm
        exact ⟨a, op, out, by simp [h1], h2⟩
  obtain ⟨a, op, out, h1, h2, h3⟩ := this S hv
  obtain ⟨out', ho'⟩ := hq' _ h1
  obtain ⟨c, hc⟩ := hS.returned _ _ ho'
  have : (a, c, out') = (a, ChOp.rd r op, out) := by
    exact List.inj_on_of_nodup_map hS.once hc h1 rfl
  cases this
  exact ⟨a, out, ⟨op, hS.invoked _ h1, h2, ho'⟩, h3⟩

namespace LMW
/-- Thread 0 appends 1 and 2; thread 1 reads with reader 0; thread 0 appends 3 while thread 2 reads with reader 0. -/
def byTurns : List (LAct Nat Nat) :=
  [.call 0 (.append 1)] ++ gos 0 13 ++ [.call 0 (.append 2)] ++ gos 0 13 ++ [.call 1 (.rd 0 (.read none none none none))] ++ gos 1 17 ++
  [.call 2 (.rd 0 (.read none none none none))] ++ gos 2 9 ++ [.call 0 (.append 3)] ++ gos 2 10 ++ gos 0 13

/-- Meets C132: the two threads get 1 and 2, 3 can still be read. -/
theorem C132_meets : ∃ s, s0.exec byTurns = some s ∧ (∀ r, NonOverlapping (onReader r) s.hist) ∧
    s.hist = [.inv 0 (.append 1), .ret 0 (.ok .none), .inv 1 (.append 2), .ret 1 (.ok .none), .inv 2 (.rd 0 (.read none none none none)), .ret 2 (.ok (.one 1)),
      .inv 3 (.rd 0 (.read none none none none)), .inv 4 (.append 3), .ret 3 (.ok (.one 2)), .ret 4 (.ok .none)] ∧
    canRead s 0 = [3] ∧ s.pend 0 = none ∧ s.pend 1 = none ∧ s.pend 2 = none ∧ Took (fun _ => Cfg.default) 0 s.hist 2 (.ok (.one 1)) ∧
    Took (fun _ => Cfg.default) 0 s.hist 3 (.ok (.one 2)) := by
  refine ⟨_, rfl, check_sound _ rfl, rfl, rfl, rfl, rfl, rfl, ?_, ?_⟩
  · exact ⟨.read none none none none, List.mem_of_getElem? (i := 4) rfl, rfl, List.mem_of_getElem? (i := 5) rfl⟩
  · exact ⟨.read none none none none, List.mem_of_getElem? (i := 6) rfl, rfl, List.mem_of_getElem? (i := 8) rfl⟩
end LMW

end S2P
