import Verif.Proofs.LinearStep
/- A call waits only where the lock makes it wait: the bodies take and give back the reader lock in pairs. -/
namespace S2P

/-- From `n` surrounding sections to none. -/
def Prog.Bal {D α : Type} : Nat → Nat → Prog D α → Prop
  | n, m, .ret _ => n = m
  | n, m, .look k => ∀ d, (k d).Bal n m
  | n, m, .lock k => k.Bal (n + 1) m
  | n, m, .unlock k => 0 < n ∧ k.Bal (n - 1) m

theorem Prog.bal_bind {D α β : Type} (p : Prog D α) (f : α → Prog D β) {n m l : Nat} (h : p.Bal n m) (hf : ∀ a, (f a).Bal m l) : (p.bind f).Bal n l := by
  induction p generalizing n with
  | ret a => simp only [Prog.Bal] at h; subst h; exact hf a
  | look k ih => exact fun d => ih d (h d)
  | lock k ih => exact ih h
  | unlock k ih => exact ⟨h.1, ih h.2⟩

namespace PM
variable {K V α β : Type}

/-- Neither enters more sections than it leaves nor the other way round, wherever it starts. -/
def Bal (p : PM K V α) : Prop := ∀ n, (ExceptT.run p).Bal n n

theorem bal_pure (a : α) : Bal (pure a : PM K V α) := fun _ => rfl

theorem bal_throw (e : PyErr) : Bal (throw e : PM K V α) := fun _ => rfl

theorem bal_ask (f : SD K V → Py α) : Bal (ask f) := fun _ _ => rfl

theorem bal_ofPy (x : Py α) : Bal (ofPy x : PM K V α) := fun _ => rfl

theorem bal_bind {p : PM K V α} {f : α → PM K V β} (hp : Bal p) (hf : ∀ a, Bal (f a)) : Bal (p >>= f) := by
  intro n
  refine Prog.bal_bind _ _ (hp n) ?_
  intro x
  cases x with
  | ok a => exact hf a n
  | error e => rfl

theorem bal_locked {p : PM K V α} (hp : Bal p) : Bal (locked p) := by
  intro n
  exact Prog.bal_bind _ _ (hp (n + 1)) fun a => ⟨by simp, by simp [Prog.Bal]⟩

theorem bal_except {p : PM K V α} {h : PyErr → PM K V α} (hp : Bal p) (hh : ∀ e, Bal (h e)) : Bal (except p h) := by
  intro n
  refine Prog.bal_bind _ _ (hp n) ?_
  intro x
  cases x with
  | ok a => rfl
  | error e => exact hh e n

theorem bal_ite {c : Prop} [Decidable c] {p q : PM K V α} (hp : Bal p) (hq : Bal q) : Bal (if c then p else q) := by split <;> assumption

variable [LT K] [DecidableLT K]

theorem bal_bisectLoop (g : K → Py Bool) (fuel lo hi : Nat) : Bal (bisectLoop g fuel lo hi : PM K V Nat) := by
  induction fuel generalizing lo hi with
  | zero => exact bal_pure _
  | succ n ih =>
    unfold bisectLoop
    exact bal_ite (bal_bind (bal_ask _) fun m => bal_bind (bal_ofPy _) fun b => bal_ite (ih _ _) (ih _ _)) (bal_pure _)

end PM

/-- Applies the lemmas above. -/
macro "bal" : tactic => `(tactic| repeat' first
  | exact PM.bal_pure _ | exact PM.bal_throw _ | exact PM.bal_ask _ | exact PM.bal_ofPy _ | exact PM.bal_bisectLoop _ _ _ _ | assumption
  | apply PM.bal_bind | apply PM.bal_locked | apply PM.bal_except | apply PM.bal_ite | split | intro _)

namespace PM
variable {K V α β : Type} [LT K] [DecidableLT K]

theorem bal_bisectLeft (k : Option K) : Bal (bisectLeft k : PM K V Nat) := by unfold bisectLeft; bal
theorem bal_bisectRight (k : Option K) : Bal (bisectRight k : PM K V Nat) := by unfold bisectRight; bal
theorem bal_findGt (k : Option K) : Bal (findGt k : PM K V V) := by unfold findGt bisectRight len; bal
theorem bal_findGe (k : Option K) : Bal (findGe k : PM K V V) := by unfold findGe bisectLeft len; bal
theorem bal_findLe (k : Option K) : Bal (findLe k : PM K V V) := by unfold findLe bisectRight; bal
theorem bal_findLastGt (k : Option K) : Bal (findLastGt k : PM K V V) := by unfold findLastGt; bal
theorem bal_index [BEq V] (v : V) : Bal (index v : PM K V Nat) := by unfold index keyOf bisectLeft bisectRight; bal
theorem bal_range (a b : Option K) (st : Option Int) : Bal (range a b st : PM K V (List V)) := by unfold range bisectLeft bisectRight rangeByIndex; bal

end PM

namespace Reader
variable {K V : Type} [LT K] [DecidableLT K]
open PM

theorem bal_setLastP (r : Reader K V) (v : V) : Bal (r.setLastP v) := by unfold setLastP keyOf; bal

theorem bal_nextP (r : Reader K V) (ignore : Bool) : Bal (r.nextP ignore) := by
  have := fun k => bal_findGt (V := V) (K := K) k
  unfold nextP getItem
  repeat' first | exact this _ | exact PM.bal_pure _ | exact PM.bal_throw _ | exact PM.bal_ask _ | apply PM.bal_bind | apply PM.bal_except | apply PM.bal_ite | split | intro _

theorem bal_readP [BEq V] (r : Reader K V) (n : Int) (p i st : Bool) : Bal (r.readP n p i st) := by
  unfold readP len rangeByIndex
  repeat' first | exact bal_nextP _ _ | exact bal_setLastP _ _ | exact bal_index _ | exact PM.bal_pure _ | exact PM.bal_throw _ | exact PM.bal_ask _ | exact PM.bal_ofPy _ | apply PM.bal_bind | apply PM.bal_except | apply PM.bal_ite | split | intro _

theorem bal_rangeStartP [BEq V] (r : Reader K V) (a : K) (i o : Bool) : Bal (r.rangeStartP a i o) := by
  unfold rangeStartP nextKeyP
  repeat' first | exact bal_readP _ _ _ _ _ | exact PM.bal_pure _ | exact PM.bal_throw _ | exact PM.bal_ask _ | exact PM.bal_ofPy _ | apply PM.bal_locked | apply PM.bal_bind | apply PM.bal_except | apply PM.bal_ite | split | intro _

theorem bal_roundStartP (a : K) (le : Bool) : Bal (roundStartP a le : PM K V K) := by
  unfold roundStartP keyOf
  repeat' first | exact bal_findLe _ | exact PM.bal_pure _ | exact PM.bal_throw _ | exact PM.bal_ask _ | apply PM.bal_bind | apply PM.bal_except | apply PM.bal_ite | split | intro _

theorem bal_roundStopP (b : K) (i ge : Bool) : Bal (roundStopP b i ge : PM K V (Option K)) := by
  unfold roundStopP keyOf
  repeat' first | exact bal_findGe _ | exact PM.bal_pure _ | exact PM.bal_throw _ | exact PM.bal_ask _ | apply PM.bal_bind | apply PM.bal_except | apply PM.bal_ite | split | intro _

theorem bal_rangeP [BEq V] (r : Reader K V) (a b : K) (st : Option Int) (p i o le ge : Bool) : Bal (r.rangeP a b st p i o le ge) := by
  unfold rangeP rangeEndP
  repeat' first | exact bal_rangeStartP _ _ _ _ | exact bal_roundStartP _ _ | exact bal_roundStopP _ _ _ | exact bal_range _ _ _ | exact bal_setLastP _ _ | exact PM.bal_pure _ | exact PM.bal_throw _ | apply PM.bal_bind | apply PM.bal_ite | split | intro _

theorem bal_tailP (r : Reader K V) (p i o : Bool) : Bal (r.tailP p i o) := by
  unfold tailP tailItemP getItem
  repeat' first | exact bal_findLastGt _ | exact bal_setLastP _ _ | exact PM.bal_pure _ | exact PM.bal_throw _ | exact PM.bal_ask _ | apply PM.bal_bind | apply PM.bal_except | apply PM.bal_ite | split | intro _

theorem bal_headP (r : Reader K V) (p : Bool) : Bal (r.headP p) := by
  unfold headP getItem
  repeat' first | exact bal_setLastP _ _ | exact PM.bal_pure _ | exact PM.bal_ask _ | apply PM.bal_bind | apply PM.bal_ite | split | intro _

theorem bal_finish (r : Reader K V) (p : PM K V (Ret V × Reader K V)) (h : Bal p) : (r.finish p).Bal 0 0 :=
  Prog.bal_bind _ _ (h 0) fun _ => rfl

theorem bal_prog [BEq V] (r : Reader K V) (op : RdOp K V) : (r.prog op).Bal 0 0 := by
  cases op with
  | read n p i st => exact bal_finish _ _ (bal_readP _ _ _ _ _)
  | nextMethod n p i st => exact bal_finish _ _ (bal_readP _ _ _ _ _)
  | readForNext => exact bal_finish _ _ (bal_readP _ _ _ _ _)
  | range a b st p i o le ge => exact bal_finish _ _ (bal_rangeP _ _ _ _ _ _ _ _ _)
  | tail p i o => exact bal_finish _ _ (bal_tailP _ _ _ _)
  | head p => exact bal_finish _ _ (bal_headP _ _)
  | setLast v => exact bal_finish _ _ (bal_bind (bal_setLastP _ _) fun _ => bal_pure _)
  | delLast => rfl

end Reader

namespace LM
open RW
variable {K V : Type} [LinearOrder K] [BEq V]
variable {s s' : LM K V} {i : Nat} {p : Pend K V} {t : Th (SD K V) (WOp V)} {d0 : SD K V} {r0 : Nat → Reader K V}

/-- How many sections a thread is in, counting the one it is about to leave. -/
def depth (t : Th (SD K V) (WOp V)) : Nat := if t.pc ∈ [PC.x1, .x2, .x3, .x4] then t.outer - 1 else t.outer

/-- The rest of the body fits the number of sections the thread is in. -/
def BalInv (s : LM K V) : Prop := ∀ i p r op t, s.pend i = some p → s.m.th[i]? = some t → p.call = .rd r op → p.eff = false → p.rest.Bal (depth t) 0

theorem BalInv.put (h : BalInv s) {t' : Th (SD K V) (WOp V)} (hth : s'.m.th = s.m.th.set i t' ∨ s'.m.th = s.m.th) (hpend : ∀ j, j ≠ i → s'.pend j = s.pend j)
    (hi : ∀ p r op t, s'.pend i = some p → s'.m.th[i]? = some t → p.call = .rd r op → p.eff = false → p.rest.Bal (depth t) 0) : BalInv s' := by
  intro j p r op t hp ht hc he
  by_cases hj : j = i
  · subst hj; exact hi p r op t hp ht hc he
  · rw [hpend j hj] at hp
    refine h j p r op t hp ?_ hc he
    rcases hth with hth | hth
    · rw [hth] at ht
      rcases set_get ht with ⟨e, -⟩ | ⟨-, e⟩
      · exact absurd e hj
      · exact e
    · rw [hth] at ht; exact ht

theorem arrive_facts (s : LM K V) (i : Nat) (p : Pend K V) (m' : M (SD K V) (WOp V)) (hp : s.pend i = some p) :
    (s.arrive i p m').m = m' ∧ (∀ j, j ≠ i → (s.arrive i p m').pend j = s.pend j) ∧
      ((s.arrive i p m').pend i = none ∨ (s.arrive i p m').pend i = some p) := by
  simp only [arrive]
  split
  · split
    · exact ⟨rfl, fun j hj => by simp only [setPend, hj, if_false], .inl (by simp only [setPend, if_true])⟩
    · exact ⟨rfl, fun _ _ => rfl, .inr hp⟩
  · exact ⟨rfl, fun _ _ => rfl, .inr hp⟩

theorem bal_goR (hA : AInv d0 r0 s) (hB : BalInv s) (hp : s.pend i = some p) (ht : s.m.th[i]? = some t) {r : Nat} {op : RdOp K V}
    (hc : p.call = .rd r op) (hs : s.goR i p r t = some s') : BalInv s' := by
  have hlt : i < s.m.th.length := (List.getElem?_eq_some_iff.1 ht).1
  have hb := hB i p r op t hp ht hc
  have hok := hA.thr i t ht
  rw [hp] at hok
  have hok : t.pc.reading = true ∧ (p.eff = false → t.outer = 0 → t.pc ∉ [PC.x1, .x2, .x3, .x4]) := by
    obtain ⟨id, c, rest, out, eff⟩ := p
    simp only at hc; subst hc
    exact ⟨hok.1, fun he => (hok.2.1 he).1⟩
  have keep : ∀ {rest : Prog (SD K V) (Py (Ret V) × Reader K V)} {m' : M (SD K V) (WOp V)} {t' : Th (SD K V) (WOp V)},
      m'.th = s.m.th.set i t' → (p.eff = false → rest.Bal (depth t') 0) → BalInv { s.setPend i (some { p with rest := rest }) with m := m' } := by
    intro rest m' t' hth hr
    refine hB.put (i := i) (.inl hth) (fun j hj => by simp only [setPend, hj, if_false]) ?_
    intro q r' op' u hq hu _ he
    simp only [setPend, if_true, Option.some.injEq] at hq
    simp only [hth, List.getElem?_set_self hlt, Option.some.injEq] at hu
    subst hq hu
    exact hr he
  simp only [goR] at hs
  split at hs
  · rename_i hpc
    have hd : depth t = t.outer := by simp [depth, hpc]
    rw [hd] at hb
    split at hs
    · rename_i k hk
      simp only [Option.map_eq_some_iff] at hs
      obtain ⟨m', hm, rfl⟩ := hs
      obtain ⟨-, h1, h2, h3⟩ := step_look hm ht
      refine keep h1 fun he => ?_
      have := hb he
      rw [hk] at this
      simpa [depth, hpc] using this s.m.data
    · rename_i k hk
      simp only [Option.map_eq_some_iff] at hs
      obtain ⟨m', hm, rfl⟩ := hs
      obtain ⟨-, h1, h2, h3⟩ := step_nest hm ht
      refine keep h1 fun he => ?_
      have := hb he
      rw [hk] at this
      simpa [depth, Prog.Bal] using this
    · rename_i k hk
      split at hs
      · rename_i ho
        simp only [Option.map_eq_some_iff] at hs
        obtain ⟨m', hm, rfl⟩ := hs
        rcases step_go hm ht with ⟨f, fs, h1, -⟩ | ⟨-, -, h1, h2, h3⟩
        · rw [hpc] at h1; simp at h1
        · refine keep h1 fun he => ?_
          have := hb he
          rw [hk] at this
          simpa [depth, Th.after, hpc, PC.next, Th.arrive] using this.2
      · simp at hs
    · rename_i x hk
      split at hs
      · simp only [Option.map_eq_some_iff] at hs
        obtain ⟨m', hm, rfl⟩ := hs
        rcases step_go hm ht with ⟨f, fs, h1, -⟩ | ⟨-, -, h1, h2, h3⟩
        · rw [hpc] at h1; simp at h1
        · refine hB.put (i := i) (.inl h1) (fun j hj => by simp only [setPend, hj, if_false]) ?_
          intro q r' op' u hq hu _ he
          simp only [setPend, if_true, Option.some.injEq] at hq
          subst hq
          simp at he
      · simp at hs
  · rename_i hpc
    simp only [Option.map_eq_some_iff] at hs
    obtain ⟨m', hm, rfl⟩ := hs
    obtain ⟨e1, e2, e3⟩ := arrive_facts s i p m' hp
    rcases step_go hm ht with ⟨f, fs, h1, -⟩ | ⟨-, -, h1, h2, h3⟩
    · rw [h1] at hok; simp [PC.reading] at hok
    · refine hB.put (i := i) (t' := t.after bufBody s.m.data) (.inl (by rw [e1]; exact h1)) e2 ?_
      intro q r' op' u hq hu _ he
      rw [e1, h1, List.getElem?_set_self hlt] at hu
      injection hu with hu; subst hu
      rcases e3 with e3 | e3
      · rw [e3] at hq; simp at hq
      · rw [e3] at hq; injection hq with hq; subst hq
        have hd : depth (t.after bufBody s.m.data) = depth t := by
          obtain ⟨g1, g2⟩ := hok
          have g2 := g2 he
          obtain ⟨pc, outer, a, b, c⟩ := t
          simp only at g1 g2 hpc
          cases pc <;> simp [PC.reading] at g1 <;> simp at hpc <;> simp [depth, Th.after, PC.next, Th.arrive] at g2 ⊢
          split
          · omega
          · simp
        rw [hd]
        exact hb he

theorem bal_goW (hB : BalInv s) (hp : s.pend i = some p) (ht : s.m.th[i]? = some t) {op : WOp V}
    (hc : asW p.call = some op) (hs : s.goW i p op t = some s') : BalInv s' := by
  have hno : ∀ r rop, p.call ≠ .rd r rop := by intro r rop he; rw [he] at hc; simp [asW] at hc
  have hth : ∀ {m'}, s.m.step bufBody (.go i) = some m' → ∃ t', m'.th = s.m.th.set i t' := by
    intro m' hm
    rcases step_go hm ht with ⟨f, fs, -, -, h1, -⟩ | ⟨-, -, h1, -, -⟩
    · exact ⟨_, h1⟩
    · exact ⟨_, h1⟩
  simp only [goW] at hs
  split at hs
  · simp at hs
  rename_i m' hm
  obtain ⟨t', h1⟩ := hth hm
  split at hs
  · injection hs with hs; subst hs
    refine hB.put (i := i) (.inl h1) (fun j hj => by simp only [setPend, hj, if_false]) ?_
    intro q r' op' u hq _ hcc _
    simp only [setPend, if_true, Option.some.injEq] at hq
    subst hq
    exact absurd hcc (hno _ _)
  · split at hs
    · split at hs
      · injection hs with hs; subst hs
        refine hB.put (i := i) (.inl h1) (fun j hj => by simp only [setPend, hj, if_false]) ?_
        intro q r' op' u hq _ hcc _
        simp only [setPend, if_true, Option.some.injEq] at hq
        subst hq
        exact absurd hcc (hno _ _)
      · simp at hs
    · injection hs with hs; subst hs
      obtain ⟨e1, e2, e3⟩ := arrive_facts s i p m' hp
      refine hB.put (i := i) (t' := t') (.inl (by rw [e1]; exact h1)) e2 ?_
      intro q r' op' u hq _ hcc _
      rcases e3 with e3 | e3
      · rw [e3] at hq; simp at hq
      · rw [e3] at hq; injection hq with hq; subst hq
        exact absurd hcc (hno _ _)

theorem bal_step (hA : AInv d0 r0 s) (hB : BalInv s) {a : LAct K V} (hs : s.step a = some s') : BalInv s' := by
  cases a with
  | call i c =>
    simp only [step] at hs
    split at hs
    · simp at hs
    cases c with
    | append v | drop n =>
      simp only [Option.map_eq_some_iff] at hs
      obtain ⟨m', hm, rfl⟩ := hs
      obtain ⟨t, ht, hp, h1, h2, h3⟩ := step_beginW hm
      refine hB.put (i := i) (.inl h1) (fun j hj => by simp only [invoke, setPend, hj, if_false]) ?_
      intro q r' op' u hq _ hcc _
      simp only [invoke, setPend, if_true, Option.some.injEq] at hq
      subst hq
      simp at hcc
    | rd r op =>
      have body : ∀ {m' : M (SD K V) (WOp V)}, s.m.step bufBody (.beginRead i) = some m' → BalInv (s.invoke i (.rd r op) ((s.readers r).prog op) m') := by
        intro m' hm
        obtain ⟨t, ht, hp, h1, h2, h3⟩ := step_begin hm
        have hlt : i < s.m.th.length := (List.getElem?_eq_some_iff.1 ht).1
        refine hB.put (i := i) (.inl h1) (fun j hj => by simp only [invoke, setPend, hj, if_false]) ?_
        intro q r' op' u hq hu hcc _
        simp only [invoke, setPend, if_true, Option.some.injEq] at hq
        simp only [invoke, h1, List.getElem?_set_self hlt, Option.some.injEq] at hu
        subst hq hu
        have : t.outer = 0 := hA.rw.outer _ (List.mem_of_getElem? ht) (by rw [hp]; rfl)
        simpa [depth, this] using Reader.bal_prog _ _
      cases op with
      | setLast v | delLast =>
        simp only [Option.some.injEq] at hs
        subst hs
        exact hB
      | read | nextMethod | readForNext | range | tail | head =>
        simp only [Option.map_eq_some_iff] at hs
        obtain ⟨m', hm, rfl⟩ := hs
        exact body hm
  | go i =>
    simp only [step] at hs
    split at hs
    · rename_i p t hp ht
      split at hs
      · rename_i v hc; exact bal_goW hB hp ht (op := .append v) (by rw [hc]; rfl) hs
      · rename_i n hc; exact bal_goW hB hp ht (op := .drop n) (by rw [hc]; rfl) hs
      · rename_i r op hc; exact bal_goR hA hB hp ht hc hs
    · simp at hs

/-- All three invariants, along an execution. -/
theorem all_exec (as : List (LAct K V)) (hX : ∀ r, Spec.NonOverlapping (onReader r) s'.hist) (hA : AInv d0 r0 s) (hH : HInv s) (hB : BalInv s) (hs : s.exec as = some s') :
    AInv d0 r0 s' ∧ HInv s' ∧ BalInv s' := by
  induction as generalizing s with
  | nil => simp only [exec, Option.some.injEq] at hs; subst hs; exact ⟨hA, hH, hB⟩
  | cons a as ih =>
    simp only [exec] at hs
    split at hs
    · rename_i s1 h1
      have hX1 : ∀ r, Spec.NonOverlapping (onReader r) s1.hist := by
        obtain ⟨l, e⟩ := exec_hist as hs
        intro r
        have := hX r
        rw [e] at this
        exact nonOverlapping_prefix this
      obtain ⟨h2, h3⟩ := inv_step hX1 hA hH h1
      exact ih h2 h3 (bal_step hA hB h1) hs
    · simp at hs

/-- A call can go on exactly when the lock lets its thread go on. -/
theorem go_iff (hA : AInv d0 r0 s) (hB : BalInv s) (hp : s.pend i = some p) (ht : s.m.th[i]? = some t) :
    (s.step (.go i)).isSome = (s.m.step bufBody (.go i)).isSome := by
  have hok := hA.thr i t ht
  rw [hp] at hok
  have hW : ∀ op, asW p.call = some op → (s.goW i p op t).isSome = (s.m.step bufBody (.go i)).isSome := by
    intro op hc
    simp only [goW]
    split
    · rename_i e; simp [e]
    · rename_i m' e
      rw [e]
      split
      · rfl
      · split
        · rename_i hcs
          have : ∃ o, p.out = some o := by
            obtain ⟨id, c, rest, out, eff⟩ := p
            cases c with
            | rd r op => simp [asW] at hc
            | append v | drop n =>
              obtain ⟨op', h1, h2, h3, h4⟩ := hok
              cases eff with
              | true => have := h4 rfl; rw [hcs.1] at this; simp at this
              | false => exact ⟨_, (h3 rfl).2.2 hcs.1⟩
          obtain ⟨o, ho⟩ := this
          rw [ho]; rfl
        · rfl
  simp only [step, hp, ht]
  split
  · rename_i v hc; exact hW _ (by rw [hc]; rfl)
  · rename_i n hc; exact hW _ (by rw [hc]; rfl)
  · rename_i r op hc
    simp only [goR]
    split
    · rename_i hpc
      have heff : p.eff = false := by
        cases he : p.eff with
        | false => rfl
        | true =>
          obtain ⟨id, c, rest, out, eff⟩ := p
          simp only at hc he; subst hc he
          have := (hok.2.2 rfl).2
          rw [hpc] at this
          simp at this
      have hb := hB i p r op t hp ht hc heff
      have hgo : (s.m.step bufBody (.go i)).isSome = true := by simp [M.step, ht, M.go, hpc, Lk.stmt]
      rw [hgo]
      split
      · simp [M.step, ht, hpc]
      · simp [M.step, ht, hpc]
      · rename_i k hk
        rw [hk] at hb
        simp only [depth, hpc] at hb
        have := hb.1
        simp at this
        rw [if_pos this, Option.isSome_map, hgo]
      · rename_i x hk
        rw [hk] at hb
        simp only [depth, hpc] at hb
        simp [Prog.Bal] at hb
        rw [if_pos hb, Option.isSome_map, hgo]
    · simp

end LM
end S2P
