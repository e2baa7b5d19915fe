import Verif.Proofs.RWLock
/- Progress and termination of the reader-writer lock machine; the buffer's writer operations. -/
namespace S2P.RW
variable {D Op : Type}

theorem go_of_stmt {body : Op → D → List (D → D)} {m : M D Op} {i : Nat} {t : Th D Op} (ht : m.th[i]? = some t)
    (h : (m.lk.stmt t.pc).isSome = true) : ∃ m', m.step body (.go i) = some m' := by
  simp only [M.step, ht, M.go]
  split
  · exact ⟨_, rfl⟩
  · obtain ⟨⟨l, pc'⟩, hs⟩ := Option.isSome_iff_exists.1 h
    rw [hs]; exact ⟨_, rfl⟩

theorem cnt_pos {m : M D Op} {p : PC} (h : 0 < m.cnt p) : ∃ (i : Nat) (t : Th D Op), m.th[i]? = some t ∧ t.pc = p := by
  obtain ⟨i, t, ht, hp⟩ := total_pos h
  refine ⟨i, t, ht, ?_⟩
  by_contra hc
  simp [at_, hc] at hp

theorem pos_cnt {m : M D Op} {i : Nat} {t : Th D Op} (ht : m.th[i]? = some t) : 0 < m.cnt t.pc := by
  have := total_ge (at_ t.pc) ht
  simp only [at_, if_true] at this
  exact this

theorem Inv.noDeadlock (body : Op → D → List (D → D)) {m : M D Op} (h : Inv m) (ho : m.outers = 0) (hb : ∃ t ∈ m.th, t.pc ≠ .idle) :
    ∃ i m', m.step body (.go i) = some m' := by
  obtain ⟨t, ht, hp⟩ := hb
  obtain ⟨j, hj⟩ := List.getElem?_of_mem ht
  have ha := h.acc
  rw [ho] at ha
  obtain ⟨p, _, h2, h3⟩ := ha.progress ⟨t.pc, hp, pos_cnt hj⟩
  obtain ⟨i, s, hs, rfl⟩ := cnt_pos h2
  exact ⟨i, go_of_stmt hs h3⟩

/-- How many statements a thread still has to execute, a writer section counting as one. -/
def PC.rank : PC → Nat
  | .idle => 0
  | .r1 => 13 | .r2 => 12 | .r3 => 11 | .r4 => 10 | .r5 => 9 | .r6 => 8 | .r7 => 7 | .r8 => 6 | .rCS => 5
  | .x1 => 4 | .x2 => 3 | .x3 => 2 | .x4 => 1
  | .w1 => 11 | .w2 => 10 | .w3 => 9 | .w4 => 8 | .w5 => 7 | .wCS => 6
  | .y0 => 5 | .y1 => 4 | .y2 => 3 | .y3 => 2 | .y4 => 1

/-- Rank including the surrounding sections. -/
def Th.rank (t : Th D Op) : Nat := t.pc.rank + 6 * t.outer

theorem stmt_rank {l l' : Lk} {pc pc' : PC} (h : l.stmt pc = some (l', pc')) : pc'.rank < pc.rank := by
  cases pc <;> simp only [Lk.stmt] at h <;> (repeat' split at h) <;>
    simp only [Option.some.injEq, Prod.mk.injEq, reduceCtorEq] at h <;> obtain ⟨_, rfl⟩ := h <;> decide

theorem arrive_rank {l l' : Lk} {pc' : PC} (body : Op → D → List (D → D)) (d : D) (t : Th D Op) (h : l.stmt t.pc = some (l', pc')) :
    (t.arrive body d pc').rank < t.rank := by
  have hr := stmt_rank h
  simp only [Th.rank, arrive_pc, arrive_outer_le]
  split
  · rename_i hc
    obtain ⟨rfl, h0⟩ := hc
    simp only [PC.rank] at hr ⊢
    simp only [if_true]
    omega
  · split
    · rename_i hc; subst hc; simp only [PC.rank] at hr ⊢; omega
    · omega

/-- Termination measure: statements left, then mutations left. -/
def M.measure (m : M D Op) : Nat × Nat := (total Th.rank m.th, total (fun t => t.prog.length) m.th)

theorem go_measure {body : Op → D → List (D → D)} {m m' : M D Op} {i : Nat} (h : m.step body (.go i) = some m') :
    Prod.Lex (· < ·) (· < ·) m'.measure m.measure := by
  simp only [M.step] at h
  split at h
  · rename_i t ht
    rcases go_cases h with ⟨f, fs, hp, hf, rfl⟩ | ⟨l, pc', hst, _, rfl⟩
    · have h1 := total_set Th.rank ht { t with prog := fs }
      have h2 := total_set (fun t : Th D Op => t.prog.length) ht { t with prog := fs }
      have e1 : total Th.rank (m.th.set i { t with prog := fs }) = total Th.rank m.th := by
        have : Th.rank { t with prog := fs } = t.rank := rfl
        omega
      have e2 : total (fun t : Th D Op => t.prog.length) (m.th.set i { t with prog := fs }) < total (fun t : Th D Op => t.prog.length) m.th := by
        rw [hf] at h2
        simp only [List.length_cons] at h2
        omega
      have : M.measure { m.put i { t with prog := fs } with data := f m.data } =
          (total Th.rank m.th, total (fun t : Th D Op => t.prog.length) (m.th.set i { t with prog := fs })) := by
        rw [← e1]; rfl
      rw [this]
      exact Prod.Lex.right _ e2
    · have h1 := total_set Th.rank ht (t.arrive body m.data pc')
      have h2 := arrive_rank body m.data t hst
      exact Prod.Lex.left _ _ (show total Th.rank (m.th.set i (t.arrive body m.data pc')) < total Th.rank m.th by omega)
  · simp at h

/-- No infinite run of statements. -/
theorem go_wf (body : Op → D → List (D → D)) : WellFounded (fun m' m : M D Op => ∃ i, m.step body (.go i) = some m') := by
  refine Subrelation.wf (r := InvImage (Prod.Lex (· < ·) (· < ·)) M.measure) ?_ (InvImage.wf _ (Prod.lex Nat.lt_wfRel Nat.lt_wfRel).wf)
  intro m' m ⟨i, h⟩
  exact go_measure h

theorem go_outers {body : Op → D → List (D → D)} {m m' : M D Op} {i : Nat} (h : m.step body (.go i) = some m') : m'.outers ≤ m.outers := by
  simp only [M.step] at h
  split at h
  · rename_i t ht
    rcases go_cases h with ⟨f, fs, hp, hf, rfl⟩ | ⟨l, pc', hst, _, rfl⟩
    · have := total_set (fun t : Th D Op => t.outer) ht { t with prog := fs }
      change total (fun t : Th D Op => t.outer) (m.th.set i { t with prog := fs }) ≤ total (fun t : Th D Op => t.outer) m.th
      dsimp only at this
      omega
    · have := total_set (fun t : Th D Op => t.outer) ht (t.arrive body m.data pc')
      rw [arrive_outer_le] at this
      change total (fun t : Th D Op => t.outer) (m.th.set i (t.arrive body m.data pc')) ≤ total (fun t : Th D Op => t.outer) m.th
      split at this <;> omega
  · simp at h

theorem drains (body : Op → D → List (D → D)) (m : M D Op) (h : Inv m) (ho : m.outers = 0) :
    ∃ (is : List Nat) (m' : M D Op), m.exec body (is.map .go) = some m' ∧ ∀ t ∈ m'.th, t.pc = .idle := by
  induction m using (go_wf body).induction with
  | _ m ih =>
    by_cases hb : ∃ t ∈ m.th, t.pc ≠ .idle
    · obtain ⟨i, m1, hs⟩ := h.noDeadlock body ho hb
      have := go_outers hs
      obtain ⟨is, m', he, hi⟩ := ih m1 ⟨i, hs⟩ (h.step _ hs) (by omega)
      refine ⟨i :: is, m', ?_, hi⟩
      simp only [List.map_cons, M.exec, hs]
      exact he
    · refine ⟨[], m, rfl, fun t ht => ?_⟩
      by_contra hc
      exact hb ⟨t, ht, hc⟩

/-! ### Writers have priority -/

/-- Has the thread been admitted as a reader (passed the gate), and not left? -/
def Th.admitted (t : Th D Op) : Prop := t.pc ∈ [PC.r3, .r4, .r5, .r6, .r7, .r8, .rCS, .x1, .x2, .x3, .x4] ∨ 0 < t.outer

theorem stmt_admitted {l l' : Lk} {pc pc' : PC} (h : l.stmt pc = some (l', pc')) (hnr : l.nr = true)
    (ha : pc' ∈ [PC.r3, .r4, .r5, .r6, .r7, .r8, .rCS, .x1, .x2, .x3, .x4]) : pc ∈ [PC.r3, .r4, .r5, .r6, .r7, .r8, .rCS, .x1, .x2, .x3, .x4] := by
  cases pc <;> simp only [Lk.stmt] at h <;> (repeat' split at h) <;>
    simp only [Option.some.injEq, Prod.mk.injEq, reduceCtorEq] at h <;> obtain ⟨_, rfl⟩ := h <;>
    first | (exact absurd ha (by decide)) | decide

theorem step_thread {body : Op → D → List (D → D)} {m m' : M D Op} {a : Act Op} (h : m.step body a = some m') (j : Nat) {s : Th D Op}
    (hs : m.th[j]? = some s) : ∃ s', m'.th[j]? = some s' := by
  have hl : m'.th.length = m.th.length := by
    cases a <;> simp only [M.step] at h <;> split at h <;> try (simp at h; done)
    · split at h
      · injection h with h; subst h; simp [M.put]
      · simp at h
    · split at h
      · injection h with h; subst h; simp [M.put]
      · simp at h
    · rcases go_cases h with ⟨f, fs, hp, hf, rfl⟩ | ⟨l, pc', hst, _, rfl⟩ <;> simp [M.put]
    · split at h
      · injection h with h; subst h; simp [M.put]
      · simp at h
    · split at h
      · injection h with h; subst h; simp [M.put]
      · simp at h
  have := (List.getElem?_eq_some_iff.1 hs).1
  exact ⟨m'.th[j]'(by omega), List.getElem?_eq_getElem (by omega)⟩

theorem put_get {m : M D Op} {i j : Nat} {t' s s' : Th D Op} (hs : m.th[j]? = some s) (hs' : (m.th.set i t')[j]? = some s') :
    (j = i ∧ s' = t') ∨ (j ≠ i ∧ s' = s) := by
  rw [List.getElem?_set] at hs'
  split at hs'
  · rename_i hij
    split at hs'
    · injection hs' with hs'; exact .inl ⟨hij.symm, hs'.symm⟩
    · simp at hs'
  · rename_i hij
    rw [hs] at hs'; injection hs' with hs'
    exact .inr ⟨fun e => hij e.symm, hs'.symm⟩

theorem Inv.gate {body : Op → D → List (D → D)} {m m' : M D Op} (h : Inv m) (hw : 0 < m.cnt .w5 + m.cnt .wCS + m.cnt .y0)
    {a : Act Op} (hs : m.step body a = some m') {j : Nat} {s s' : Th D Op} (hj : m.th[j]? = some s) (hj' : m'.th[j]? = some s')
    (ha : s'.admitted) : s.admitted := by
  have hnr := (h.acc.priority hw).1
  cases a with
  | go i =>
    simp only [M.step] at hs
    split at hs
    · rename_i t ht
      rcases go_cases hs with ⟨f, fs, hp, hf, rfl⟩ | ⟨l, pc', hst, _, rfl⟩
      · rcases put_get hj hj' with ⟨rfl, rfl⟩ | ⟨_, rfl⟩
        · rw [ht] at hj; injection hj with hj; subst hj; exact ha
        · exact ha
      · rcases put_get hj hj' with ⟨rfl, rfl⟩ | ⟨_, rfl⟩
        · rw [ht] at hj; injection hj with hj; subst hj
          by_cases h0 : t.outer = 0
          · rcases ha with ha | ha
            · rw [arrive_pc] at ha
              simp only [h0, ne_eq, not_true_eq_false, and_false, if_false] at ha
              exact .inl (stmt_admitted hst hnr ha)
            · rw [arrive_outer_le] at ha
              split at ha <;> omega
          · exact .inr (by omega)
        · exact ha
    · simp at hs
  | beginRead i =>
    simp only [M.step] at hs
    split at hs
    · rename_i t ht
      split at hs
      · injection hs with hs; subst hs
        rcases put_get hj hj' with ⟨rfl, rfl⟩ | ⟨_, rfl⟩
        · rw [ht] at hj; injection hj with hj; subst hj
          rcases ha with ha | ha
          · simp at ha
          · exact .inr ha
        · exact ha
      · simp at hs
    · simp at hs
  | beginWrite i op =>
    simp only [M.step] at hs
    split at hs
    · rename_i t ht
      split at hs
      · injection hs with hs; subst hs
        rcases put_get hj hj' with ⟨rfl, rfl⟩ | ⟨_, rfl⟩
        · rw [ht] at hj; injection hj with hj; subst hj
          rcases ha with ha | ha
          · simp at ha
          · exact .inr ha
        · exact ha
      · simp at hs
    · simp at hs
  | look i =>
    simp only [M.step] at hs
    split at hs
    · rename_i t ht
      split at hs
      · injection hs with hs; subst hs
        rcases put_get hj hj' with ⟨rfl, rfl⟩ | ⟨_, rfl⟩
        · rw [ht] at hj; injection hj with hj; subst hj; exact ha
        · exact ha
      · simp at hs
    · simp at hs
  | nest i =>
    simp only [M.step] at hs
    split at hs
    · rename_i t ht
      split at hs
      · rename_i hp
        injection hs with hs; subst hs
        rcases put_get hj hj' with ⟨rfl, rfl⟩ | ⟨_, rfl⟩
        · rw [ht] at hj; injection hj with hj; subst hj
          exact .inl (by rw [hp]; simp)
        · exact ha
      · simp at hs
    · simp at hs

/-- Other threads' statements do not move thread `w`. -/
theorem step_other {body : Op → D → List (D → D)} {m m' : M D Op} {a : Act Op} (hs : m.step body a = some m') {w : Nat} {t : Th D Op}
    (hw : m.th[w]? = some t) (hp : t.pc = .w5) (ha : ∀ i, a = .go i → i ≠ w) : m'.th[w]? = some t := by
  cases a with
  | go i =>
    have hi := ha i rfl
    simp only [M.step] at hs
    split at hs
    · rename_i t ht
      rcases go_cases hs with ⟨f, fs, hp, hf, rfl⟩ | ⟨l, pc', hst, _, rfl⟩ <;>
      · simp only [M.put]
        rw [List.getElem?_set_ne hi]; exact hw
    · simp at hs
  | _ i =>
    simp only [M.step] at hs
    split at hs
    · rename_i s ht
      split at hs
      · rename_i hq
        injection hs with hs; subst hs
        simp only [M.put]
        rw [List.getElem?_set_ne]
        · exact hw
        · rintro rfl
          rw [hw] at ht; injection ht with ht; subst ht
          rw [hp] at hq; exact absurd hq (by decide)
      · simp at hs
    · simp at hs

theorem Inv.gateRun {body : Op → D → List (D → D)} {m m' : M D Op} (as : List (Act Op)) (h : Inv m) {w : Nat} {t : Th D Op}
    (hw : m.th[w]? = some t) (hp : t.pc = .w5) (ha : ∀ i, Act.go i ∈ as → i ≠ w) (he : m.exec body as = some m') :
    m'.th[w]? = some t ∧ ∀ (j : Nat) (s s' : Th D Op), m.th[j]? = some s → m'.th[j]? = some s' → s'.admitted → s.admitted := by
  induction as generalizing m with
  | nil =>
    simp only [M.exec, Option.some.injEq] at he; subst he
    refine ⟨hw, fun j s s' h1 h2 h3 => ?_⟩
    rw [h1] at h2; injection h2 with h2; subst h2; exact h3
  | cons a as ih =>
    simp only [M.exec] at he
    split at he
    · rename_i m1 hs
      have hw1 := step_other hs hw hp (fun i hi => ha i (by simp [hi]))
      obtain ⟨k1, k2⟩ := ih (h.step a hs) hw1 (fun i hi => ha i (by simp [hi])) he
      refine ⟨k1, fun j s s' h1 h2 h3 => ?_⟩
      obtain ⟨s1, hs1⟩ := step_thread hs j h1
      have hc := pos_cnt hw
      rw [hp] at hc
      exact h.gate (by omega) hs h1 hs1 (k2 j s1 s' hs1 h2 h3)
    · simp at he

theorem Inv.share (body : Op → D → List (D → D)) {m : M D Op} (h : Inv m) (hw : ∀ t ∈ m.th, t.pc = .idle ∨ t.pc.reading = true)
    (hb : ∃ t ∈ m.th, t.pc ≠ .idle ∧ t.pc ≠ .rCS) :
    ∃ i t m', m.th[i]? = some t ∧ t.pc ≠ .rCS ∧ m.step body (.go i) = some m' := by
  obtain ⟨t, ht, hp, hp'⟩ := hb
  obtain ⟨j, hj⟩ := List.getElem?_of_mem ht
  obtain ⟨p, _, h1, h2, h3⟩ := h.acc.readersShare (fun p h1 h2 => by
      by_contra hc
      obtain ⟨i, s, hs, rfl⟩ := cnt_pos (m := m) (p := p) (by omega)
      rcases hw s (List.mem_of_getElem? hs) with h3 | h3
      · exact h2 h3
      · rw [h1] at h3; exact absurd h3 (by decide)) ⟨t.pc, hp, hp', pos_cnt hj⟩
  obtain ⟨i, s, hs, rfl⟩ := cnt_pos h2
  obtain ⟨m', hm'⟩ := go_of_stmt (body := body) hs h3
  exact ⟨i, s, m', hs, h1, hm'⟩

theorem Inv.quiet {m : M D Op} (h : Inv m) (hq : ∀ t ∈ m.th, t.pc = .idle) : m.lk = .fresh := by
  have ho : m.outers = 0 := total_zero (fun t ht => h.outer t ht (by rw [hq t ht]; rfl))
  have ha := h.acc
  rw [ho] at ha
  refine ha.quiet (fun q hq' => total_zero (fun t ht => ?_))
  simp [at_, hq t ht, hq'.symm]

/-! ### The buffer's writer operations -/
section
variable {K V : Type} [LT K] [DecidableLT K]

omit [LT K] [DecidableLT K] in
theorem run_dropMuts (n : Nat) (s : SD K V) : (dropMuts n s).foldl (fun x f => f x) s = (SD.dropLoop n s).1 := by
  induction n generalizing s with
  | zero => rfl
  | succ n ih =>
    unfold dropMuts SD.dropLoop
    cases hk : dqDel s.keys 0 with
    | error e => simp
    | ok ks =>
      have hks : s.keys.eraseIdx 0 = ks := by
        simp only [dqDel] at hk
        split at hk
        · injection hk
        · simp at hk
      simp only
      cases hi : dqDel s.items 0 with
      | error e => simp only [List.foldl_cons, List.foldl_nil, hks]
      | ok is =>
        have his : s.items.eraseIdx 0 = is := by
          simp only [dqDel] at hi
          split at hi
          · injection hi
          · simp at hi
        simp only [List.foldl_cons]
        rw [← ih, hks, his]

theorem runBody_buf : runBody (bufBody (K := K) (V := V)) = fun s op => bufAtomic op s := by
  funext s op
  cases op with
  | append v =>
    simp only [runBody, bufBody, bufAtomic]
    unfold SD.append
    dsimp only
    cases dqLast s.keys with
    | ok l => by_cases h : l < s.key v <;> simp [h]
    | error e => by_cases h : s.keys.length = 0 <;> simp [h]
  | drop n => exact run_dropMuts _ _

end
end S2P.RW
