import Verif.Props.StartEnds
/-
C158: calls of `next(stream_buffer)`, `drop(n)`, `source_reader_info` and `stop()` come to an end.
-/
namespace S2P
open Spec
variable {K V I : Type}
namespace SB
variable [LinearOrder K] [BEq V] [ReflBEq V] {cfg : SBCfg K V}

/-- A number that own steps make smaller and other steps leave alone: it has become 0 somewhere, or fewer own steps than the number were done. -/
theorem rank_bounded {rank : SB K V I → Nat} {own : SBAct K V I → Bool}
    (hstep : ∀ s a s', s.step cfg a = some s' → 0 < rank s → (own a = true → rank s' < rank s) ∧ (own a = false → rank s' = rank s))
    {bs : List (SBAct K V I)} {s s' : SB K V I} (h : 0 < rank s) (he : s.exec cfg bs = some s') :
    (∃ bs1 bs2 u, bs = bs1 ++ bs2 ∧ s.exec cfg bs1 = some u ∧ rank u = 0 ∧ bs1.countP own ≤ rank s) ∨ (0 < rank s' ∧ bs.countP own + rank s' ≤ rank s) := by
  induction bs generalizing s with
  | nil => simp only [SB.exec, Option.some.injEq] at he; subst he; exact .inr ⟨h, by simp⟩
  | cons a bs ih =>
    simp only [SB.exec] at he
    split at he
    · rename_i s1 hs1
      obtain ⟨h1, h2⟩ := hstep _ _ _ hs1 h
      by_cases h0 : rank s1 = 0
      · refine .inl ⟨[a], bs, s1, rfl, by simp [SB.exec, hs1], h0, ?_⟩
        rw [List.countP_singleton]; split <;> omega
      · have hle : (if own a = true then 1 else 0) + rank s1 ≤ rank s := by
          cases ha : own a
          · have := h2 ha; simp; omega
          · have := h1 ha; simp; omega
        rcases ih (Nat.pos_of_ne_zero h0) he with ⟨b1, b2, u, rfl, hu, hn, hc⟩ | ⟨hp, hc⟩
        · exact .inl ⟨a :: b1, b2, u, rfl, by simp [SB.exec, hs1, hu], hn, by rw [List.countP_cons]; omega⟩
        · exact .inr ⟨hp, by rw [List.countP_cons]; omega⟩
    · simp at he

/-- How many statements a call of `next(stream_buffer)` / of `source_reader_info` / of `drop(n)` has before it. -/
def nextLeft (s : SB K V I) (c : Nat) : Nat := match s.nexts c with | .idle => 0 | .use => 1 | .store _ => 2 | .make => 3
def infoLeft (s : SB K V I) (c : Nat) : Nat := match s.infos c with | .idle => 0 | .again => 1 | .test _ => 2
def dropLeft (s : SB K V I) (c : Nat) : Nat := if s.drops c = none then 0 else 1

def _root_.S2P.SBAct.isNextGo (c : Nat) : SBAct K V I → Bool | .nextGo d => d == c | _ => false
def _root_.S2P.SBAct.isInfoGo (c : Nat) : SBAct K V I → Bool | .infoGo d => d == c | _ => false
def _root_.S2P.SBAct.isDropGo (c : Nat) : SBAct K V I → Bool | .dropGo d => d == c | _ => false

omit [ReflBEq V] in
theorem nextCall_step (c : Nat) (s : SB K V I) (a : SBAct K V I) (s' : SB K V I) (hs : s.step cfg a = some s') (h : 0 < s.nextLeft c) :
    (a.isNextGo c = true → s'.nextLeft c < s.nextLeft c) ∧ (a.isNextGo c = false → s'.nextLeft c = s.nextLeft c) := by
  have hst := step_to hs
  clear hs
  unfold nextLeft at *
  cases hst
  all_goals simp only [say, setThr, setBuf, setEvent, setNext, setDrop, setInfo, newSess] at *
  all_goals grind [SBAct.isNextGo]

omit [ReflBEq V] in
theorem infoCall_step (c : Nat) (s : SB K V I) (a : SBAct K V I) (s' : SB K V I) (hs : s.step cfg a = some s') (h : 0 < s.infoLeft c) :
    (a.isInfoGo c = true → s'.infoLeft c < s.infoLeft c) ∧ (a.isInfoGo c = false → s'.infoLeft c = s.infoLeft c) := by
  have hst := step_to hs
  clear hs
  unfold infoLeft at *
  cases hst
  all_goals simp only [say, setThr, setBuf, setEvent, setNext, setDrop, setInfo, newSess] at *
  all_goals grind [SBAct.isInfoGo]

omit [ReflBEq V] in
theorem dropCall_step (c : Nat) (s : SB K V I) (a : SBAct K V I) (s' : SB K V I) (hs : s.step cfg a = some s') (h : 0 < s.dropLeft c) :
    (a.isDropGo c = true → s'.dropLeft c < s.dropLeft c) ∧ (a.isDropGo c = false → s'.dropLeft c = s.dropLeft c) := by
  have hst := step_to hs
  clear hs
  unfold dropLeft at *
  cases hst
  all_goals simp only [say, setThr, setBuf, setEvent, setNext, setDrop, setInfo, newSess] at *
  all_goals grind [SBAct.isDropGo]

/-- **C158** These calls wait for nothing but, in the case of `next`, a `start()` in progress; `stop()` can always be called and always returns (or raises). -/
theorem C158_never_stuck {as : List (SBAct K V I)} {s : SB K V I} (he : SB.init.exec cfg as = some s) (c : Nat) :
    (s.nexts c ≠ .idle → s.start = none → (s.step cfg (.nextGo c)).isSome) ∧ (s.infos c ≠ .idle → (s.step cfg (.infoGo c)).isSome) ∧
    (s.drops c ≠ none → (s.step cfg (.dropGo c)).isSome) ∧ (s.step cfg .stop).isSome ∧ (s.stopping ≠ 0 → (s.step cfg .stopEnd).isSome) ∧
    (s.nexts c = .idle → (s.step cfg (.next c)).isSome) ∧ (s.infos c = .idle → (s.step cfg (.info c)).isSome) ∧
    ∀ n, s.drops c = none → (s.step cfg (.drop c n)).isSome := by
  have hi : s.Inv := exec_ind (P := fun s : SB K V I => s.Inv) (fun _ _ _ h hs => h.step hs) Inv.init he
  refine ⟨fun h h' => ?_, fun h => ?_, fun h => ?_, ?_, fun h => ?_, fun h => ?_, fun h => ?_, fun n h => ?_⟩
  · cases hn : s.nexts c with
    | idle => exact absurd hn h
    | make => simp only [step, hn, h', if_true]; split <;> rfl
    | store b => simp [step, hn]
    | use => simp only [step, hn]; split <;> rfl
  · cases hn : s.infos c with
    | idle => exact absurd hn h
    | test b =>
      obtain ⟨x, hx⟩ := Option.isSome_iff_exists.1 (hi.infos c b hn)
      simp only [step, hn, hx]; split <;> rfl
    | again =>
      simp only [step, hn]
      split
      · rfl
      · rename_i b hb
        obtain ⟨x, hx⟩ := Option.isSome_iff_exists.1 (hi.sb b hb).1
        simp [hx]
  · obtain ⟨⟨b, k⟩, hb⟩ := Option.ne_none_iff_exists'.1 h
    obtain ⟨x, hx⟩ := Option.isSome_iff_exists.1 (hi.drops c b k hb)
    simp [step, hb, hx]
  · simp only [step]; split <;> rfl
  · simp [step, h]
  · simp [step, h]
  · simp only [step, h, if_true]; split <;> rfl
  · simp only [step, h, if_true]; split
    · rfl
    · split <;> rfl

/-- **C158** and they end within 3, 2 and 1 statements of their own (after the first lookup), whatever else goes on in between. -/
theorem C158_bounded {as bs : List (SBAct K V I)} {s s' : SB K V I} (_h0 : SB.init.exec cfg as = some s) (he : s.exec cfg bs = some s') (c : Nat) :
    (s.nexts c ≠ .idle → (∃ bs1 bs2 u, bs = bs1 ++ bs2 ∧ s.exec cfg bs1 = some u ∧ u.nexts c = .idle ∧ bs1.countP (SBAct.isNextGo c) ≤ 3) ∨
      (s'.nexts c ≠ .idle ∧ bs.countP (SBAct.isNextGo c) < 3)) ∧
    (s.infos c ≠ .idle → (∃ bs1 bs2 u, bs = bs1 ++ bs2 ∧ s.exec cfg bs1 = some u ∧ u.infos c = .idle ∧ bs1.countP (SBAct.isInfoGo c) ≤ 2) ∨
      (s'.infos c ≠ .idle ∧ bs.countP (SBAct.isInfoGo c) < 2)) ∧
    (s.drops c ≠ none → (∃ bs1 bs2 u, bs = bs1 ++ bs2 ∧ s.exec cfg bs1 = some u ∧ u.drops c = none ∧ bs1.countP (SBAct.isDropGo c) ≤ 1) ∨
      (s'.drops c ≠ none ∧ bs.countP (SBAct.isDropGo c) < 1)) := by
  have n0 : ∀ u : SB K V I, u.nextLeft c = 0 ↔ u.nexts c = .idle := fun u => by unfold nextLeft; split <;> simp_all
  have i0 : ∀ u : SB K V I, u.infoLeft c = 0 ↔ u.infos c = .idle := fun u => by unfold infoLeft; split <;> simp_all
  have d0 : ∀ u : SB K V I, u.dropLeft c = 0 ↔ u.drops c = none := fun u => by unfold dropLeft; split <;> simp_all
  have n3 : s.nextLeft c ≤ 3 := by unfold nextLeft; split <;> omega
  have i2 : s.infoLeft c ≤ 2 := by unfold infoLeft; split <;> omega
  have d1 : s.dropLeft c ≤ 1 := by unfold dropLeft; split <;> omega
  refine ⟨fun h => ?_, fun h => ?_, fun h => ?_⟩
  · rcases rank_bounded (rank := fun u : SB K V I => u.nextLeft c) (nextCall_step c) (Nat.pos_of_ne_zero fun h' => h ((n0 s).1 h')) he with
      ⟨b1, b2, u, h1, h2, h3, h4⟩ | ⟨h1, h2⟩
    · exact .inl ⟨b1, b2, u, h1, h2, (n0 u).1 h3, by omega⟩
    · exact .inr ⟨fun h' => by have := (n0 s').2 h'; omega, by omega⟩
  · rcases rank_bounded (rank := fun u : SB K V I => u.infoLeft c) (infoCall_step c) (Nat.pos_of_ne_zero fun h' => h ((i0 s).1 h')) he with
      ⟨b1, b2, u, h1, h2, h3, h4⟩ | ⟨h1, h2⟩
    · exact .inl ⟨b1, b2, u, h1, h2, (i0 u).1 h3, by omega⟩
    · exact .inr ⟨fun h' => by have := (i0 s').2 h'; omega, by omega⟩
  · rcases rank_bounded (rank := fun u : SB K V I => u.dropLeft c) (dropCall_step c) (Nat.pos_of_ne_zero fun h' => h ((d0 s).1 h')) he with
      ⟨b1, b2, u, h1, h2, h3, h4⟩ | ⟨h1, h2⟩
    · exact .inl ⟨b1, b2, u, h1, h2, (d0 u).1 h3, by omega⟩
    · exact .inr ⟨fun h' => by have := (d0 s').2 h'; omega, by omega⟩

namespace Forever
variable {r : Forever I cfg}

omit [ReflBEq V] in
/-- A rank that own steps lower, and that are made again and again, reaches 0. -/
theorem rank_ends {rank : SB K V I → Nat} {own : SBAct K V I → Bool}
    (hstep : ∀ s a s', s.step cfg a = some s' → 0 < rank s → (own a = true → rank s' < rank s) ∧ (own a = false → rank s' = rank s))
    (k : Nat) (hf : (∀ j, k ≤ j → 0 < rank (r.st j)) → ∀ j, ∃ i, j ≤ i ∧ own (r.act i) = true) : ∃ j, k ≤ j ∧ rank (r.st j) = 0 := by
  by_contra hno
  have hpos : ∀ j, k ≤ j → 0 < rank (r.st j) := fun j hj => Nat.pos_of_ne_zero fun h => hno ⟨j, hj, h⟩
  have hmono : ∀ m, rank (r.st (k + m)) + (r.seg k m).countP own ≤ rank (r.st k) := by
    intro m
    induction m with
    | zero => simp [Run.seg]
    | succ m ih =>
      obtain ⟨h1, h2⟩ := hstep _ _ _ (r.next (k + m)) (hpos _ (by omega))
      rw [Run.seg_succ, List.countP_append, List.countP_singleton]
      show rank (r.st (k + m + 1)) + _ ≤ _
      cases ha : own (r.act (k + m))
      · have := h2 ha; simp; omega
      · have := h1 ha; simp; omega
  obtain ⟨m, hm⟩ := r.many (alive := fun _ => True) (p := own) (fun j _ => hf hpos j) k (fun _ _ => trivial) (rank (r.st k) + 1)
  have := hmono m
  omega

/-- **C158** Under a fair scheduler (strongly fair to the caller; fair to `start()`, whose `open()` and `info` return or raise) every call of `next(stream_buffer)`
gets to the read or raises, every `source_reader_info` and every `drop(n)` returns or raises. -/
theorem C158_ends (k c : Nat) (hs : r.Fair (fun s => s.start ≠ none) SBAct.ofStart) (hn : r.StrongFair (.nextGo c)) (hi : r.StrongFair (.infoGo c))
    (hd : r.StrongFair (.dropGo c)) :
    (∃ j, k ≤ j ∧ (r.st j).nexts c = .idle) ∧ (∃ j, k ≤ j ∧ (r.st j).infos c = .idle) ∧ ∃ j, k ≤ j ∧ (r.st j).drops c = none := by
  have n0 : ∀ u : SB K V I, u.nextLeft c = 0 ↔ u.nexts c = .idle := fun u => by unfold nextLeft; split <;> simp_all
  have i0 : ∀ u : SB K V I, u.infoLeft c = 0 ↔ u.infos c = .idle := fun u => by unfold infoLeft; split <;> simp_all
  have d0 : ∀ u : SB K V I, u.dropLeft c = 0 ↔ u.drops c = none := fun u => by unfold dropLeft; split <;> simp_all
  refine ⟨?_, ?_, ?_⟩
  · obtain ⟨j, hj, h⟩ := rank_ends (r := r) (rank := fun u : SB K V I => u.nextLeft c) (nextCall_step c) k fun hpos j => by
      obtain ⟨i, h1, h2⟩ := hn (fun j' => by
        obtain ⟨i, h1, h2, -⟩ := C157_ends (max k j') hs
        refine ⟨i, by omega, (C158_never_stuck (exec_to r i) c).1 (fun h' => ?_) h2⟩
        have := hpos i (by omega); have := (n0 (r.st i)).2 h'; omega) j
      exact ⟨i, h1, by rw [h2]; simp [SBAct.isNextGo]⟩
    exact ⟨j, hj, (n0 _).1 h⟩
  · obtain ⟨j, hj, h⟩ := rank_ends (r := r) (rank := fun u : SB K V I => u.infoLeft c) (infoCall_step c) k fun hpos j => by
      obtain ⟨i, h1, h2⟩ := hi (fun j' => by
        refine ⟨max k j', by omega, (C158_never_stuck (exec_to r _) c).2.1 (fun h' => ?_)⟩
        have := hpos (max k j') (by omega); have := (i0 (r.st (max k j'))).2 h'; omega) j
      exact ⟨i, h1, by rw [h2]; simp [SBAct.isInfoGo]⟩
    exact ⟨j, hj, (i0 _).1 h⟩
  · obtain ⟨j, hj, h⟩ := rank_ends (r := r) (rank := fun u : SB K V I => u.dropLeft c) (dropCall_step c) k fun hpos j => by
      obtain ⟨i, h1, h2⟩ := hd (fun j' => by
        refine ⟨max k j', by omega, (C158_never_stuck (exec_to r _) c).2.2.1 (fun h' => ?_)⟩
        have := hpos (max k j') (by omega); have := (d0 (r.st (max k j'))).2 h'; omega) j
      exact ⟨i, h1, by rw [h2]; simp [SBAct.isDropGo]⟩
    exact ⟨j, hj, (d0 _).1 h⟩

end Forever
end SB
end S2P
