import Verif.Model.NextReader
import Verif.Props.LoopLive
/-
`next(stream_buffer)` (Model/NextReader.lean): which steps of the stream buffer its steps are, and that the outcomes are those of the readers.
-/
namespace S2P
variable {K V I : Type}

namespace SB
variable [LT K] [DecidableLT K] [BEq V] {cfg : SBCfg K V} {s s' : SB K V I} {a : SBAct K V I}

/-- A consumer is moved by actions about its reader only. -/
theorem pc_away (hi : s.Inv) (hs : s.step cfg a = some s') (b i : Nat) (hno : ∀ a', a = .rd b a' → a'.reader? ≠ some i)
    {x x' : Sess K V I} (hx : s.buf b = some x) (hx' : s'.buf b = some x') : x'.cons.pc i = x.cons.pc i := by
  have hst := step_to hs
  clear hs
  cases hst with
  | rd b' a' y c ha hy hs =>
    by_cases hb : b = b'
    · subst hb
      have hxy : y = x := by rw [hx] at hy; injection hy with h; exact h.symm
      subst hxy
      simp only [setBuf, if_true, Option.some.injEq] at hx'
      subst hx'
      have hne := hno a' rfl
      cases a' with
      | go j =>
        have hj : j ≠ i := by simpa [CAct.reader?] using hne
        exact (Cons.go_frame hj hs).pc
      | call op => simp only [Cons.step, Option.some.injEq] at hs; subst hs; rfl
      | setStop => simp [CAct.isReaders] at ha
      | callNext j | callIter j | callRead j | leave j =>
        have hj : j ≠ i := by simpa [CAct.reader?] using hne
        simp only [Cons.step] at hs
        split at hs
        · injection hs with hs
          subst hs
          simp [Cons.goto, Ne.symm hj]
        · cases hs
    · simp only [setBuf, if_neg hb] at hx'
      rw [hx] at hx'; injection hx' with h; rw [h]
  | bufOk info e hp he =>
    have hne : b ≠ s.n - 1 := by
      intro h
      have := hi.ph
      rw [hp] at this
      simp only [PhaseOk] at this
      rw [h, this.2.2.2.1] at hx
      simp at hx
    simp only [say, setBuf, if_neg hne] at hx'
    rw [hx] at hx'; injection hx' with h; rw [h]
  | _ =>
    simp only [say, setThr, setBuf, setEvent, setNext, setDrop, setInfo] at hx'
    first
      | (rw [hx] at hx'; injection hx' with h; rw [h]; done)
      | (split at hx'
         · rename_i hb
           subst hb
           injection hx' with hx'
           subst hx'
           simp only [Cons.call]
           grind
         · rw [hx] at hx'; injection hx' with h; rw [h])

end SB

namespace NSB

section
variable [LT K] [DecidableLT K] [BEq V]

/-- The steps, one by one. -/
inductive NStep (cfg : SBCfg K V) (s : NSB K V I) : NAct K V I → NSB K V I → Prop
  | sb (a y) (hp : a.isPlain = true) (h : s.sb.step cfg a = some y) : NStep cfg s (.sb a) { s with sb := y }
  | next (c y) (h0 : s.calls c = .out) (h : s.sb.step cfg (.next c) = some y) : NStep cfg s (.next c) { s with sb := y }
  | call (c b r y) (h0 : s.calls c = .call b r) (h : s.sb.step cfg (.rd b (.callNext (nextRd r))) = some y) :
      NStep cfg s (.go c) (({ s with sb := y }).setCall c (.wait b r))
  | ans (c b r y e) (h0 : s.calls c = .wait b r) (h : s.sb.step cfg (.rd b (.go (nextRd r))) = some y) (hr : atRest y b (nextRd r) = true)
      (he : lastEvt y b = some e) : NStep cfg s (.go c) { ({ s with sb := y }).setCall c .out with res := s.res ++ [.got c b r e] }
  | busy (c b r y) (h0 : s.calls c = .wait b r) (h : s.sb.step cfg (.rd b (.go (nextRd r))) = some y)
      (hr : atRest y b (nextRd r) = true → lastEvt y b = none) : NStep cfg s (.go c) { s with sb := y }
  | mk (c y b) (h0 : s.calls c = .out) (hn : s.sb.nexts c = .make) (h : s.sb.step cfg (.nextGo c) = some y) (hy : y.nexts c = .store b) :
      NStep cfg s (.go c) { s with sb := y, made := s.made + 1, mine := fun j => if j = c then s.made else s.mine j }
  | mkFail (c y) (h0 : s.calls c = .out) (hn : s.sb.nexts c = .make) (h : s.sb.step cfg (.nextGo c) = some y) (hy : ∀ b, y.nexts c ≠ .store b) :
      NStep cfg s (.go c) { s with sb := y, res := s.res ++ [.failed c .streamNotStarted] }
  | store (c y b) (h0 : s.calls c = .out) (hn : s.sb.nexts c = .store b) (h : s.sb.step cfg (.nextGo c) = some y) :
      NStep cfg s (.go c) { s with sb := y, cur := s.mine c }
  | use (c y b) (h0 : s.calls c = .out) (hn : s.sb.nexts c = .use) (h : s.sb.step cfg (.nextGo c) = some y) (hb : s.sb.nextReader = some b) :
      NStep cfg s (.go c) (({ s with sb := y }).setCall c (.call b s.cur))
  | useFail (c y) (h0 : s.calls c = .out) (hn : s.sb.nexts c = .use) (h : s.sb.step cfg (.nextGo c) = some y) (hb : s.sb.nextReader = none) :
      NStep cfg s (.go c) { s with sb := y, res := s.res ++ [.failed c .typeError] }

variable {cfg : SBCfg K V} {s s' : NSB K V I} {a : NAct K V I} {as : List (NAct K V I)}

theorem step_to (hs : s.step cfg a = some s') : NStep cfg s a s' := by
  cases a with
  | sb a =>
    simp only [step] at hs
    split at hs
    · rename_i hp
      obtain ⟨y, h, rfl⟩ := Option.map_eq_some_iff.1 hs
      exact .sb a y hp h
    · cases hs
  | next c =>
    simp only [step] at hs
    split at hs
    · rename_i hp
      obtain ⟨y, h, rfl⟩ := Option.map_eq_some_iff.1 hs
      exact .next c y hp h
    · cases hs
  | go c =>
    simp only [step, go] at hs
    cases hc : s.calls c with
    | call b r =>
      rw [hc] at hs
      obtain ⟨y, h, rfl⟩ := Option.map_eq_some_iff.1 hs
      exact .call c b r y hc h
    | wait b r =>
      rw [hc] at hs
      simp only at hs
      cases h : s.sb.step cfg (.rd b (.go (nextRd r))) with
      | none => rw [h] at hs; cases hs
      | some y =>
        rw [h] at hs
        simp only at hs
        cases h1 : atRest y b (nextRd r) <;> cases h2 : lastEvt y b <;> rw [h1, h2] at hs <;> simp only [Option.some.injEq] at hs <;> subst hs
        · exact .busy c b r y hc h (by simp [h1])
        · exact .busy c b r y hc h (by simp [h1])
        · exact .busy c b r y hc h (by simp [h2])
        · exact .ans c b r y _ hc h h1 h2
    | out =>
      rw [hc] at hs
      simp only at hs
      cases h : s.sb.step cfg (.nextGo c) with
      | none => rw [h] at hs; cases hs
      | some y =>
        rw [h] at hs
        simp only at hs
        cases hn : s.sb.nexts c with
        | idle => simp [SB.step, hn] at h
        | make =>
          rw [hn] at hs
          simp only at hs
          cases hy : y.nexts c <;> rw [hy] at hs <;> simp only [Option.some.injEq] at hs <;> subst hs
          · exact .mkFail c y hc hn h (by simp [hy])
          · exact .mkFail c y hc hn h (by simp [hy])
          · exact .mk c y _ hc hn h hy
          · exact .mkFail c y hc hn h (by simp [hy])
        | store b =>
          rw [hn] at hs
          simp only [Option.some.injEq] at hs
          subst hs
          exact .store c y b hc hn h
        | use =>
          rw [hn] at hs
          simp only at hs
          cases hb : s.sb.nextReader <;> rw [hb] at hs <;> simp only [Option.some.injEq] at hs <;> subst hs
          · exact .useFail c y hc hn h hb
          · exact .use c y _ hc hn h hb

theorem exec_append (as bs : List (NAct K V I)) (s : NSB K V I) : s.exec cfg (as ++ bs) = (s.exec cfg as).bind (·.exec cfg bs) := by
  induction as generalizing s with
  | nil => rfl
  | cons a as ih =>
    simp only [List.cons_append, exec]
    cases s.step cfg a with
    | none => rfl
    | some t => exact ih t

theorem exec_ind {P : NSB K V I → Prop} (hstep : ∀ s a s', a ∈ as → P s → s.step cfg a = some s' → P s') (h0 : P s) (he : s.exec cfg as = some s') : P s' := by
  induction as generalizing s with
  | nil => simp only [exec, Option.some.injEq] at he; subst he; exact h0
  | cons a as ih =>
    simp only [exec] at he
    split at he
    · rename_i t ht
      exact ih (fun s b s' hb => hstep s b s' (by simp [hb])) (hstep s a t (by simp) h0 ht) he
    · cases he

/-- Which step of the stream buffer a step is. -/
theorem step_act (hs : s.step cfg a = some s') : ∃ x, s.sb.step cfg x = some s'.sb ∧ (∀ b r, SB.OneUser b (nextRd r) x) ∧
    (∀ b r, SB.isGo b (nextRd r) x = true ↔ ∃ c, a = .go c ∧ s.calls c = .wait b r) := by
  have odd : ∀ (i r : Nat), (i % 2 == 0) = true → i ≠ nextRd r := by
    intro i r h; simp only [beq_iff_eq] at h; unfold nextRd; omega
  have hst := step_to hs
  cases hst with
  | sb x y hp h =>
    refine ⟨x, h, fun b r => ?_, fun b r => ?_⟩
    · cases x with
      | rd b' a' =>
        intro _
        cases a' with
        | call op =>
          cases op with
          | rd i o => exact odd i r hp
          | _ => trivial
        | callRead i n p st => intro hi; exact absurd hi (odd i r hp)
        | _ => trivial
      | attach b' i j => simp only [SBAct.isPlain, Bool.and_eq_true] at hp; exact odd j r hp.2
      | _ => trivial
    · simp only [reduceCtorEq, false_and, exists_false, iff_false]
      cases x with
      | rd b' a' =>
        cases a' with
        | go i =>
          have := odd i r hp
          simp only [SB.isGo]
          grind
        | _ => simp [SB.isGo]
      | _ => simp [SB.isGo]
  | next c y h0 h => exact ⟨_, h, fun _ _ => trivial, by simp [SB.isGo]⟩
  | call c b r y h0 h =>
    refine ⟨_, h, fun _ _ _ => trivial, fun b' r' => ?_⟩
    simp [SB.isGo, h0]
  | ans c b r y e h0 h _ _ | busy c b r y h0 h _ =>
    refine ⟨_, h, fun _ _ _ => trivial, fun b' r' => ?_⟩
    simp only [SB.isGo, nextRd]
    grind
  | mk c y b h0 hn h _ | mkFail c y h0 hn h _ | store c y b h0 hn h | use c y b h0 hn h _ | useFail c y h0 hn h _ =>
    refine ⟨_, h, fun _ _ => trivial, fun b' r' => ?_⟩
    simp [SB.isGo, h0]

/-- The execution of the stream buffer behind an execution. -/
theorem exec_sb (he : s.exec cfg as = some s') : ∃ bs, s.sb.exec cfg bs = some s'.sb ∧ ∀ a ∈ bs, ∀ b r, SB.OneUser b (nextRd r) a := by
  induction as generalizing s with
  | nil => simp only [exec, Option.some.injEq] at he; subst he; exact ⟨[], rfl, by simp⟩
  | cons a as ih =>
    simp only [exec] at he
    split at he
    · rename_i t ht
      obtain ⟨x, hx, hu, -⟩ := step_act ht
      obtain ⟨bs, hb, hbs⟩ := ih he
      refine ⟨x :: bs, by simp only [SB.exec, hx]; exact hb, ?_⟩
      simp only [List.mem_cons, forall_eq_or_imp]
      exact ⟨hu, hbs⟩
    · cases he


/-- Readers made by `next(stream_buffer)` are only used there. -/
def PcOk (p : CPC) : Prop := p = .idle ∨ p = .nextRead ∨ p = .nextCheck

/-- The outcomes are those of the readers, session `b`, reader `r`. -/
structure Fits (x : SB K V I) (l : List (NEv V)) (b r : Nat) : Prop where
  pc : ∀ c, x.view b = some c → PcOk (c.pc (nextRd r)) ∧ c.evtsOf (nextRd r) = via b r l
  no : x.view b = none → via b r l = []

end

section
variable [LinearOrder K] [BEq V] {cfg : SBCfg K V} {s s' : NSB K V I} {a : NAct K V I} {as : List (NAct K V I)}

theorem via_append (b r : Nat) (l l' : List (NEv V)) : via b r (l ++ l') = via b r l ++ via b r l' := by simp [via]

theorem fits_keep {x x' : SB K V I} {l : List (NEv V)} {b r : Nat} (hi : x.Inv) (h : Fits x l b r) {a : SBAct K V I} (hs : x.step cfg a = some x')
    (hu : SB.OneUser b (nextRd r) a) (hno : ∀ a', a = .rd b a' → a'.reader? ≠ some (nextRd r)) : Fits x' l b r := by
  constructor
  · intro c' hv'
    cases hv : x.view b with
    | none =>
      have hn := h.no hv
      cases SB.view_step' hi b (nextRd r) hu hs c' hv' with
      | same c h1 _ => rw [hv] at h1; cases h1
      | step c _ _ h1 _ _ _ _ => rw [hv] at h1; cases h1
      | new _ f _ => exact ⟨.inl rfl, by rw [hn]; rfl⟩
    | some c =>
      obtain ⟨h1, h2⟩ := h.pc c hv
      obtain ⟨c2, hv2, hor⟩ := SB.view_pc hi hs b (nextRd r) c hv
      rw [hv'] at hv2; injection hv2 with hv2; subst hv2
      obtain ⟨y, hy, rfl⟩ := Option.map_eq_some_iff.1 hv
      obtain ⟨y', hy', rfl⟩ := Option.map_eq_some_iff.1 hv'
      have hpc := SB.pc_away hi hs b (nextRd r) hno hy hy'
      refine ⟨by simp only at hpc h1 ⊢; rw [hpc]; exact h1, ?_⟩
      rcases hor with ⟨hgo, -⟩ | ⟨-, -, hev, -⟩
      · exfalso
        cases a with
        | rd b' a' =>
          cases a' with
          | go j =>
            simp only [SB.isGo, Bool.and_eq_true, decide_eq_true_eq] at hgo
            exact hno (.go j) (by rw [hgo.1]) (by rw [hgo.2]; rfl)
          | _ => simp [SB.isGo] at hgo
        | _ => simp [SB.isGo] at hgo
      · rw [hev]; exact h2
  · intro hv'
    cases hv : x.view b with
    | none => exact h.no hv
    | some c =>
      obtain ⟨c2, hv2, -⟩ := SB.view_pc hi hs b (nextRd r) c hv
      rw [hv'] at hv2; cases hv2

/-- A step of `next(reader)`: it either emits one answer and is over, or goes on and emits nothing. -/
theorem go_next {c c' : Cons K V} {i : Nat} (hp : PcOk (c.pc i)) (h : c.go i = some c') :
    (c'.pc i = .idle ∧ ∃ e, c'.evts = c.evts ++ [(i, e)] ∧ c'.evtsOf i = c.evtsOf i ++ [e]) ∨
    (c'.pc i = .nextCheck ∧ c'.evtsOf i = c.evtsOf i ∧ c.pc i = .nextRead) := by
  rcases hp with hp | hp | hp <;> simp only [Cons.go, hp] at h
  · cases h
  · split at h <;> (rename_i hc; rw [Cons.call] at hc; injection hc with h1 h2; subst h1; injection h with h; subst h)
    · exact .inl ⟨by simp [Cons.goto], _, rfl, by simp [Cons.goto, Cons.emit, Cons.evtsOf]⟩
    · exact .inr ⟨by simp [Cons.goto], rfl, hp⟩
    · exact .inl ⟨by simp [Cons.goto], _, rfl, by simp [Cons.goto, Cons.emit, Cons.evtsOf]⟩
  · split at h <;> (injection h with h; subst h)
    · exact .inl ⟨by simp [Cons.goto], _, rfl, by simp [Cons.goto, Cons.emit, Cons.evtsOf]⟩
    · exact .inl ⟨by simp [Cons.goto], _, rfl, by simp [Cons.goto, Cons.emit, Cons.evtsOf]⟩

theorem nextRd_inj {r r' : Nat} (h : nextRd r = nextRd r') : r = r' := by unfold nextRd at h; omega

theorem fits_step (hi : s.sb.Inv) (b r : Nat) (h : Fits s.sb s.res b r) (hs : s.step cfg a = some s') : Fits s'.sb s'.res b r := by
  have hst := step_to hs
  have odd : ∀ (i r : Nat), (i % 2 == 0) = true → i ≠ nextRd r := by
    intro i r h; simp only [beq_iff_eq] at h; unfold nextRd; omega
  clear hs
  cases hst with
  | sb x y hp hx =>
    refine fits_keep hi h hx ?_ ?_
    · cases x with
      | rd b' a' =>
        intro _
        cases a' with
        | call op => cases op with
          | rd i o => exact odd i r hp
          | _ => trivial
        | callRead i n p st => intro hi; exact absurd hi (odd i r hp)
        | _ => trivial
      | attach b' i j => simp only [SBAct.isPlain, Bool.and_eq_true] at hp; exact odd j r hp.2
      | _ => trivial
    · rintro a' rfl hr
      simp only [SBAct.isPlain, hr] at hp
      exact odd _ r hp rfl
  | next c y h0 hx => exact fits_keep hi h hx trivial (by simp)
  | mk c y b' h0 hn hx _ | store c y b' h0 hn hx | use c y b' h0 hn hx _ => exact fits_keep hi h hx trivial (by simp)
  | mkFail c y h0 hn hx _ | useFail c y h0 hn hx _ =>
    have := fits_keep hi h hx trivial (by simp)
    constructor
    · intro c' hv; rw [via_append]; simpa [via] using this.pc c' hv
    · intro hv; rw [via_append]; simpa [via] using this.no hv
  | call c b' r' y h0 hx =>
    by_cases hbr : b' = b ∧ r' = r
    · obtain ⟨rfl, rfl⟩ := hbr
      constructor
      · intro c' hv'
        cases hv : s.sb.view b' with
        | none =>
          simp only [SB.step, CAct.isReaders, if_true] at hx
          cases hb : s.sb.buf b' with
          | none => rw [hb] at hx; cases hx
          | some z => simp [SB.view, hb] at hv
        | some k =>
          obtain ⟨h1, h2⟩ := h.pc k hv
          simp only [SB.step, CAct.isReaders, if_true] at hx
          obtain ⟨z, hz, rfl⟩ := Option.map_eq_some_iff.1 hv
          rw [hz] at hx
          simp only [Cons.step] at hx
          split at hx
          · rename_i k' hk
            split at hk
            · injection hk with hk; subst hk
              injection hx with hx; subst hx
              simp only [setCall, SB.view, SB.setBuf, if_true, Option.map_some, Option.some.injEq] at hv'
              subst hv'
              exact ⟨.inr (.inl (by simp [Cons.goto])), h2⟩
            · cases hk
          · cases hx
      · intro hv'
        cases hv : s.sb.view b' with
        | none => exact h.no hv
        | some c =>
          obtain ⟨c2, hv2, -⟩ := SB.view_pc hi hx b' (nextRd r') c hv
          simp only [setCall] at hv'
          rw [hv'] at hv2; cases hv2
    · refine fits_keep hi h hx (fun _ => trivial) ?_
      rintro a' ha hr
      injection ha with h1 h2
      subst h2
      simp only [CAct.reader?, Option.some.injEq] at hr
      exact hbr ⟨h1, nextRd_inj hr⟩
  | ans c b' r' y e h0 hx hrest he =>
    by_cases hbr : b' = b ∧ r' = r
    · obtain ⟨rfl, rfl⟩ := hbr
      cases hv : s.sb.view b' with
      | none =>
        simp only [SB.step, CAct.isReaders, if_true] at hx
        cases hb : s.sb.buf b' with
        | none => rw [hb] at hx; cases hx
        | some z => simp [SB.view, hb] at hv
      | some k =>
        obtain ⟨h1, h2⟩ := h.pc k hv
        obtain ⟨k2, hk2, hor⟩ := SB.view_pc hi hx b' (nextRd r') k hv
        simp only [SB.isGo, decide_true, Bool.and_self, true_and, Bool.true_eq_false, false_and, or_false] at hor
        have hrest' : k2.pc (nextRd r') = .idle := by
          obtain ⟨z, hz, rfl⟩ := Option.map_eq_some_iff.1 hk2
          simpa [atRest, hz] using hrest
        have hlast : (k2.evts.getLast?).map (·.2) = some e := by
          obtain ⟨z, hz, rfl⟩ := Option.map_eq_some_iff.1 hk2
          simpa [lastEvt, hz] using he
        constructor
        · intro c' hv'
          simp only [setCall] at hv'
          rw [hk2] at hv'; injection hv' with hv'; subst hv'
          refine ⟨.inl hrest', ?_⟩
          rcases go_next h1 hor with ⟨-, e', g1, g2⟩ | ⟨g1, -⟩
          · rw [g1] at hlast
            simp only [List.getLast?_append, List.getLast?_singleton, Option.some_or, Option.map_some, Option.some.injEq] at hlast
            rw [g2, h2, via_append, ← hlast]
            simp [via]
          · rw [hrest'] at g1; cases g1
        · intro hv'
          simp only [setCall] at hv'
          rw [hk2] at hv'; cases hv'
    · have := fits_keep hi h hx (fun _ => trivial) (by
        rintro a' ha hr
        injection ha with h1 h2
        subst h2
        simp only [CAct.reader?, Option.some.injEq] at hr
        exact hbr ⟨h1, nextRd_inj hr⟩)
      have hz : via b r [NEv.got c b' r' e] = [] := by simp [via, hbr]
      constructor
      · intro c' hv; rw [via_append, hz, List.append_nil]; exact this.pc c' hv
      · intro hv; rw [via_append, hz, List.append_nil]; exact this.no hv
  | busy c b' r' y h0 hx hrest =>
    by_cases hbr : b' = b ∧ r' = r
    · obtain ⟨rfl, rfl⟩ := hbr
      cases hv : s.sb.view b' with
      | none =>
        simp only [SB.step, CAct.isReaders, if_true] at hx
        cases hb : s.sb.buf b' with
        | none => rw [hb] at hx; cases hx
        | some z => simp [SB.view, hb] at hv
      | some k =>
        obtain ⟨h1, h2⟩ := h.pc k hv
        obtain ⟨k2, hk2, hor⟩ := SB.view_pc hi hx b' (nextRd r') k hv
        simp only [SB.isGo, decide_true, Bool.and_self, true_and, Bool.true_eq_false, false_and, or_false] at hor
        constructor
        · intro c' hv'
          rw [hk2] at hv'; injection hv' with hv'; subst hv'
          rcases go_next h1 hor with ⟨g0, e', g1, g2⟩ | ⟨g1, g2, -⟩
          · exfalso
            obtain ⟨z, hz, rfl⟩ := Option.map_eq_some_iff.1 hk2
            have := hrest (by simpa [atRest, hz] using g0)
            simp only at g1
            simp [lastEvt, hz, g1] at this
          · exact ⟨.inr (.inr g1), by rw [g2]; exact h2⟩
        · intro hv'
          rw [hk2] at hv'; cases hv'
    · refine fits_keep hi h hx (fun _ => trivial) ?_
      rintro a' ha hr
      injection ha with h1 h2
      subst h2
      simp only [CAct.reader?, Option.some.injEq] at hr
      exact hbr ⟨h1, nextRd_inj hr⟩

/-- The answers `next(stream_buffer)` passed on are those its readers gave. -/
theorem fits (he : (NSB.init : NSB K V I).exec cfg as = some s) (b r : Nat) : Fits s.sb s.res b r := by
  have : s.sb.Inv ∧ Fits s.sb s.res b r := by
    refine exec_ind (P := fun s => s.sb.Inv ∧ Fits s.sb s.res b r) ?_ ⟨SB.Inv.init, ⟨by simp [init, SB.init, SB.view], fun _ => rfl⟩⟩ he
    rintro s a s' - ⟨h1, h2⟩ hs
    obtain ⟨x, hx, -, -⟩ := step_act hs
    exact ⟨h1.step hx, fits_step h1 b r h2 hs⟩
  exact this.2
end
end NSB
end S2P
