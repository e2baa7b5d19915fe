import Verif.Props.LoopLive
/-
C151: a `for` loop that is left by `break`, `return` or an exception, and what comes after.
-/
namespace S2P
open Spec
variable {K V I : Type}
namespace SB
variable [LinearOrder K] [BEq V] {cfg : SBCfg K V} {s s' : SB K V I} {as : List (SBAct K V I)}

/-- **C151** leaving a loop has no effect but on the consumer that leaves it: the buffers, all readers with their cursors, what was received by whom and all
other consumers are as they were, and nothing is recorded of it. -/
theorem C151_no_effect (b i : Nat) (hs : s.step cfg (.rd b (.leave i)) = some s') :
    ∃ c c', s.view b = some c ∧ s'.view b = some c' ∧ c'.pc i = .idle ∧ (∀ j, j ≠ i → c'.pc j = c.pc j) ∧ c'.ch = c.ch ∧ c'.evts = c.evts ∧
      c'.stopped = c.stopped ∧ s'.log = s.log ∧ s'.thr = s.thr ∧ (∀ b', s'.items b' = s.items b') ∧ ∀ b', b' ≠ b → s'.view b' = s.view b' := by
  have hst := step_to hs
  clear hs
  cases hst with
  | rd _ _ x c1 ha hx hs =>
    have hst := Cons.step_stopped ha hs
    simp only [Cons.step] at hs
    split at hs
    swap
    · cases hs
    injection hs with hs
    refine ⟨_, c1, by simp only [view, hx, Option.map_some]; rfl, ?_, ?_, ?_, ?_, ?_, ?_, rfl, rfl, ?_, ?_⟩
    · simp only [view, setBuf, if_true, Option.map_some, Option.some.injEq]
      simp only at hst
      rw [← hst]
    · subst hs; simp [Cons.goto]
    · intro j hj; subst hs; simp [Cons.goto, hj]
    · subst hs; rfl
    · subst hs; rfl
    · subst hs; rfl
    · intro b'
      by_cases hb : b' = b
      · subst hb; subst hs; simp [items, setBuf, hx, Cons.goto]
      · simp [items, setBuf, hb]
    · intro b' hb
      simp only [view, setBuf, if_neg hb]

/-- **C151** and it can be left whenever its body runs or it sleeps (so can a blocking read that sleeps), and only then. -/
theorem C151_when (b i : Nat) (c : Cons K V) (hv : s.view b = some c) :
    (∃ s', s.step cfg (.rd b (.leave i)) = some s') ↔ c.pc i = .iterYield ∨ c.pc i = .iterSleep ∨ ∃ n p st, c.pc i = .blkSleep n p st := by
  obtain ⟨x, hx, hc⟩ := Option.map_eq_some_iff.1 hv
  have hstep : s.step cfg (.rd b (.leave i)) = if (c.pc i).canLeave then some (s.setBuf b { x with cons := c.goto i .idle }) else none := by
    simp only [step, CAct.isReaders, if_true, hx, Cons.step]
    have hpc : x.cons.pc = c.pc := by rw [← hc]
    rw [hc, hpc]
    by_cases hp : (c.pc i).canLeave = true <;> simp [hp]
  rw [hstep]
  cases hp : c.pc i <;> simp [CPC.canLeave]

/-- What a consumer has received is never taken back. -/
theorem received_mono {bs : List (SBAct K V I)} (h0 : SB.init.exec cfg as = some s) (he : s.exec cfg bs = some s') (b i : Nat) (c c' : Cons K V)
    (hv : s.view b = some c) (hv' : s'.view b = some c') : received c i <+: received c' i := by
  induction bs generalizing s as c with
  | nil =>
    simp only [SB.exec, Option.some.injEq] at he; subst he
    rw [hv] at hv'; injection hv' with h; rw [h]; exact List.prefix_refl _
  | cons a bs ih =>
    simp only [SB.exec] at he
    split at he
    swap
    · simp at he
    rename_i s1 hs
    obtain ⟨c1, hv1, hor⟩ := view_pc (good h0).inv hs b i c hv
    refine List.IsPrefix.trans ?_ (ih (as := as ++ [a]) (by rw [exec_append, h0]; simp only [Option.bind, SB.exec, hs]) he c1 hv1)
    rcases hor with ⟨-, hgo⟩ | ⟨-, -, hev, -⟩
    · exact step_received (a := .go i) (cfg := cfg.rdCfg) hgo i
    · simp only [received, hev]; exact List.prefix_refl _

variable [ReflBEq V]

/-- **C151** unbounded buffer: a consumer breaks off its loop, does what it likes with the reader (`ms`: more loops, also broken off, `next`, blocking reads), and
then begins a loop that is not broken off: within two steps of that per unread item it has received everything that was stored, and over all its loops each
item once and in order, none repeated or skipped at the break. Every schedule. -/
theorem C151_loop_again {ms bs : List (SBAct K V I)} {s1 s2 : SB K V I} (hm : cfg.maxlen = none) (hd : cfg.autoDrop = true) (b i : Nat)
    (hpk : (cfg.rdCfg i).peek = false) (hstr : (cfg.rdCfg i).strict = false)
    (hu : ∀ a ∈ as ++ .rd b (.leave i) :: ms ++ .rd b (.callIter i) :: bs, OneUser b i a)
    (h0 : SB.init.exec cfg as = some s) (h1 : s.exec cfg (.rd b (.leave i) :: ms) = some s1) (h2 : s1.exec cfg (.rd b (.callIter i) :: bs) = some s2)
    (c c1 : Cons K V) (hv : s.view b = some c) (hv1 : s1.view b = some c1) (hstay : ∀ a ∈ bs, isLeave b i a = false)
    (hgo : 2 * (unreadOf c1.ch i).length ≤ bs.countP (isGo b i)) :
    ∃ c2, s2.view b = some c2 ∧ received c i <+: received c1 i ∧ received c1 i <+: received c2 i ∧ storedIn b s1.log <+: received c2 i ∧
      received c2 i ++ unreadOf c2.ch i = storedIn b s2.log := by
  have h01 : SB.init.exec cfg (as ++ .rd b (.leave i) :: ms) = some s1 := by rw [exec_append, h0]; exact h1
  have hA := C63_unbounded hm hd b i hpk (fun a ha => hu a (by simp only [List.mem_append] at ha ⊢; exact .inl (.inl ha))) h0 c hv
  have hB := C63_unbounded hm hd b i hpk (fun a ha => hu a (List.mem_append_left _ ha)) h01 c1 hv1
  have h02 : SB.init.exec cfg (as ++ .rd b (.leave i) :: ms ++ .rd b (.callIter i) :: bs) = some s2 := by rw [exec_append, h01]; exact h2
  simp only [SB.exec] at h2
  split at h2
  swap
  · cases h2
  rename_i t ht
  obtain ⟨x, hx, hc1⟩ := Option.map_eq_some_iff.1 hv1
  have hpcx : x.cons.pc = c1.pc := by rw [← hc1]
  have hidle : c1.pc i = .idle := by
    by_contra hp
    simp only [step, CAct.isReaders, if_true, hx, Cons.step] at ht
    rw [hc1, hpcx, if_neg hp] at ht
    cases ht
  have hvt : t.view b = some (c1.goto i .iterRead) ∧ t.log = s1.log := by
    have hflag : c1.stopped = s1.flag x.evt := by rw [← hc1]
    simp only [step, CAct.isReaders, if_true, hx, Cons.step] at ht
    rw [hc1, hpcx, if_pos hidle] at ht
    injection ht with ht
    subst ht
    refine ⟨?_, rfl⟩
    simp only [view, setBuf, if_true, Option.map_some, Option.some.injEq]
    rw [← hc1]; rfl
  have h0t : SB.init.exec cfg (as ++ .rd b (.leave i) :: ms ++ [.rd b (.callIter i)]) = some t := by
    rw [exec_append, h01]; simp only [Option.bind, SB.exec, ht]
  obtain ⟨c2, hv2, hpre⟩ := C92_loop_gets_all hm hd b i hpk hstr (as := as ++ .rd b (.leave i) :: ms ++ [.rd b (.callIter i)]) (bs := bs)
    (fun a ha => hu a (by simpa using ha)) h0t _ hvt.1 hstay h2 (.inl ⟨by simp [Cons.goto, BetweenReads], hgo⟩)
  rw [hvt.2] at hpre
  have hC := C63_unbounded hm hd b i hpk hu h02 c2 hv2
  refine ⟨c2, hv2, ?_, ?_, hpre, hC⟩
  · exact received_mono h0 h1 b i c c1 hv hv1
  · exact (List.IsPrefix.trans ⟨_, hB⟩ hpre)
end SB
end S2P
