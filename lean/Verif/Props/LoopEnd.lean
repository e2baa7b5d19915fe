import Verif.Props.Drain
/-
C107: a `for` loop over a reader of a finished session ends.
-/
namespace S2P
open Spec
variable {K V I : Type}
namespace SB
variable [LinearOrder K] [BEq V] [ReflBEq V] {cfg : SBCfg K V} {s s' : SB K V I} {a : SBAct K V I} {as : List (SBAct K V I)}

/-- Steps a loop takes to its end when there is nothing to read. -/
def toEnd : CPC → Nat
  | .iterCheck | .iterCheck2 => 1
  | .iterRead => 2
  | .iterYield | .iterSleep => 3
  | _ => 0

/-- Once the thread of session `b` has ended (settled executions) nothing is added to its buffer. -/
theorem shrinks_step (h0 : SB.init.exec cfg as = some s) (hset : SB.init.Settled cfg as) (b : Nat) (hdone : s.thr b = .done)
    (hs : s.step cfg a = some s') : ∃ k, s'.items b = (s.items b).drop k := by
  have hg := good h0
  have h2 := (inv2_exec h0 hset).2
  cases data_step hg.inv hg.bufs hs b with
  | same h1 h2 => exact ⟨0, by simpa using h1⟩
  | stored t v h => have := h2.own t b v h; subst this; rw [hdone] at h; simp at h
  | dropped k ha hb h1 => exact ⟨k, h1⟩

theorem loop_end_core {bs : List (SBAct K V I)} (b i : Nat) (hpk : (cfg.rdCfg i).peek = false)
    (hstr : (cfg.rdCfg i).strict = false) (hu : ∀ a ∈ bs, OneUser b i a)
    (hstay : ∀ a ∈ bs, isLeave b i a = false) (h0 : SB.init.exec cfg as = some s) (hdone : s.thr b = .done)
    (c : Cons K V) (hv : s.view b = some c) (hpc : InLoop (c.pc i)) (he : s.exec cfg bs = some s') (hset : SB.init.Settled cfg (as ++ bs)) :
    s'.thr b = .done ∧ ∃ c' ys, s'.view b = some c' ∧ c'.evtsOf i = c.evtsOf i ++ ys ∧
      ((InLoop (c'.pc i) ∧ 2 * (unreadOf c'.ch i).length + toEnd (c'.pc i) + bs.countP (isGo b i) ≤ 2 * (unreadOf c.ch i).length + toEnd (c.pc i)) ∨
       .loopDone ∈ ys) := by
  induction bs using List.reverseRecOn generalizing s' with
  | nil =>
    simp only [SB.exec, Option.some.injEq] at he; subst he
    exact ⟨hdone, c, [], hv, by simp, .inl ⟨hpc, by simp⟩⟩
  | append_singleton bs a ih =>
    rw [exec_append] at he
    obtain ⟨s1, h1, he⟩ := Option.bind_eq_some_iff.1 he
    simp only [SB.exec] at he
    split at he
    swap
    · simp at he
    rename_i s2 hs
    injection he with he; subst he
    have h01 : SB.init.exec cfg (as ++ bs) = some s1 := by rw [exec_append, h0]; exact h1
    have hset1 : SB.init.Settled cfg (as ++ bs) := Settled.left (bs := [a]) (by rw [List.append_assoc]; exact hset)
    obtain ⟨i1, c1, ys, hv1, hys, hor⟩ := ih (fun a ha => hu a (by simp [ha])) (fun a ha => hstay a (by simp [ha])) h1 hset1
    have hg := good h01
    obtain ⟨k, f1⟩ := shrinks_step h01 hset1 b i1 hs
    obtain ⟨c2, hv2, hgo⟩ := view_pc hg.inv hs b i c1 hv1
    have h02 : SB.init.exec cfg (as ++ bs ++ [a]) = some s2 := by rw [exec_append, h01]; simp only [Option.bind, SB.exec, hs]
    have hr1 := view_reach h01 b c1 hv1
    have hr2 := view_reach h02 b c2 hv2
    have hstop : c1.stopped = true := by
      obtain ⟨ok, hok⟩ := done_closed h01 b i1
      exact C41_readers_see_stop h01 b ok hok c1 hv1
    refine ⟨JSB.done_stays hg.inv hs b i1, c2, ?_⟩
    rw [List.countP_append, List.countP_singleton]
    rcases hgo with ⟨hgt, hgo⟩ | ⟨hgf, hpc', hev, hcur⟩
    · rw [if_pos hgt]
      rcases hor with ⟨w1, w4⟩ | w1
      · cases hp : c1.pc i with
        | iterRead =>
          obtain ⟨-, -, k3, k4⟩ := iter_read_step hr1 i hstr hpk hp hgo
          rw [hp, show toEnd CPC.iterRead = 2 from rfl] at w4
          rcases k4 with ⟨k4, k5, k6⟩ | ⟨k4, k5, k6⟩
          · refine ⟨ys, hv2, by rw [k6, hys], .inl ⟨by rw [k5]; trivial, ?_⟩⟩
            rw [k5, k3, k4, show toEnd CPC.iterCheck = 1 from rfl]
            rw [k4] at w4
            simp at w4 ⊢
            omega
          · refine ⟨ys ++ [.yielded (chunkOf (cfg.rdCfg i).n (unreadOf c1.ch i))], hv2, by rw [k6, hys, List.append_assoc], .inl ⟨by rw [k5]; trivial, ?_⟩⟩
            rw [k5, k3, List.length_drop]
            have := List.length_pos_iff.2 k4
            simp only [show toEnd CPC.iterYield = 3 from rfl, chunkSize]
            omega
        | iterYield | iterSleep =>
          simp only [Cons.go, hp, Option.some.injEq] at hgo
          subst hgo
          rw [hp] at w4
          refine ⟨ys, hv2, hys, .inl ⟨by simp [Cons.goto, InLoop], ?_⟩⟩
          simp only [Cons.goto, if_true]
          simp only [show toEnd CPC.iterRead = 2 from rfl, show toEnd CPC.iterYield = 3 from rfl, show toEnd CPC.iterSleep = 3 from rfl] at w4 ⊢
          first | (simp only [unreadOf] at w4 ⊢; omega) | omega
        | iterCheck | iterCheck2 =>
          simp only [Cons.go, hp, hstop, if_true, Option.some.injEq] at hgo
          subst hgo
          have : ((c1.emit i .loopDone).goto i .idle).evtsOf i = (c1.emit i .loopDone).evtsOf i := rfl
          exact ⟨ys ++ [.loopDone], hv2, by rw [this, Cons.evtsOf_emit, if_pos rfl, hys, List.append_assoc], .inr (by simp)⟩
        | _ => rw [hp] at w1; exact w1.elim
      · rcases step_emits (a := .go i) (cfg := cfg.rdCfg) hgo with h | ⟨j, e', h, -⟩
        · exact ⟨ys, hv2, by simp only [Cons.evtsOf, h] at hys ⊢; exact hys, .inr w1⟩
        · have : c1.evtsOf i <+: c2.evtsOf i := by
            simp only [Cons.evtsOf, h, List.filter_append, List.map_append]
            exact List.prefix_append _ _
          obtain ⟨zs, hz⟩ := this
          exact ⟨ys ++ zs, hv2, by rw [← List.append_assoc, ← hys, hz], .inr (by simp [w1])⟩
    · rw [if_neg (by simp [hgf]), Nat.add_zero]
      have hcur := hcur (hu a (by simp))
      refine ⟨ys, hv2, by rw [hev, hys], ?_⟩
      have hitems : ∀ (s : SB K V I) c, s.view b = some c → s.items b = c.ch.buf.items := by
        intro s c hv
        obtain ⟨x, hx, rfl⟩ := Option.map_eq_some_iff.1 hv
        simp [items, hx]
      rcases hor with ⟨w1, w4⟩ | h
      · left
        have hp : c2.pc i = c1.pc i := by
          rcases hpc' with h | h | ⟨h, -⟩
          · rw [h] at w1; exact w1.elim
          · exact h
          · rw [hstay a (by simp)] at h; cases h
        rw [hp]
        refine ⟨w1, ?_⟩
        have hun : (unreadOf c2.ch i).length ≤ (unreadOf c1.ch i).length := by
          refine List.Sublist.length_le ?_
          simp only [unreadOf]
          rw [(swf_of_reach hr1).2.1, (swf_of_reach hr2).2.1, hcur, ← hitems _ _ hv2, f1, hitems _ _ hv1]
          exact (List.drop_sublist k _).filter _
        omega
      · exact .inr h

/-- **C107** once the source of session `b` has been closed (a `start()` found the threads of earlier sessions ended; any settings), a `for` loop over one of its
readers, wherever it is and if it is not broken off, ends within `2 * unread + 3` of its own steps, whatever other readers, sessions and manual drops do: at any
later time it has ended, or it has done fewer steps than that and can do the next one. -/
theorem C107_loop_ends {bs : List (SBAct K V I)} (b i : Nat) (hpk : (cfg.rdCfg i).peek = false) (hstr : (cfg.rdCfg i).strict = false)
    (h0 : SB.init.exec cfg as = some s) (ok : Bool) (hcl : Ev.closed b ok ∈ s.log) (he : s.exec cfg bs = some s')
    (hset : SB.init.Settled cfg (as ++ bs)) (hu : ∀ a ∈ bs, OneUser b i a)
    (hstay : ∀ a ∈ bs, isLeave b i a = false)
    (c : Cons K V) (hv : s.view b = some c) (hpc : InLoop (c.pc i)) :
    ∃ c' ys, s'.view b = some c' ∧ c'.evtsOf i = c.evtsOf i ++ ys ∧
      (.loopDone ∈ ys ∨
       (bs.countP (isGo b i) < 2 * (unreadOf c.ch i).length + 3 ∧ InLoop (c'.pc i) ∧ ∃ s2, s'.step cfg (.rd b (.go i)) = some s2)) := by
  obtain ⟨-, c', ys, h1, h2, h3⟩ := loop_end_core b i hpk hstr hu hstay h0 ((good h0).log.closed b ok hcl) c hv hpc he hset
  refine ⟨c', ys, h1, h2, h3.symm.imp_right fun ⟨h4, h5⟩ => ⟨?_, h4, rd_go_some h1 h4.ne_idle⟩⟩
  have : ∀ p, InLoop p → 1 ≤ toEnd p ∧ toEnd p ≤ 3 := by intro p hp; cases p <;> simp [InLoop, toEnd] at *
  have := this _ h4
  have h6 : toEnd (c.pc i) ≤ 3 := by cases c.pc i <;> simp [toEnd]
  omega

end SB
end S2P
