import Verif.Props.Served
import Verif.Props.Careful
import Verif.Props.JoinLive
/-
C98: after `join()` a `for` loop hands out exactly what is unread, and ends.
-/
namespace S2P
open Spec
variable {K V I : Type}
namespace SB
variable [LinearOrder K] [BEq V] [ReflBEq V] {cfg : SBCfg K V} {s s' : SB K V I} {a : SBAct K V I} {as : List (SBAct K V I)}

/-- Once the thread of session `b` has ended (settled executions, `auto_drop=True`) nothing changes its buffer. -/
theorem frozen_step (hd : cfg.autoDrop = true) (h0 : SB.init.exec cfg as = some s) (hset : SB.init.Settled cfg as) (b : Nat) (hdone : s.thr b = .done)
    (hs : s.step cfg a = some s') : s'.items b = s.items b ∧ storedIn b s'.log = storedIn b s.log := by
  have hg := good h0
  have h2 := (inv2_exec h0 hset).2
  cases data_step hg.inv hg.bufs hs b with
  | same h1 h2 => exact ⟨h1, h2⟩
  | stored t v h => have := h2.own t b v h; subst this; rw [hdone] at h; simp at h
  | dropped k ha => rw [hd] at ha; simp at ha

theorem drain_core {bs : List (SBAct K V I)} (hd : cfg.autoDrop = true) (b i : Nat) (hpk : (cfg.rdCfg i).peek = false)
    (hstr : (cfg.rdCfg i).strict = false) (hu : ∀ a ∈ bs, OneUser b i a)
    (hstay : ∀ a ∈ bs, isLeave b i a = false) (h0 : SB.init.exec cfg as = some s) (hdone : s.thr b = .done)
    (c : Cons K V) (hv : s.view b = some c) (hpc : BetweenReads (c.pc i)) (he : s.exec cfg bs = some s') (hset : SB.init.Settled cfg (as ++ bs)) :
    s'.thr b = .done ∧ s'.items b = s.items b ∧ storedIn b s'.log = storedIn b s.log ∧ ∃ c', s'.view b = some c' ∧
      ((BetweenReads (c'.pc i) ∧ (∃ ys, c'.evtsOf i = c.evtsOf i ++ ys ∧ ys.flatMap CEvt.items ++ unreadOf c'.ch i = unreadOf c.ch i) ∧
          2 * (unreadOf c'.ch i).length + (left (c'.pc i)) + bs.countP (isGo b i) ≤ 2 * (unreadOf c.ch i).length + left (c.pc i)) ∨
       (c'.pc i = .iterCheck ∧ (∃ ys, c'.evtsOf i = c.evtsOf i ++ ys ∧ ys.flatMap CEvt.items = unreadOf c.ch i) ∧
          bs.countP (isGo b i) ≤ 2 * (unreadOf c.ch i).length + left (c.pc i)) ∨
       ∃ ys, c.evtsOf i ++ ys ++ [.loopDone] <+: c'.evtsOf i ∧ ys.flatMap CEvt.items = unreadOf c.ch i) := by
  induction bs using List.reverseRecOn generalizing s' with
  | nil =>
    simp only [SB.exec, Option.some.injEq] at he; subst he
    exact ⟨hdone, rfl, rfl, c, hv, .inl ⟨hpc, ⟨[], by simp, by simp⟩, by simp⟩⟩
  | append_singleton bs a ih =>
    rw [exec_append] at he
    obtain ⟨s1, h1, he⟩ := Option.bind_eq_some_iff.1 he
    simp only [SB.exec] at he
    split at he
    swap
    · simp at he
    rename_i s2 hs
    injection he with he; subst he
    have h01 : SB.init.exec cfg (as ++ bs) = some s1 := by rw [exec_append, h0]; exact h1
    have hset1 : SB.init.Settled cfg (as ++ bs) := Settled.left (bs := [a]) (by rw [List.append_assoc]; exact hset)
    obtain ⟨i1, i2, i3, c1, hv1, hor⟩ := ih (fun a ha => hu a (by simp [ha])) (fun a ha => hstay a (by simp [ha])) h1 hset1
    have hg := good h01
    obtain ⟨f1, f2⟩ := frozen_step hd h01 hset1 b i1 hs
    obtain ⟨c2, hv2, hgo⟩ := view_pc hg.inv hs b i c1 hv1
    have h02 : SB.init.exec cfg (as ++ bs ++ [a]) = some s2 := by rw [exec_append, h01]; simp only [Option.bind, SB.exec, hs]
    have hr1 := view_reach h01 b c1 hv1
    have hr2 := view_reach h02 b c2 hv2
    have hstop : c1.stopped = true := by
      obtain ⟨ok, hok⟩ := done_closed h01 b i1
      exact C41_readers_see_stop h01 b ok hok c1 hv1
    refine ⟨JSB.done_stays hg.inv hs b i1, f1.trans i2, f2.trans i3, c2, hv2, ?_⟩
    rw [List.countP_append, List.countP_singleton]
    rcases hgo with ⟨hgt, hgo⟩ | ⟨hgf, hpc', hev, hcur⟩
    · rw [if_pos hgt]
      rcases hor with ⟨w1, ⟨ys, w2, w3⟩, w4⟩ | ⟨w1, ⟨ys, w2, w3⟩, w4⟩ | ⟨ys, w1, w2⟩
      · cases hp : c1.pc i with
        | iterRead =>
          obtain ⟨-, -, k3, k4⟩ := iter_read_step hr1 i hstr hpk hp hgo
          rw [hp, show left CPC.iterRead = 1 from rfl] at w4
          rcases k4 with ⟨k4, k5, k6⟩ | ⟨k4, k5, k6⟩
          · right; left
            rw [k4, List.append_nil] at w3
            exact ⟨k5, ⟨ys, by rw [k6, w2], w3⟩, by rw [k4] at w4; simp at w4; omega⟩
          · left
            refine ⟨by rw [k5]; trivial, ⟨ys ++ [.yielded (chunkOf (cfg.rdCfg i).n (unreadOf c1.ch i))], by rw [k6, w2, List.append_assoc], ?_⟩, ?_⟩
            · rw [List.flatMap_append, ← w3, k3]
              simp [CEvt.items, chunkOf_items]
            · rw [k5, k3, List.length_drop]
              have := List.length_pos_iff.2 k4
              simp only [show left CPC.iterYield = 2 from rfl, chunkSize]
              omega
        | iterYield | iterSleep =>
          simp only [Cons.go, hp, Option.some.injEq] at hgo
          subst hgo
          rw [hp] at w4
          left
          refine ⟨by simp [Cons.goto, BetweenReads], ⟨ys, w2, w3⟩, ?_⟩
          simp only [Cons.goto, if_true]
          simp only [show left CPC.iterRead = 1 from rfl, show left CPC.iterYield = 2 from rfl, show left CPC.iterSleep = 2 from rfl] at w4 ⊢
          first | (simp only [unreadOf] at w4 ⊢; omega) | omega
        | _ => rw [hp] at w1; exact w1.elim
      · simp only [Cons.go, w1, hstop, if_true, Option.some.injEq] at hgo
        subst hgo
        right; right
        refine ⟨ys, ?_, w3⟩
        have : ((c1.emit i .loopDone).goto i .idle).evtsOf i = (c1.emit i .loopDone).evtsOf i := rfl
        rw [this, Cons.evtsOf_emit, if_pos rfl, w2]
        exact List.prefix_refl _
      · right; right
        refine ⟨ys, w1.trans ?_, w2⟩
        rcases step_emits (a := .go i) (cfg := cfg.rdCfg) hgo with h | ⟨j, e', h, -⟩
        · rw [show c2.evtsOf i = c1.evtsOf i by simp only [Cons.evtsOf, h]]; exact List.prefix_refl _
        · simp only [Cons.evtsOf, h, List.filter_append, List.map_append]
          exact List.prefix_append _ _
    · rw [if_neg (by simp [hgf]), Nat.add_zero]
      have hcur := hcur (hu a (by simp))
      have hitems : ∀ (s : SB K V I) c, s.view b = some c → s.items b = c.ch.buf.items := by
        intro s c hv
        obtain ⟨x, hx, rfl⟩ := Option.map_eq_some_iff.1 hv
        simp [items, hx]
      have hun : unreadOf c2.ch i = unreadOf c1.ch i := by
        rw [unreadOf_eq hr1.ch, unreadOf_eq hr2.ch, hcur, ← hitems _ _ hv2, f1, hitems _ _ hv1]
      rw [hev, hun]
      rcases hor with ⟨w1, w2, w4⟩ | ⟨w1, w2, w4⟩ | h
      · have hp : c2.pc i = c1.pc i := by
          rcases hpc' with h | h | ⟨h, -⟩
          · rw [h] at w1; exact w1.elim
          · exact h
          · rw [hstay a (by simp)] at h; cases h
        rw [hp]
        exact .inl ⟨w1, w2, w4⟩
      · have hp : c2.pc i = c1.pc i := by
          rcases hpc' with h | h | ⟨h, -⟩
          · rw [h] at w1; simp at w1
          · exact h
          · rw [hstay a (by simp)] at h; cases h
        rw [hp]
        exact .inr (.inl ⟨w1, w2, w4⟩)
      · exact .inr (.inr h)

end SB

namespace JSB
variable [LinearOrder K] [BEq V] [ReflBEq V] {cfg : SBCfg K V} {s s' : JSB K V I} {xs ys : List (JAct K V I)}

/-- **C98** if `start()` is only called after `join()` has returned for the earlier sessions, and `join()` has returned for session `b`: a `for` loop over
a reader of that session (`auto_drop=True`, any bound), begun now or waiting for its next read and not broken off, gives its body exactly the items that are unread now, in
order, and then ends, within `2 * unread + 3` of its own steps, whatever else happens (other readers, new sessions): at any later time it has done so, or it
has given its body the first of these items, has done fewer steps than that, and can do the next one. -/
theorem C98_drain_after_join (hd : cfg.autoDrop = true) (b i : Nat) (hpk : (cfg.rdCfg i).peek = false) (hstr : (cfg.rdCfg i).strict = false)
    (he : (JSB.init : JSB K V I).exec cfg xs = some s) (hj : JEv.joined b ∈ s.joins) (he' : s.exec cfg ys = some s')
    (hc : (JSB.init : JSB K V I).Careful cfg (xs ++ ys)) (hu : ∀ a, .sb a ∈ ys → SB.OneUser b i a)
    (hstay : ∀ a, .sb a ∈ ys → SB.isLeave b i a = false)
    (c : Cons K V) (hv : s.sb.view b = some c) (hpc : BetweenReads (c.pc i)) :
    ∃ c' l, s'.sb.view b = some c' ∧
      ((c.evtsOf i ++ l ++ [.loopDone] <+: c'.evtsOf i ∧ l.flatMap CEvt.items = unreadOf c.ch i) ∨
       (c'.evtsOf i = c.evtsOf i ++ l ∧ l.flatMap CEvt.items <+: unreadOf c.ch i ∧
        (sbActs ys).countP (SB.isGo b i) < 2 * (unreadOf c.ch i).length + 3 ∧ SB.InLoop (c'.pc i) ∧ ∃ s2, s'.step cfg (.sb (.rd b (.go i))) = some s2)) := by
  have he2 : (JSB.init : JSB K V I).exec cfg (xs ++ ys) = some s' := by rw [exec_append, he]; exact he'
  obtain ⟨-, hset⟩ := C66_careful_settled he2 hc
  have happ : ∀ l l' : List (JAct K V I), sbActs (l ++ l') = sbActs l ++ sbActs l' := by
    intro l l'
    induction l with
    | nil => rfl
    | cons x l ih => cases x <;> simp [sbActs, ih]
  have hmem : ∀ (l : List (JAct K V I)) a, a ∈ sbActs l → .sb a ∈ l := by
    intro l
    induction l with
    | nil => intro a h; simp [sbActs] at h
    | cons x l ih =>
      intro a h
      cases x <;> simp only [sbActs, List.mem_cons] at h ⊢
      · exact h.imp (fun e => by rw [e]) (ih a)
      · exact .inr (ih a h)
      · exact .inr (ih a h)
  rw [happ] at hset
  obtain ⟨-, -, -, c', hv', h⟩ := SB.drain_core hd b i hpk hstr (fun a ha => hu a (hmem ys a ha)) (fun a ha => hstay a (hmem ys a ha)) (exec_sb he) (joined_done he b hj) c hv hpc (exec_sb he') hset
  have hleft : ∀ p, BetweenReads p → 1 ≤ SB.left p ∧ SB.left p ≤ 2 := by
    intro p hp; cases p <;> simp [BetweenReads, SB.left] at *
  have hgo : SB.InLoop (c'.pc i) → ∃ s2, s'.step cfg (.sb (.rd b (.go i))) = some s2 := by
    intro h
    obtain ⟨y, hy⟩ := SB.rd_go_some (cfg := cfg) hv' h.ne_idle
    exact ⟨{ s' with sb := y }, by simp only [step, hy, Option.map_some]⟩
  rcases h with ⟨h1, ⟨l, h3, h4⟩, h2⟩ | ⟨h1, ⟨l, h3, h4⟩, h2⟩ | ⟨l, h1, h2⟩
  · have hin : SB.InLoop (c'.pc i) := by revert h1; cases c'.pc i <;> simp [BetweenReads, SB.InLoop]
    have := hleft _ hpc; have := hleft _ h1
    exact ⟨c', l, hv', .inr ⟨h3, ⟨_, h4⟩, by omega, hin, hgo hin⟩⟩
  · have hin : SB.InLoop (c'.pc i) := by rw [h1]; trivial
    have := hleft _ hpc
    exact ⟨c', l, hv', .inr ⟨h3, by rw [h4]; exact List.prefix_refl _, by omega, hin, hgo hin⟩⟩
  · exact ⟨c', l, hv', .inl ⟨h1, h2⟩⟩

/-- **C98** with an unbounded buffer the loop's end means that the consumer has received all that was ever stored in the session. -/
theorem C98_all_stored (hm : cfg.maxlen = none) (hd : cfg.autoDrop = true) (b i : Nat) (hpk : (cfg.rdCfg i).peek = false)
    (hstr : (cfg.rdCfg i).strict = false)
    (he : (JSB.init : JSB K V I).exec cfg xs = some s) (hj : JEv.joined b ∈ s.joins) (he' : s.exec cfg ys = some s')
    (hc : (JSB.init : JSB K V I).Careful cfg (xs ++ ys)) (hu : ∀ a, .sb a ∈ xs ++ ys → SB.OneUser b i a)
    (hstay : ∀ a, .sb a ∈ ys → SB.isLeave b i a = false)
    (c : Cons K V) (hv : s.sb.view b = some c) (hpc : BetweenReads (c.pc i)) :
    ∃ c', s'.sb.view b = some c' ∧ ((received c' i = storedIn b s'.sb.log ∧ ∃ l, c'.evtsOf i = c.evtsOf i ++ l ∧ .loopDone ∈ l) ∨
      ((sbActs ys).countP (SB.isGo b i) < 2 * (unreadOf c.ch i).length + 3 ∧ ∃ s2, s'.step cfg (.sb (.rd b (.go i))) = some s2)) := by
  have hmem : ∀ (l : List (JAct K V I)) a, a ∈ sbActs l → .sb a ∈ l := by
    intro l
    induction l with
    | nil => intro a h; simp [sbActs] at h
    | cons x l ih =>
      intro a h
      cases x <;> simp only [sbActs, List.mem_cons] at h ⊢
      · exact h.imp (fun e => by rw [e]) (ih a)
      · exact .inr (ih a h)
      · exact .inr (ih a h)
  have happ : ∀ l l' : List (JAct K V I), sbActs (l ++ l') = sbActs l ++ sbActs l' := by
    intro l l'
    induction l with
    | nil => rfl
    | cons x l ih => cases x <;> simp [sbActs, ih]
  obtain ⟨c', l, hv', ⟨h1, h2⟩ | ⟨-, -, h1, -, h2⟩⟩ := C98_drain_after_join hd b i hpk hstr he hj he' hc (fun a ha => hu a (by simp [ha])) hstay c hv hpc
  swap
  · exact ⟨c', hv', .inr ⟨h1, h2⟩⟩
  have he2 : (JSB.init : JSB K V I).exec cfg (xs ++ ys) = some s' := by rw [exec_append, he]; exact he'
  obtain ⟨-, hset⟩ := C66_careful_settled he2 hc
  have hA := SB.C63_unbounded hm hd b i hpk (as := sbActs xs) (fun a ha => hu a (by simp [hmem xs a ha])) (exec_sb he) c hv
  have hB := SB.C63_unbounded hm hd b i hpk (as := sbActs (xs ++ ys)) (fun a ha => hu a (hmem _ a ha)) (exec_sb he2) c' hv'
  rw [happ] at hset
  have hfro := SB.drain_core hd b i hpk hstr (fun a ha => hu a (by simp [hmem ys a ha])) (fun a ha => hstay a (hmem ys a ha)) (exec_sb he) (joined_done he b hj) c hv hpc (exec_sb he') hset
  have hrec : received c i ++ unreadOf c.ch i <+: received c' i := by
    obtain ⟨t, ht⟩ := h1
    simp only [received]
    rw [← ht, ← h2]
    simp only [List.flatMap_append, List.append_assoc]
    exact ⟨CEvt.items .loopDone ++ t.flatMap CEvt.items, by simp [CEvt.items]⟩
  rw [hA, ← hfro.2.2.1] at hrec
  refine ⟨c', hv', .inl ⟨?_, by obtain ⟨t, ht⟩ := h1; exact ⟨l ++ [.loopDone] ++ t, by rw [← ht]; simp, by simp⟩⟩⟩
  refine List.IsPrefix.eq_of_length ⟨_, hB⟩ ?_
  have l1 := hrec.length_le
  have l2 := congrArg List.length hB
  rw [List.length_append] at l2
  omega

end JSB
end S2P
