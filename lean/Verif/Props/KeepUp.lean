import Verif.Props.Served
/-
C96: a consumer that is never more than `maxlen` items behind misses nothing.
C97: and what a consumer that fell behind gets next.
-/
namespace S2P
open Spec
variable {K V I : Type}

section
variable [LinearOrder K] [BEq V] [ReflBEq V] {key : V → K} {kn : Py (Option K)} {m : Option Nat} {cfg : Nat → Cfg}

/-- The cursor of a reader that is only read (or peeked) is the last item it was handed. -/
theorem cursor_run (i : Nat) (ops : List (ChOp K V)) (hops : OnlyReads cfg i ops) :
    ((Ch.run (Ch.init key kn m cfg) ops).1.readers i).lastItem = (delivered cfg i ops (Ch.run (Ch.init key kn m cfg) ops).2).getLast? := by
  induction ops using List.reverseRecOn with
  | nil => rfl
  | append_singleton ops op ih =>
    have hlen := Ch.run_length (Ch.init key kn m cfg) ops
    have ih := ih (fun o ho => hops o (by simp [ho]))
    rw [Ch.run_snoc, delivered_snoc _ _ _ _ _ _ hlen]
    rcases ch_step (c := (Ch.run (Ch.init key kn m cfg) ops).1) ⟨ops, rfl⟩ i op (fun o ho => hops o (by simp [ho])) with
      ⟨v, h1, h2, -, h3, h4⟩ | ⟨h1, h2, ⟨n, h3⟩, h4⟩ | ⟨h1, h2, h3, h4⟩
    · rw [h4, h2, List.append_nil]; exact ih
    · rw [h4, h2, List.append_nil]; exact ih
    · rw [h4, List.getLast?_append]
      cases (handed cfg i op ((Ch.run (Ch.init key kn m cfg) ops).1.step op).2).getLast? with
      | none => simpa using ih
      | some z => rfl

end

namespace SB
variable [LinearOrder K] [BEq V] [ReflBEq V] {cfg : SBCfg K V} {s s' : SB K V I} {a : SBAct K V I} {as : List (SBAct K V I)}

/-- **C96** `auto_drop=True`, `maxlen=m`: if at no moment more than `m` stored items had not been received by the consumer, then received, then still
readable, is exactly what was stored. Every execution, whatever the keys. -/
theorem C96_keeps_up {m : Nat} (hd : cfg.autoDrop = true) (hm : cfg.maxlen = some m) (b i : Nat) (hpk : (cfg.rdCfg i).peek = false)
    (hu : ∀ a ∈ as, OneUser b i a) (he : SB.init.exec cfg as = some s)
    (hnear : ∀ as1 as2 s1 c1, as = as1 ++ as2 → SB.init.exec cfg as1 = some s1 → s1.view b = some c1 →
      (storedIn b s1.log).length ≤ (received c1 i).length + m)
    (c : Cons K V) (hv : s.view b = some c) : received c i ++ unreadOf c.ch i = storedIn b s.log := by
  by_cases h0 : m = 0
  · subst h0
    have hpart := C63_part_of_stored b i hpk hu he c hv
    have := hnear as [] s c (by simp) he hv
    refine hpart.eq_of_length ?_
    have := hpart.length_le
    rw [List.length_append] at this ⊢
    omega
  refine C63_nothing_missing b i hpk hu he (C94_stored_increasing hd (by rw [hm]; simpa using h0) he b).1 (fun as1 as2 s1 c1 e h1 hv1 => ?_) c hv
  have := hnear as1 as2 s1 c1 e h1 hv1
  rw [(C34_only_eviction hd h1 b).1, hm]
  simp only [newest, List.length_drop]
  omega

/-- **C96** and a `for` loop over such a reader, not broken off, gets everything stored within two of its steps per unread item (two more if it is about to look at the stop
event of a running stream). -/
theorem C96_loop_gets_all {m : Nat} {bs : List (SBAct K V I)} (hd : cfg.autoDrop = true) (hm : cfg.maxlen = some m) (b i : Nat)
    (hpk : (cfg.rdCfg i).peek = false) (hstr : (cfg.rdCfg i).strict = false) (hu : ∀ a ∈ as ++ bs, OneUser b i a)
    (h0 : SB.init.exec cfg as = some s) (c : Cons K V) (hv : s.view b = some c) (hstay : ∀ a ∈ bs, isLeave b i a = false) (he : s.exec cfg bs = some s')
    (hnear : ∀ as1 as2 s1 c1, as ++ bs = as1 ++ as2 → SB.init.exec cfg as1 = some s1 → s1.view b = some c1 →
      (storedIn b s1.log).length ≤ (received c1 i).length + m)
    (hrun : (BetweenReads (c.pc i) ∧ 2 * (unreadOf c.ch i).length ≤ bs.countP (isGo b i)) ∨
      (InLoop (c.pc i) ∧ (∀ c', s'.view b = some c' → c'.stopped = false) ∧ 2 * (unreadOf c.ch i).length + 2 ≤ bs.countP (isGo b i))) :
    ∃ c', s'.view b = some c' ∧ storedIn b s.log <+: received c' i := by
  refine loop_delivers b i hpk hstr h0 c hv hstay (fun bs1 bs2 s1 c1 e h1 hv1 => ?_) he hrun
  refine C96_keeps_up hd hm b i hpk (as := as ++ bs1) (fun a ha => hu a ?_) (by rw [exec_append, h0]; exact h1) ?_ c1 hv1
  · rw [e]
    simp only [List.mem_append] at ha ⊢
    exact ha.elim .inl (fun h => .inr (.inl h))
  · intro as1 as2 s2 c2 e2 k1 k2
    exact hnear as1 (as2 ++ bs2) s2 c2 (by rw [e, ← List.append_assoc, e2, List.append_assoc]) k1 k2

/-- **C97** `auto_drop=True`, `maxlen=m` not 0: let the last item the consumer received be the `p`-th stored one (`p = 0`: it received nothing yet). What it
can read now are the stored items after the `p`-th, but for those that are not among the newest `m`. Every execution, whatever the keys. -/
theorem C97_next_items {m : Nat} (hd : cfg.autoDrop = true) (hm : cfg.maxlen = some m) (h0 : m ≠ 0) (b i : Nat) (hpk : (cfg.rdCfg i).peek = false)
    (hu : ∀ a ∈ as, OneUser b i a) (he : SB.init.exec cfg as = some s) (c : Cons K V) (hv : s.view b = some c) :
    ∃ p, p ≤ (storedIn b s.log).length ∧ (received c i).getLast? = ((storedIn b s.log).take p).getLast? ∧ (p = 0 ↔ received c i = []) ∧
      unreadOf c.ch i = (storedIn b s.log).drop (max p ((storedIn b s.log).length - m)) := by
  have ht := (told b i hpk hu he).1 c hv
  have hr := view_reach he b c hv
  have hcur := cursor_run (key := cfg.key) (kn := cfg.keyNone) (m := cfg.maxlen) i c.ops ht.only
  rw [hr.run] at hcur
  simp only [← ht.recv] at hcur
  have hinc := (C94_stored_increasing hd (by rw [hm]; simpa using h0) he b).1
  have hitems : c.ch.buf.items = (storedIn b s.log).drop ((storedIn b s.log).length - m) := by
    have := (C34_only_eviction hd he b).1
    rw [hm] at this
    obtain ⟨x, hx, rfl⟩ := Option.map_eq_some_iff.1 hv
    simpa [items, hx, newest] using this
  have hpart := C63_part_of_stored b i hpk hu he c hv
  rw [unreadOf_eq hr.ch, hcur, hitems]
  generalize storedIn b s.log = A at *
  cases hl : (received c i).getLast? with
  | none =>
    have hnil : received c i = [] := by simpa using hl
    exact ⟨0, by simp, by simp, by simp [hnil], by simp [unread]⟩
  | some z =>
    have hz : z ∈ A := hpart.subset (List.mem_append_left _ (List.mem_of_getLast? hl))
    obtain ⟨q, hq, hqz⟩ := List.getElem_of_mem hz
    have hne : received c i ≠ [] := by intro h; rw [h] at hl; simp at hl
    refine ⟨q + 1, by omega, ?_, by simp [hne], ?_⟩
    · rw [List.getLast?_take, if_neg (by omega)]
      simp [hq, hqz]
    · have := filter_above (key := cfg.key) hinc (q := q) (c := z) (by rw [List.getElem?_eq_getElem hq, hqz]) (A.length - m)
      simp only [unread]
      rw [this]
      congr 1
      omega

end SB
end S2P
