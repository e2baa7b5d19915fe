import Verif.Props.EndToEnd
/-
C91: `auto_drop=False` and a consumer that drops what it has received (the loop of the documentation of simply.py).
-/
namespace S2P
open Spec
variable {K V I : Type}
namespace SB
variable [LinearOrder K] [BEq V] [ReflBEq V] {cfg : SBCfg K V} {s s' : SB K V I} {a : SBAct K V I} {as : List (SBAct K V I)}

/-- At no moment have more items been dropped from buffer `b` than consumer `i` had received. -/
def DropsReceived (cfg : SBCfg K V) (b i : Nat) (as : List (SBAct K V I)) : Prop :=
  ∀ as1 as2 s1 c1, as = as1 ++ as2 → SB.init.exec cfg as1 = some s1 → s1.view b = some c1 →
    (droppedFrom b s1.log).length ≤ (received c1 i).length

omit [ReflBEq V] in
theorem Settled.left {as bs : List (SBAct K V I)} {s0 : SB K V I} (h : s0.Settled cfg (as ++ bs)) : s0.Settled cfg as := by
  induction as generalizing s0 with
  | nil => trivial
  | cons b as ih => exact ⟨h.1, fun s' hs' => ih (h.2 _ hs')⟩

/-- **C91** if every `start()` found the threads of earlier sessions ended, `auto_drop=False`, the source's data have increasing keys, and never more
is dropped than the consumer has received: the consumer gets everything. Received, then still readable, is all that was stored; what was dropped is the
beginning of what was received; what the buffer holds is the end of what was received (not yet dropped), then the unread items. -/
theorem C91_gets_everything (hd : cfg.autoDrop = false) (b i : Nat) (hpk : (cfg.rdCfg i).peek = false) (hu : ∀ a ∈ as, OneUser b i a)
    (he : SB.init.exec cfg as = some s) (hset : SB.init.Settled cfg as)
    (hinc : (dataRead b s.log).Pairwise (fun v w => cfg.key v < cfg.key w)) (hdr : DropsReceived cfg b i as)
    (c : Cons K V) (hv : s.view b = some c) :
    received c i ++ unreadOf c.ch i = storedIn b s.log ∧
    ∃ kept, received c i = droppedFrom b s.log ++ kept ∧ s.items b = kept ++ unreadOf c.ch i := by
  have hsub : (storedIn b s.log).Sublist (dataRead b s.log) := by
    rw [(C40_stored_in_order_partial he hset b).1, List.append_assoc]
    exact List.sublist_append_left _ _
  have hall : received c i ++ unreadOf c.ch i = storedIn b s.log := by
    refine C63_nothing_missing b i hpk hu he (hinc.sublist hsub) ?_ c hv
    intro as1 as2 s1 c1 e h1 h2
    have := hdr as1 as2 s1 c1 e h1 h2
    rw [C33_nothing_lost_partial hd h1 (Settled.left (e ▸ hset)) b, List.length_append]
    omega
  refine ⟨hall, ?_⟩
  have hlost := C33_nothing_lost_partial hd he hset b
  have hlen := hdr as [] s c (by simp) he hv
  rw [hlost] at hall
  rcases List.append_eq_append_iff.1 hall with ⟨l, h1, h2⟩ | ⟨l, h1, h2⟩
  · have : l = [] := by
      have := congrArg List.length h1
      simp only [List.length_append] at this
      exact List.eq_nil_of_length_eq_zero (by omega)
    subst this
    exact ⟨[], by simpa using h1.symm, by simpa using h2.symm⟩
  · exact ⟨l, h1, h2⟩

/-- **C91** and the loop does not stall: when the consumer has dropped all it has received and the buffer is full (so that the source is not read), there
is something for the consumer to read. -/
theorem C91_no_stall (hd : cfg.autoDrop = false) (b i : Nat) (hpk : (cfg.rdCfg i).peek = false) (hu : ∀ a ∈ as, OneUser b i a)
    (he : SB.init.exec cfg as = some s) (hset : SB.init.Settled cfg as)
    (hinc : (dataRead b s.log).Pairwise (fun v w => cfg.key v < cfg.key w)) (hdr : DropsReceived cfg b i as)
    (c : Cons K V) (hv : s.view b = some c) (heq : (droppedFrom b s.log).length = (received c i).length) :
    s.items b = unreadOf c.ch i ∧ (∀ m, cfg.maxlen = some m → 0 < m → m ≤ (s.items b).length → unreadOf c.ch i ≠ []) := by
  obtain ⟨-, kept, h1, h2⟩ := C91_gets_everything hd b i hpk hu he hset hinc hdr c hv
  have : kept = [] := by
    have := congrArg List.length h1
    simp only [List.length_append] at this
    exact List.eq_nil_of_length_eq_zero (by omega)
  subst this
  refine ⟨by simpa using h2, fun m _ h0 hf h => ?_⟩
  rw [h2, h] at hf
  simp at hf
  omega

end SB
end S2P
