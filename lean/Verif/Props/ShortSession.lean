import Verif.Props.KeepUp
import Verif.Props.NextReader
import Verif.Props.Alive
/-
C116, C117: the documented recording loop (stream2py/__init__.py 62-70): `maxlen` calls of `next(reader)` on a buffer with room for `maxlen` items.
-/
namespace S2P
open Spec
variable {K V I : Type}
namespace SB
variable [LinearOrder K] [BEq V] [ReflBEq V] {cfg : SBCfg K V} {s s' : SB K V I} {a : SBAct K V I} {as : List (SBAct K V I)}

omit [ReflBEq V] in
/-- What was stored stays stored in the record. -/
theorem stored_mono {as1 as2 : List (SBAct K V I)} {s1 : SB K V I} (h1 : SB.init.exec cfg as1 = some s1) (h : SB.init.exec cfg (as1 ++ as2) = some s) (b : Nat) :
    storedIn b s1.log <+: storedIn b s.log := by
  rw [exec_append, h1] at h
  have : s1.log <+: s.log := by
    refine exec_ind (P := fun t : SB K V I => s1.log <+: t.log) (fun t a t' ht hs => ?_) (List.prefix_refl _) h
    obtain ⟨l, hl⟩ := step_log hs
    exact ht.trans (by rw [hl]; exact List.prefix_append _ _)
  obtain ⟨l, hl⟩ := this
  rw [← hl, storedIn_append]
  exact List.prefix_append _ _

/-- **C117** `auto_drop=True`, `maxlen=m`: as long as no more than `m` items were stored in the session, what a consumer received, then what it can
still read, is exactly what was stored: however slow the consumer is. Every execution, whatever the keys. -/
theorem C117_short_session {m : Nat} (hd : cfg.autoDrop = true) (hm : cfg.maxlen = some m) (b i : Nat) (hpk : (cfg.rdCfg i).peek = false)
    (hu : ∀ a ∈ as, OneUser b i a) (he : SB.init.exec cfg as = some s) (hlen : (storedIn b s.log).length ≤ m)
    (c : Cons K V) (hv : s.view b = some c) : received c i ++ unreadOf c.ch i = storedIn b s.log := by
  refine C96_keeps_up hd hm b i hpk hu he (fun as1 as2 s1 c1 e h1 _ => ?_) c hv
  rw [e] at he
  have := (stored_mono h1 he b).length_le
  omega

/-- **C117** from the source, in settled executions: what `read()` returned in the session is exactly what the consumer received, then what it can
still read, then the item the reading thread has in its hands or the item whose key was refused, if any. -/
theorem C117_from_source {m : Nat} (hd : cfg.autoDrop = true) (hm : cfg.maxlen = some m) (b i : Nat) (hpk : (cfg.rdCfg i).peek = false)
    (hu : ∀ a ∈ as, OneUser b i a) (he : SB.init.exec cfg as = some s) (hset : SB.init.Settled cfg as) (hlen : (dataRead b s.log).length ≤ m)
    (c : Cons K V) (hv : s.view b = some c) :
    dataRead b s.log = received c i ++ unreadOf c.ch i ++ (s.thr b).inHand ++ refusedBy b s.log ∧
    ((s.thr b).inHand ++ refusedBy b s.log).length ≤ 1 := by
  obtain ⟨h1, h2, h3⟩ := C40_stored_in_order_partial he hset b
  rw [C117_short_session hd hm b i hpk hu he (by rw [h1] at hlen; simp at hlen; omega) c hv]
  refine ⟨h1, ?_⟩
  cases hr : refusedBy b s.log with
  | nil => cases s.thr b <;> simp [TPC.inHand]
  | cons v l =>
    have := h3 (by rw [hr]; simp)
    rw [hr] at h2
    cases ht : s.thr b <;> rw [ht] at this <;> simp_all [TPC.over, TPC.inHand]

end SB

namespace NSB
variable [LinearOrder K] [BEq V] [ReflBEq V] {cfg : SBCfg K V} {s s' : NSB K V I} {as : List (NAct K V I)}

/-- **C117** the same of a loop over `next(stream_buffer)`. -/
theorem C117_next_short_session {m b c : Nat} {ys : List (NAct K V I)} (hd : cfg.autoDrop = true) (hm : cfg.maxlen = some m)
    (hpk : ∀ r, (cfg.rdCfg (nextRd r)).peek = false) (he : (NSB.init : NSB K V I).exec cfg as = some s) (hrest : Resting s b)
    (hal : ∀ a ∈ ys, Alone c a) (he' : s.exec cfg ys = some s') (hlen : (storedIn b s'.sb.log).length ≤ m) :
    ∃ l k, s'.res = s.res ++ l ∧ s'.sb.view b = some k ∧ gotten l ++ unreadOf k.ch (nextRd s.made) = storedIn b s'.sb.log := by
  obtain ⟨l, hl, hS⟩ := single hrest hal he'
  have he2 : (NSB.init : NSB K V I).exec cfg (as ++ ys) = some s' := by rw [exec_append, he]; exact he'
  obtain ⟨bs, hb, hu⟩ := exec_sb he2
  obtain ⟨z, hz⟩ := Option.isSome_iff_exists.1 ((exec_inv he2).sb b hS.cur).1
  have hv : s'.sb.view b = some { z.cons with stopped := s'.sb.flag z.evt } := by simp only [SB.view, hz, Option.map_some]
  refine ⟨l, _, hl, hv, ?_⟩
  rw [gotten_received he hrest hal he' hl _ hv]
  exact SB.C117_short_session hd hm b (nextRd s.made) (hpk s.made) (fun a ha => hu a ha b s.made) hb hlen _ hv

end NSB
end S2P
