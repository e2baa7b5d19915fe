import Verif.Proofs.Calm
import Verif.Props.Alive
import Verif.Props.Counter
/-
C87: what C64 says, for users who call `start()` only when no thread of an earlier session is alive (for the first time, or after `join()`).
C88: and it does happen: a session of the counter delivers all of its strings within a known number of steps of its thread.
-/
namespace S2P
open Spec
variable {σ K V I : Type} [LinearOrder K] [BEq V] [ReflBEq V] {o : SrcObj σ K V I} {cfg : SBCfg K V} {xs : List (ObjAct K V I)} {s s' : ObjSB σ K V I}

/-- Steps of thread `t`. -/
def ObjAct.ofThread (t : Nat) : ObjAct K V I → Bool
  | .read t' | .close t' | .store t' => t' = t
  | .other a => a.ofThread t
  | _ => false

namespace ObjSB

/-- **C87** every session reads a freshly opened source from its beginning. -/
theorem C87_fresh_start {st : σ} (he : (ObjSB.init st).exec o cfg xs = some s) (hc : (ObjSB.init st : ObjSB σ K V I).Calm o cfg xs) (t : Nat)
    (ht : answered t s.sb.log ≠ []) :
    ∃ x0 st0, o.open' x0 = (.ok (), st0) ∧ answered t s.sb.log = answers o.read st0 (answered t s.sb.log).length :=
  C64_fresh_start_partial he (calm_settled he hc) t ht

/-- **C87** and the session info is taken from that same state. -/
theorem C87_info_of_open {st : σ} (he : (ObjSB.init st).exec o cfg xs = some s) (hc : (ObjSB.init st : ObjSB σ K V I).Calm o cfg xs) (t : Nat) (i : I)
    (ht : Ev.bufferMade t i ∈ s.sb.log) :
    ∃ x0 st0, o.open' x0 = (.ok (), st0) ∧ o.info st0 = .ok i ∧ answered t s.sb.log = answers o.read st0 (answered t s.sb.log).length :=
  C64_info_of_open_partial he (calm_settled he hc) t i ht

/-- **C87** an orderly source never kills the stream. -/
theorem C87_never_dies (ho : Orderly o) (hf : Fits o cfg) (hm : cfg.maxlen ≠ none ∨ cfg.autoDrop = true) {st : σ}
    (he : (ObjSB.init st).exec o cfg xs = some s) (hc : (ObjSB.init st : ObjSB σ K V I).Calm o cfg xs) : ∀ e ∈ s.sb.log, isDeath e = false :=
  C64_orderly_never_dies_partial ho hf hm he (calm_settled he hc)

/-- **C87** and every datum is stored, in order. -/
theorem C87_all_stored (ho : Orderly o) (hf : Fits o cfg) {st : σ} (he : (ObjSB.init st).exec o cfg xs = some s)
    (hc : (ObjSB.init st : ObjSB σ K V I).Calm o cfg xs) (t : Nat) : storedIn t s.sb.log ++ (s.sb.thr t).inHand = dataRead t s.sb.log :=
  C64_orderly_all_stored_partial ho hf he (calm_settled he hc) t

/-- **C87** and what a consumer of an unbounded buffer received, can still read, and will be given next, is what `read` gives from the state `open` left. -/
theorem C87_to_consumer (ho : Orderly o) (hf : Fits o cfg) (hm : cfg.maxlen = none) (hd : cfg.autoDrop = true) (b i : Nat)
    (hpk : (cfg.rdCfg i).peek = false) {st : σ} (he : (ObjSB.init st).exec o cfg xs = some s) (hc : (ObjSB.init st : ObjSB σ K V I).Calm o cfg xs)
    (hu : ∀ a, .other a ∈ xs → SB.OneUser b i a) (c : Cons K V) (hv : s.sb.view b = some c) :
    ∃ x0 st0, o.open' x0 = (.ok (), st0) ∧
      received c i ++ unreadOf c.ch i ++ (s.sb.thr b).inHand = dataOf (answers o.read st0 (answered b s.sb.log).length) :=
  C64_source_object_to_consumer_partial ho hf hm hd b i hpk he (calm_settled he hc) hu c hv

/-- The step of the stream buffer below. -/
theorem step_act {x : ObjAct K V I} (hs : s.step o cfg x = some s') : ∃ a, s.sb.step cfg a = some s'.sb ∧ ∀ t, a.ofThread t = x.ofThread t := by
  unfold step at hs
  split at hs
  · simp at hs
  rename_i a st hact
  obtain ⟨y, hy, rfl⟩ := Option.map_eq_some_iff.1 hs
  refine ⟨a, hy, fun t => ?_⟩
  unfold act at hact
  cases x
  all_goals
    dsimp only at hact
    repeat' split at hact
    all_goals first
      | (injection hact with hact; injection hact with h1 h2; subst h1; rfl)
      | simp at hact

/-- The execution of the stream buffer below: each thread does the same number of steps. -/
theorem exec_act {st : σ} (he : (ObjSB.init st).exec o cfg xs = some s) :
    ∃ bs, SB.init.exec cfg bs = some s.sb ∧ ∀ t, bs.countP (·.ofThread t) = xs.countP (·.ofThread t) := by
  have main : ∀ (xs : List (ObjAct K V I)) (s0 : ObjSB σ K V I), s0.exec o cfg xs = some s →
      ∃ bs, s0.sb.exec cfg bs = some s.sb ∧ ∀ t, bs.countP (·.ofThread t) = xs.countP (·.ofThread t) := by
    intro xs
    induction xs with
    | nil => intro s0 h; simp only [exec, Option.some.injEq] at h; subst h; exact ⟨[], rfl, by simp⟩
    | cons x xs ih =>
      intro s0 h
      simp only [exec] at h
      split at h
      · rename_i s1 hs1
        obtain ⟨a, ha, hx⟩ := step_act hs1
        obtain ⟨bs, hb, hc⟩ := ih s1 h
        refine ⟨a :: bs, by simp only [SB.exec, ha]; exact hb, fun t => ?_⟩
        rw [List.countP_cons, List.countP_cons, hc, hx]
      · simp at h
  exact main xs _ he

/-- The last answer a thread got, when it has an item in its hands. -/
theorem inHand_last {bs : List (SBAct K V I)} {y : SB K V I} (he : SB.init.exec cfg bs = some y) (t : Nat) (h : (y.thr t).inHand ≠ []) :
    ∃ l v, answered t y.log = l ++ [.ok (some v)] := by
  have := SB.ind (P := fun y : SB K V I => ∀ t, (∀ v, y.thr t = .appending v → ∃ l, answered t y.log = l ++ [.ok (some v)]) ∧
      (∀ b v, y.thr t = .storing b v → ∃ l, answered t y.log = l ++ [.ok (some v)])) (cfg := cfg) (by simp [SB.init]) (by
    intro s a s' hg ih hs
    have hst := SB.step_to hs
    clear hs
    cases hst
    case readSome t' v h =>
      intro t
      simp only [SB.say, SB.setThr, answered_append, answered_read]
      by_cases ht : t = t'
      · subst ht; simp
      · simpa [ht] using ih t
    case readNone t' h =>
      intro t
      simp only [SB.say, SB.setThr, answered_append, answered_read]
      by_cases ht : t = t'
      · subst ht; simp
      · simpa [ht] using ih t
    case readRaise t' e h =>
      intro t
      simp only [SB.say, SB.setThr, answered_append, answered_raise]
      by_cases ht : t = t'
      · subst ht; simp
      · simpa [ht] using ih t
    all_goals
      intro t
      try simp only [SB.say, SB.setThr, SB.setBuf, SB.setEvent, SB.setNext, SB.setDrop, SB.setInfo, answered_append]
      try simp only [answered, List.filterMap_cons, List.filterMap_nil, List.append_nil] at *
      first
        | exact ih t
        | grind) he
  cases hp : y.thr t <;> rw [hp] at h <;> simp [TPC.inHand] at h
  · exact let ⟨l, hl⟩ := (this t).1 _ hp; ⟨l, _, hl⟩
  · exact let ⟨l, hl⟩ := (this t).2 _ _ hp; ⟨l, _, hl⟩

end ObjSB

namespace Counter
variable {start stop : Int} {cfg : SBCfg Int (List Char)} {xs : List (ObjAct Int (List Char) Info)} {s : ObjSB St Int (List Char) Info}

/-- **C87** the counter: session `t` reads `s{start}`, `s{start+1}`, ..., one with each call of `read()`, up to `s{stop-1}`. -/
theorem C87_counter_data (he : (ObjSB.init new).exec (counter start stop) cfg xs = some s)
    (hc : (ObjSB.init new : ObjSB St Int (List Char) Info).Calm (counter start stop) cfg xs) (t : Nat) :
    dataRead t s.sb.log = labels start (min (s.sb.log.countP (isReadBy t)) (stop - start).toNat) :=
  C64_counter_data_partial he (ObjSB.calm_settled he hc) t

/-- **C87** `open_count` of the info of a session is its number. -/
theorem C87_counter_info (he : (ObjSB.init new).exec (counter start stop) cfg xs = some s)
    (hc : (ObjSB.init new : ObjSB St Int (List Char) Info).Calm (counter start stop) cfg xs) (t : Nat) (i : Info)
    (ht : Ev.bufferMade t i ∈ s.sb.log) : i = { start := start, stop := stop, openCount := t + 1 } :=
  C64_counter_info_partial he (ObjSB.calm_settled he hc) t i ht

/-- **C87** the stream does not die. -/
theorem C87_counter_never_dies (hf : ObjSB.Fits (counter start stop) cfg) (hm : cfg.maxlen ≠ none ∨ cfg.autoDrop = true)
    (he : (ObjSB.init new).exec (counter start stop) cfg xs = some s)
    (hc : (ObjSB.init new : ObjSB St Int (List Char) Info).Calm (counter start stop) cfg xs) : ∀ e ∈ s.sb.log, isDeath e = false :=
  C64_counter_never_dies_partial hf hm he (ObjSB.calm_settled he hc)

/-- When the thread of session `b` has called `read()` more often than there are strings, all strings are stored. -/
theorem stored_of_reads (hf : ObjSB.Fits (counter start stop) cfg)
    (he : (ObjSB.init new).exec (counter start stop) cfg xs = some s)
    (hc : (ObjSB.init new : ObjSB St Int (List Char) Info).Calm (counter start stop) cfg xs) (b : Nat)
    (hr : (stop - start).toNat + 1 ≤ s.sb.log.countP (isReadBy b)) :
    storedIn b s.sb.log = labels start (stop - start).toNat ∧ (s.sb.thr b).inHand = [] := by
  have hset := ObjSB.calm_settled he hc
  obtain ⟨bs, hb, -⟩ := ObjSB.exec_act he
  have hdata := C87_counter_data he hc b
  rw [Nat.min_eq_right (by omega)] at hdata
  have hlen : (answered b s.sb.log).length = s.sb.log.countP (isReadBy b) := by
    generalize s.sb.log = l
    induction l with
    | nil => rfl
    | cons e l ih =>
      rw [show e :: l = [e] ++ l from rfl, answered_append, List.length_append, List.countP_append, ih]
      congr 1
      cases e <;> simp only [answered, isReadBy, List.filterMap_cons, List.filterMap_nil, List.countP_cons, List.countP_nil] <;> try rfl
      all_goals
        rename_i t' _
        by_cases h : t' = b <;> simp [h]
  have hhand : (s.sb.thr b).inHand = [] := by
    by_contra hne
    obtain ⟨l', v, hlast⟩ := ObjSB.inHand_last hb b hne
    have hn : answered b s.sb.log ≠ [] := by rw [hlast]; simp
    obtain ⟨x0, st0, h1, h2⟩ := ObjSB.C64_fresh_start_partial he hset b hn
    have hn' : (stop - start).toNat + 1 ≤ (answered b s.sb.log).length := by rw [hlen]; omega
    generalize (answered b s.sb.log).length = n at *
    obtain ⟨m, rfl⟩ : ∃ m, n = m + 1 := ⟨n - 1, by omega⟩
    rw [hlast, opened_eq h1, show (counter start stop).read = read stop from rfl, answers_eq, List.range_succ, List.map_append] at h2
    have := List.append_inj_right' h2 (by simp)
    simp at this
    omega
  have hall := ObjSB.C87_all_stored orderly hf he hc b
  rw [hhand, List.append_nil] at hall
  exact ⟨hall.trans hdata, hhand⟩

/-- **C88** when the thread of session `b` has done `6 * (stop - start) + 10` steps, all strings are stored (`auto_drop=True`). -/
theorem C88_counter_completes (hf : ObjSB.Fits (counter start stop) cfg) (hd : cfg.autoDrop = true)
    (he : (ObjSB.init new).exec (counter start stop) cfg xs = some s)
    (hc : (ObjSB.init new : ObjSB St Int (List Char) Info).Calm (counter start stop) cfg xs) (b : Nat)
    (hk : 6 * (stop - start).toNat + 10 ≤ xs.countP (·.ofThread b)) :
    storedIn b s.sb.log = labels start (stop - start).toNat ∧ (s.sb.thr b).inHand = [] := by
  obtain ⟨bs, hb, hcount⟩ := ObjSB.exec_act he
  obtain ⟨l, hl, hle⟩ := SB.C86_keeps_reading_auto hd (as := []) rfl b hb
  simp only [SB.init, List.nil_append] at hl
  rw [hcount b, ← hl] at hle
  exact stored_of_reads hf he hc b (by omega)

/-- **C88** and a consumer of the unbounded buffer of that session has received, or can read, exactly all strings. -/
theorem C88_counter_delivers (hf : ObjSB.Fits (counter start stop) cfg) (hm : cfg.maxlen = none) (hd : cfg.autoDrop = true) (b i : Nat)
    (hpk : (cfg.rdCfg i).peek = false) (he : (ObjSB.init new).exec (counter start stop) cfg xs = some s)
    (hc : (ObjSB.init new : ObjSB St Int (List Char) Info).Calm (counter start stop) cfg xs)
    (hu : ∀ a, .other a ∈ xs → SB.OneUser b i a) (c : Cons Int (List Char)) (hv : s.sb.view b = some c)
    (hk : 6 * (stop - start).toNat + 10 ≤ xs.countP (·.ofThread b)) :
    received c i ++ unreadOf c.ch i = labels start (stop - start).toNat := by
  obtain ⟨bs, h1, h2, h3⟩ := ObjSB.real_one he (ObjSB.calm_settled he hc) hu
  rw [SB.C63_unbounded hm hd b i hpk h3 h1 c hv]
  exact (C88_counter_completes hf hd he hc b hk).1

end Counter
end S2P
