import Verif.Props.LoopLive
import Verif.Props.Careful
/-
C93: from the counter to the body of the `for` loop, with bounds on the steps of the source thread and of the consumer.
-/
namespace S2P
open Spec
variable {σ K V I : Type} [LinearOrder K] [BEq V] {o : SrcObj σ K V I} {cfg : SBCfg K V} {xs : List (ObjAct K V I)} {s s' : ObjSB σ K V I}

/-- Consumer `i` of session `b` does a step (of its loop). -/
def ObjAct.isGo (b i : Nat) : ObjAct K V I → Bool
  | .other a => SB.isGo b i a
  | _ => false

namespace ObjSB

/-- The step of the stream buffer below. -/
theorem step_user {x : ObjAct K V I} (hs : s.step o cfg x = some s') :
    ∃ a, s.sb.step cfg a = some s'.sb ∧ ∀ b i, SB.isGo b i a = x.isGo b i ∧ ((∀ a, x = .other a → SB.OneUser b i a) → SB.OneUser b i a) ∧
      ((∀ a, x = .other a → SB.isLeave b i a = false) → SB.isLeave b i a = false) := by
  unfold step at hs
  split at hs
  · simp at hs
  rename_i a st hact
  obtain ⟨y, hy, rfl⟩ := Option.map_eq_some_iff.1 hs
  refine ⟨a, hy, fun b i => ?_⟩
  unfold act at hact
  cases x
  all_goals
    dsimp only at hact
    repeat' split at hact
    all_goals first
      | (injection hact with hact; injection hact with h1 h2; subst h1; exact ⟨rfl, fun h => by first | exact h _ rfl | trivial, fun h => by first | exact h _ rfl | rfl⟩)
      | simp at hact

/-- The execution of the stream buffer below, as the consumers see it. -/
theorem exec_user (xs : List (ObjAct K V I)) : ∀ s0 : ObjSB σ K V I, s0.exec o cfg xs = some s →
    ∃ bs, s0.sb.exec cfg bs = some s.sb ∧ ∀ b i, bs.countP (SB.isGo b i) = xs.countP (·.isGo b i) ∧
      ((∀ a, .other a ∈ xs → SB.OneUser b i a) → ∀ a ∈ bs, SB.OneUser b i a) ∧
      ((∀ a, .other a ∈ xs → SB.isLeave b i a = false) → ∀ a ∈ bs, SB.isLeave b i a = false) := by
  induction xs with
  | nil => intro s0 h; simp only [exec, Option.some.injEq] at h; subst h; exact ⟨[], rfl, by simp⟩
  | cons x xs ih =>
    intro s0 h
    simp only [exec] at h
    split at h
    swap
    · simp at h
    rename_i s1 hs1
    obtain ⟨a, ha, hx⟩ := step_user hs1
    obtain ⟨bs, hb, hc⟩ := ih s1 h
    refine ⟨a :: bs, by simp only [SB.exec, ha]; exact hb, fun b i => ⟨?_, fun hu a' ha' => ?_, fun hu a' ha' => ?_⟩⟩
    · rw [List.countP_cons, List.countP_cons, (hc b i).1, (hx b i).1]
    · rcases List.mem_cons.1 ha' with rfl | ha'
      · exact (hx b i).2.1 fun a e => hu a (by rw [e]; simp)
      · exact (hc b i).2.1 (fun a h => hu a (by simp [h])) a' ha'
    · rcases List.mem_cons.1 ha' with rfl | ha'
      · exact (hx b i).2.2 fun a e => hu a (by rw [e]; simp)
      · exact (hc b i).2.2 (fun a h => hu a (by simp [h])) a' ha'

theorem exec_append (xs ys : List (ObjAct K V I)) : ∀ s0 : ObjSB σ K V I, s0.exec o cfg (xs ++ ys) = (s0.exec o cfg xs).bind (·.exec o cfg ys) := by
  induction xs with
  | nil => intro s0; rfl
  | cons x xs ih =>
    intro s0
    simp only [List.cons_append, exec]
    split
    · exact ih _
    · rfl

theorem Calm.left {xs ys : List (ObjAct K V I)} : ∀ {s0 : ObjSB σ K V I}, s0.Calm o cfg (xs ++ ys) → s0.Calm o cfg xs := by
  induction xs with
  | nil => intro _ _; trivial
  | cons x xs ih => intro s0 h; exact ⟨h.1, fun s' hs' => ih (h.2 s' hs')⟩

end ObjSB

namespace Counter
variable {start stop : Int} {cfg : SBCfg Int (List Char)} {xs ys : List (ObjAct Int (List Char) Info)} {s s' : ObjSB St Int (List Char) Info}

/-- **C93** `for x in reader: ...` over a session of `SimpleCounterString(start, stop)` with an unbounded buffer: when the source thread has done
`6 * (stop - start) + 10` steps, and after that the loop two steps per unread item, of which there are at most `stop - start` (two more steps if it is just
looking at the stop event), the loop's body has been given `s{start}`, ..., `s{stop-1}`:
all of them, in order, each once, and nothing else. Every schedule, every interleaving with other readers, drops, stops of other sessions; the loop is not
just looking at the stop event, or the stream is not stopped; it is not broken off. -/
theorem C93_counter_loop (hf : ObjSB.Fits (counter start stop) cfg) (hm : cfg.maxlen = none) (hd : cfg.autoDrop = true) (b i : Nat)
    (hpk : (cfg.rdCfg i).peek = false) (hstr : (cfg.rdCfg i).strict = false)
    (he : (ObjSB.init new).exec (counter start stop) cfg xs = some s) (he' : s.exec (counter start stop) cfg ys = some s')
    (hc : (ObjSB.init new : ObjSB St Int (List Char) Info).Calm (counter start stop) cfg (xs ++ ys))
    (hu : ∀ a, .other a ∈ xs ++ ys → SB.OneUser b i a) (hstay : ∀ a, .other a ∈ ys → SB.isLeave b i a = false)
    (c : Cons Int (List Char)) (hv : s.sb.view b = some c)
    (hk : 6 * (stop - start).toNat + 10 ≤ xs.countP (·.ofThread b))
    (hrun : (BetweenReads (c.pc i) ∧ 2 * (unreadOf c.ch i).length ≤ ys.countP (·.isGo b i)) ∨
      (SB.InLoop (c.pc i) ∧ (∀ c', s'.sb.view b = some c' → c'.stopped = false) ∧ 2 * (unreadOf c.ch i).length + 2 ≤ ys.countP (·.isGo b i))) :
    (unreadOf c.ch i).length ≤ (stop - start).toNat ∧ ∃ c', s'.sb.view b = some c' ∧ received c' i = labels start (stop - start).toNat := by
  have he2 : (ObjSB.init new).exec (counter start stop) cfg (xs ++ ys) = some s' := by rw [ObjSB.exec_append, he]; exact he'
  have hA := (C88_counter_completes hf hd he hc.left b hk).1
  have hB := (C88_counter_completes hf hd he2 hc b (by rw [List.countP_append]; omega)).1
  have hD := C88_counter_delivers hf hm hd b i hpk he hc.left (fun a ha => hu a (by simp [ha])) c hv hk
  have hun : (unreadOf c.ch i).length ≤ (stop - start).toNat := by
    have := congrArg List.length hD
    simp only [List.length_append, labels, List.length_map, List.length_range] at this
    omega
  obtain ⟨as, h1, h2⟩ := ObjSB.exec_user xs _ he
  obtain ⟨bs, h3, h4⟩ := ObjSB.exec_user ys _ he'
  have hus : ∀ a ∈ as ++ bs, SB.OneUser b i a := by
    intro a ha
    rcases List.mem_append.1 ha with h | h
    · exact (h2 b i).2.1 (fun a ha => hu a (by simp [ha])) a h
    · exact (h4 b i).2.1 (fun a ha => hu a (by simp [ha])) a h
  have hcount := (h4 b i).1
  obtain ⟨c', hv', hpre⟩ := SB.C92_loop_gets_all hm hd b i hpk hstr hus h1 c hv ((h4 b i).2.2 hstay) h3
    (hrun.imp (fun h => ⟨h.1, by omega⟩) fun h => ⟨h.1, h.2.1, by omega⟩)
  refine ⟨hun, c', hv', ?_⟩
  have hfin := SB.C63_unbounded hm hd b i hpk hus (by rw [SB.exec_append]; simp only [ObjSB.init] at h1; rw [h1]; exact h3) c' hv'
  rw [hB] at hfin
  rw [hA] at hpre
  obtain ⟨t, ht⟩ := hpre
  have : t = [] := by
    have := congrArg List.length hfin
    rw [← ht] at this
    simp only [List.length_append] at this
    exact List.eq_nil_of_length_eq_zero (by omega)
  rw [this, List.append_nil] at ht
  exact ht.symm

end Counter
end S2P
