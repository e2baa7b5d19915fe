import Verif.Props.Simply
import Verif.Props.LoopLive
/-
C100: what a consumer of a stream made with `mk_stream_buffer(enumerate_data=True)` receives, from `read_stream` to the consumer.
-/
namespace S2P
open Spec

namespace SB
/-- The actions of the `with` statement and the returns of the source. -/
def plain {K V I : Type} : SBAct K V I → Bool
  | .start | .stop | .stopEnd | .readOk .. => true
  | _ => false
end SB

namespace Simp
variable {K D I : Type} [LinearOrder K] [BEq D] {en : Bool} {cfg : SBCfg K (SItem D)} {s s' : Simp K D I} {x : SimpAct K D I}

theorem step_acts (hs : s.step en cfg x = some s') :
    (s'.sb = s.sb ∧ ∀ a, x ≠ .sb a) ∨ ∃ a, s.sb.step cfg a = some s'.sb ∧ (x = .sb a ∨ (SB.plain a = true ∧ ∀ a, x ≠ .sb a)) := by
  unfold step at hs
  cases x <;> dsimp only at hs
  all_goals
    try split at hs
  all_goals
    try split at hs
  all_goals
    simp only [Option.some.injEq, Option.map_eq_some_iff, reduceCtorEq] at hs
    try (first | subst hs | (obtain ⟨y, hy, rfl⟩ := hs))
  all_goals first
    | exact .inl ⟨rfl, by simp⟩
    | exact .inr ⟨_, hy, .inl rfl⟩
    | exact .inr ⟨_, hy, .inr ⟨rfl, by simp⟩⟩

/-- The actions on the stream buffer among the given ones. -/
def userActs (xs : List (SimpAct K D I)) : List (SBAct K (SItem D) I) := xs.filterMap fun | .sb a => some a | _ => none

/-- Every execution is one of the stream buffer below, with the same actions apart from those of the `with` statement and the returns of the source. -/
theorem path {xs : List (SimpAct K D I)} (he : s.exec en cfg xs = some s') :
    ∃ as, s.sb.exec cfg as = some s'.sb ∧ as.filter (fun a => !SB.plain a) = (userActs xs).filter (fun a => !SB.plain a) ∧
      (s.Settled en cfg xs → s.sb.Settled cfg as) := by
  induction xs generalizing s with
  | nil => simp only [exec, Option.some.injEq] at he; subst he; exact ⟨[], rfl, rfl, fun _ => trivial⟩
  | cons x xs ih =>
    simp only [exec] at he
    split at he
    swap
    · simp at he
    rename_i s1 hs
    obtain ⟨as, k1, k2, k3⟩ := ih he
    rcases step_acts hs with ⟨e, hx⟩ | ⟨a, ha, hx⟩
    · refine ⟨as, by rw [← e]; exact k1, ?_, fun h => by rw [← e]; exact k3 (h.2 _ hs)⟩
      rw [k2]
      cases x <;> first | rfl | exact (hx _ rfl).elim
    · refine ⟨a :: as, by simp only [SB.exec, ha]; exact k1, ?_, fun h => ⟨fun e hw => ?_, fun y hy => ?_⟩⟩
      · rcases hx with rfl | ⟨hp, hx⟩
        · simp only [userActs, List.filterMap_cons, List.filter_cons] at k2 ⊢
          split <;> rw [k2]
        · rw [List.filter_cons, if_neg (by simp [hp]), k2]
          cases x <;> first | rfl | exact (hx _ rfl).elim
      · rcases hx with rfl | ⟨hp, -⟩
        · exact h.1 (by rw [e]) hw
        · rw [e] at hp; simp [SB.plain] at hp
      · rw [ha] at hy; cases hy; exact k3 (h.2 _ hs)

omit [LinearOrder K] [BEq D] in
theorem mem_path {xs : List (SimpAct K D I)} {as : List (SBAct K (SItem D) I)}
    (h : as.filter (fun a => !SB.plain a) = (userActs xs).filter (fun a => !SB.plain a)) {a : SBAct K (SItem D) I} (ha : a ∈ as) (hp : SB.plain a = false) :
    .sb a ∈ xs := by
  have : a ∈ as.filter (fun a => !SB.plain a) := List.mem_filter.2 ⟨ha, by simp [hp]⟩
  rw [h, List.mem_filter] at this
  obtain ⟨y, hy, e⟩ := List.mem_filterMap.1 this.1
  cases y <;> simp only [reduceCtorEq, Option.some.injEq] at e
  subst e; exact hy

omit [LinearOrder K] [BEq D] in
theorem oneUser_path {xs : List (SimpAct K D I)} {as : List (SBAct K (SItem D) I)} {b i : Nat}
    (h : as.filter (fun a => !SB.plain a) = (userActs xs).filter (fun a => !SB.plain a)) (hu : ∀ a, .sb a ∈ xs → SB.OneUser b i a) :
    ∀ a ∈ as, SB.OneUser b i a := by
  intro a ha
  cases hp : SB.plain a with
  | false => exact hu a (mem_path h ha hp)
  | true => cases a <;> first | trivial | simp [SB.plain] at hp

omit [LinearOrder K] [BEq D] in
theorem stay_path {xs : List (SimpAct K D I)} {as : List (SBAct K (SItem D) I)} {b i : Nat}
    (h : as.filter (fun a => !SB.plain a) = (userActs xs).filter (fun a => !SB.plain a)) (hu : ∀ a, .sb a ∈ xs → SB.isLeave b i a = false) :
    ∀ a ∈ as, SB.isLeave b i a = false := by
  intro a ha
  cases hp : SB.plain a with
  | false => exact hu a (mem_path h ha hp)
  | true => cases a <;> first | rfl | simp [SB.plain] at hp

omit [LinearOrder K] [BEq D] in
theorem isGo_path {xs : List (SimpAct K D I)} {as : List (SBAct K (SItem D) I)} (b i : Nat)
    (h : as.filter (fun a => !SB.plain a) = (userActs xs).filter (fun a => !SB.plain a)) : as.countP (SB.isGo b i) = (userActs xs).countP (SB.isGo b i) := by
  have key : ∀ l : List (SBAct K (SItem D) I), l.countP (SB.isGo b i) = (l.filter (fun a => !SB.plain a)).countP (SB.isGo b i) := by
    intro l
    rw [List.countP_filter]
    refine List.countP_congr fun a _ => ?_
    cases a <;> simp [SB.isGo, SB.plain]
  rw [key, h, ← key]

variable [ReflBEq D] {xs : List (SimpAct K D I)}

/-- **C100** the `with` statement's stream, from `read_stream` to a consumer: what the consumer received and what it can still read is, in order, a part of
the numbered reads `(0, d₀), (1, d₁), …` of `read_stream`; every bound, with manual drops or not. -/
theorem C100_part_of_reads (hkey : ∀ i j d d', i < j → cfg.key (.pair i d) < cfg.key (.pair j d')) (b i : Nat) (hpk : (cfg.rdCfg i).peek = false)
    (he : init.exec true cfg xs = some s) (hn : SimpAct.sb SBAct.start ∉ xs) (hk : ∀ a, .sb a ∈ xs → a.isKeyRaise = false)
    (hu : ∀ a, .sb a ∈ xs → SB.OneUser b i a) (c : Cons K (SItem D)) (hv : s.sb.view b = some c) :
    (received c i ++ unreadOf c.ch i).Sublist (enumerated (s.raw b)) := by
  obtain ⟨as, h1, h2, -⟩ := path he
  have := SB.C63_part_of_stored b i hpk (oneUser_path h2 hu) h1 c hv
  rw [← (C51_never_rejects hkey he hn hk).1 b]
  exact this.trans (List.sublist_append_left _ _)

/-- **C100** so every item received is the pair of a number and what `read_stream` returned in the call with that number, and the numbers increase: nothing
comes twice, nothing in the wrong order. -/
theorem C100_right_numbers (hkey : ∀ i j d d', i < j → cfg.key (.pair i d) < cfg.key (.pair j d')) (b i : Nat) (hpk : (cfg.rdCfg i).peek = false)
    (he : init.exec true cfg xs = some s) (hn : SimpAct.sb SBAct.start ∉ xs) (hk : ∀ a, .sb a ∈ xs → a.isKeyRaise = false)
    (hu : ∀ a, .sb a ∈ xs → SB.OneUser b i a) (c : Cons K (SItem D)) (hv : s.sb.view b = some c) :
    (∀ v ∈ received c i, ∃ n d, v = .pair n d ∧ (s.raw b)[n]? = some d) ∧
    (received c i).Pairwise (fun v w => ∀ n d m d', v = .pair n d → w = .pair m d' → n < m) := by
  have h := (List.sublist_append_left _ _).trans (C100_part_of_reads hkey b i hpk he hn hk hu c hv)
  refine ⟨fun v hv => ?_, ?_⟩
  · obtain ⟨n, hn, e⟩ := mem_enumerated.1 (h.subset hv)
    exact ⟨n, _, e, List.getElem?_eq_getElem hn⟩
  · refine List.Pairwise.sublist h ?_
    rw [List.pairwise_iff_getElem]
    intro n m hn hm hlt
    simp only [enumerated, List.getElem_mapIdx, SItem.pair.injEq]
    rintro n' d m' d' ⟨rfl, -⟩ ⟨rfl, -⟩
    exact hlt

/-- **C100** with an unbounded buffer and `auto_drop=True`: all of them, but for the one in the hands of the reading thread. -/
theorem C100_nothing_missing (hkey : ∀ i j d d', i < j → cfg.key (.pair i d) < cfg.key (.pair j d')) (hm : cfg.maxlen = none) (hd : cfg.autoDrop = true)
    (b i : Nat) (hpk : (cfg.rdCfg i).peek = false)
    (he : init.exec true cfg xs = some s) (hn : SimpAct.sb SBAct.start ∉ xs) (hk : ∀ a, .sb a ∈ xs → a.isKeyRaise = false)
    (hu : ∀ a, .sb a ∈ xs → SB.OneUser b i a) (c : Cons K (SItem D)) (hv : s.sb.view b = some c) :
    received c i ++ unreadOf c.ch i ++ (s.sb.thr b).inHand = enumerated (s.raw b) := by
  obtain ⟨as, h1, h2, -⟩ := path he
  rw [SB.C63_unbounded hm hd b i hpk (oneUser_path h2 hu) h1 c hv]
  exact (C51_never_rejects hkey he hn hk).1 b

/-- **C100** and the `for` loop of a consumer of such a stream, not broken off, gets them: once the loop has done two steps per item it had not read, its body has been
given `(n, dₙ)` for every read of `read_stream` stored when counting began. -/
theorem C100_loop_gets_reads {ys : List (SimpAct K D I)} (hkey : ∀ i j d d', i < j → cfg.key (.pair i d) < cfg.key (.pair j d')) (hm : cfg.maxlen = none)
    (hd : cfg.autoDrop = true) (b i : Nat) (hpk : (cfg.rdCfg i).peek = false) (hstr : (cfg.rdCfg i).strict = false)
    (h0 : init.exec true cfg xs = some s) (hn : SimpAct.sb SBAct.start ∉ xs) (hk : ∀ a, .sb a ∈ xs → a.isKeyRaise = false)
    (hu : ∀ a, .sb a ∈ xs ++ ys → SB.OneUser b i a) (c : Cons K (SItem D)) (hv : s.sb.view b = some c) (hstay : ∀ a, .sb a ∈ ys → SB.isLeave b i a = false)
    (he : s.exec true cfg ys = some s')
    (hrun : (BetweenReads (c.pc i) ∧ 2 * (unreadOf c.ch i).length ≤ (userActs ys).countP (SB.isGo b i)) ∨
      (SB.InLoop (c.pc i) ∧ (∀ c', s'.sb.view b = some c' → c'.stopped = false) ∧ 2 * (unreadOf c.ch i).length + 2 ≤ (userActs ys).countP (SB.isGo b i))) :
    ∃ c', s'.sb.view b = some c' ∧ (enumerated (s.raw b)).take ((s.raw b).length - (s.sb.thr b).inHand.length) <+: received c' i := by
  obtain ⟨as, h1, h2, -⟩ := path h0
  obtain ⟨bs, k1, k2, -⟩ := path he
  rw [← isGo_path b i k2] at hrun
  obtain ⟨c', j1, j2⟩ := SB.C92_loop_gets_all hm hd b i hpk hstr (as := as) (bs := bs)
    (fun a ha => (List.mem_append.1 ha).elim (oneUser_path h2 (fun a ha => hu a (by simp [ha])) a) (oneUser_path k2 (fun a ha => hu a (by simp [ha])) a))
    h1 c hv (stay_path k2 hstay) k1 hrun
  refine ⟨c', j1, ?_⟩
  have := (C51_never_rejects hkey h0 hn hk).1 b
  have hl := congrArg List.length this
  simp only [List.length_append, enumerated, List.length_mapIdx] at hl
  rw [← this, List.take_append_of_le_length (by omega), List.take_of_length_le (by omega)]
  exact j2

end Simp
end S2P
