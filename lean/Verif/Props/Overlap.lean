import Verif.Spec.Overlap
import Verif.Props.StreamBuffer
import Verif.Props.PlainRead
/-
What remains true when threads of several sessions are at work at the same time: `start()` may be called while the thread of an earlier session is still inside
`source.read()`. Every execution of the machine of Model/StreamBuffer.lean; nothing is assumed about restarts.
-/
namespace S2P
namespace SB
open Spec
variable {K V I : Type} [LinearOrder K] [BEq V] [ReflBEq V] {cfg : SBCfg K V} {as bs : List (SBAct K V I)} {s s' : SB K V I}

/-- What is known of thread `t`. -/
structure Kept (s : SB K V I) (t : Nat) (lost : List V) : Prop where
  eq : dataRead t s.log = (placed t s.log).map (·.2) ++ (s.thr t).inHand ++ refusedBy t s.log ++ lost
  one : (refusedBy t s.log ++ lost).length ≤ 1
  out : refusedBy t s.log ++ lost ≠ [] → (s.thr t).over = true
  died : lost ≠ [] → Ev.crashed t .attributeError ∈ s.log
  up : (t :: (placed t s.log).map (·.1)).Pairwise (· ≤ ·)
  low : ∀ b ∈ (placed t s.log).map (·.1), b < s.n
  storing : ∀ b v, s.thr t = .storing b v → t ≤ b ∧ b < s.n ∧ ∀ b' ∈ (placed t s.log).map (·.1), b' ≤ b

omit [LinearOrder K] [BEq V] [ReflBEq V] in
theorem Kept.init (t : Nat) : Kept (SB.init : SB K V I) t [] :=
  ⟨rfl, by simp [refusedBy, SB.init], by simp [refusedBy, SB.init], by simp, by simp [placed, SB.init], by simp [placed, SB.init], by simp [SB.init]⟩

/-- The part of one observation. -/
def placed1 (t : Nat) : Ev V I → List (Nat × V)
  | .stored t' b v => if t' = t then [(b, v)] else []
  | _ => []
def dataRead1 (t : Nat) : Ev V I → List V
  | .read t' (some v) => if t' = t then [v] else []
  | _ => []
def refused1 (t : Nat) : Ev V I → List V
  | .refused t' _ v _ => if t' = t then [v] else []
  | _ => []

omit [BEq V] [ReflBEq V] in
theorem placed_snoc (t : Nat) (l : List (Ev V I)) (e : Ev V I) : placed t (l ++ [e]) = placed t l ++ placed1 t e := by
  cases e <;> simp [placed, placed1] <;> split <;> simp_all
omit [BEq V] [ReflBEq V] in
theorem dataRead_snoc (t : Nat) (l : List (Ev V I)) (e : Ev V I) : dataRead t (l ++ [e]) = dataRead t l ++ dataRead1 t e := by
  cases e
  case read t' r => cases r <;> simp [dataRead, dataRead1] <;> split <;> simp_all
  all_goals simp [dataRead, dataRead1]
omit [BEq V] [ReflBEq V] in
theorem refused_snoc (t : Nat) (l : List (Ev V I)) (e : Ev V I) : refusedBy t (l ++ [e]) = refusedBy t l ++ refused1 t e := by
  cases e <;> simp [refusedBy, refused1] <;> split <;> simp_all

omit [LinearOrder K] [BEq V] [ReflBEq V] in
theorem Kept.other {lost : List V} {t : Nat} (h : Kept s t lost) (hd : dataRead t s'.log = dataRead t s.log) (hp : placed t s'.log = placed t s.log)
    (hr : refusedBy t s'.log = refusedBy t s.log) (hlog : ∀ e, Ev.crashed t e ∈ s.log → Ev.crashed t e ∈ s'.log) (hn : s.n ≤ s'.n)
    (hh : (s'.thr t).inHand = (s.thr t).inHand) (ho : (s.thr t).over = true → (s'.thr t).over = true)
    (hst : ∀ b v, s'.thr t = .storing b v → s.thr t = .storing b v ∨ (t < s.n ∧ b + 1 = s.n)) : Kept s' t lost := by
  obtain ⟨h1, h2, h3, h4, h5, h6, h7⟩ := h
  refine ⟨by rw [hd, hp, hr, hh]; exact h1, by rw [hr]; exact h2, fun hx => ho (h3 (by rw [hr] at hx; exact hx)), fun hl => hlog _ (h4 hl), by rw [hp]; exact h5,
    by rw [hp]; exact fun b hb => Nat.lt_of_lt_of_le (h6 b hb) hn, ?_⟩
  rw [hp]
  intro b v hv
  rcases hst b v hv with h | ⟨h, h'⟩
  · exact ⟨(h7 b v h).1, Nat.lt_of_lt_of_le (h7 b v h).2.1 hn, (h7 b v h).2.2⟩
  · refine ⟨by omega, by omega, fun b' hb' => ?_⟩
    have := h6 b' hb'
    omega

omit [LinearOrder K] [BEq V] [ReflBEq V] in
theorem in_loop {lost : List V} {t : Nat} (h3 : refusedBy t s.log ++ lost ≠ [] → (s.thr t).over = true) (h : (s.thr t).over = false) :
    refusedBy t s.log = [] ∧ lost = [] := by
  rw [← List.append_eq_nil_iff]
  by_contra hc
  rw [h3 hc] at h
  exact absurd h (by decide)

set_option maxHeartbeats 4000000 in
omit [ReflBEq V] in
theorem kept_step {a : SBAct K V I} {lost : List V} {t : Nat} (hi : s.Inv) (h : Kept s t lost) (hs : s.step cfg a = some s') :
    ∃ lost', Kept s' t lost' := by
  have hn : s.n ≤ t → s.thr t = .unborn := hi.noThr t
  have hb : ∀ b, s.sourceBuffer = some b → b + 1 = s.n := fun b h => (hi.sb b h).2
  have hph : ∀ t', s.start = some .launch → s.thread = some t' → s.thr t' = .fresh := by
    intro t' h h'
    have hp := hi.ph
    rw [h] at hp
    obtain ⟨_, h2, h3, _⟩ := hp
    rw [h'] at h2
    injection h2 with h2
    rw [h2]
    exact h3
  clear hi
  have hst := step_to hs
  clear hs
  cases hst
  case appendNone t' v hv hb' =>
    by_cases ht : t = t'
    · subst ht
      obtain ⟨h1, h2, h3, h4, h5, h6, h7⟩ := h
      obtain ⟨he1, he2⟩ := in_loop h3 (by rw [hv]; rfl)
      rw [he1, he2, hv] at h1
      refine ⟨[v], ?_, ?_, ?_, ?_, ?_, ?_, ?_⟩
      all_goals try dsimp only [say, setThr]
      all_goals try simp only [placed_snoc, dataRead_snoc, refused_snoc, placed1, dataRead1, refused1, List.append_nil, he1, if_true]
      · simpa [TPC.inHand] using h1
      · simp
      · simp [TPC.over]
      · simp
      · exact h5
      · exact h6
      · simp
    · refine ⟨lost, h.other ?_ ?_ ?_ ?_ ?_ ?_ ?_ ?_⟩
      all_goals try dsimp only [say, setThr]
      all_goals simp [placed_snoc, dataRead_snoc, refused_snoc, placed1, dataRead1, refused1, ht]
      all_goals first | exact fun e he => .inl he | exact fun b v h => .inl h
  case readSome t' v hv =>
    by_cases ht : t = t'
    · subst ht
      obtain ⟨h1, h2, h3, h4, h5, h6, h7⟩ := h
      obtain ⟨he1, he2⟩ := in_loop h3 (by rw [hv]; rfl)
      rw [he1, he2, hv] at h1
      refine ⟨[], ?_, ?_, ?_, ?_, ?_, ?_, ?_⟩
      all_goals try dsimp only [say, setThr]
      all_goals try simp only [placed_snoc, dataRead_snoc, refused_snoc, placed1, dataRead1, refused1, List.append_nil, he1, if_true]
      · rw [h1]; simp [TPC.inHand]
      · simp
      · simp
      · simp
      · exact h5
      · exact h6
      · simp
    · refine ⟨lost, h.other ?_ ?_ ?_ ?_ ?_ ?_ ?_ ?_⟩
      all_goals try dsimp only [say, setThr]
      all_goals simp [placed_snoc, dataRead_snoc, refused_snoc, placed1, dataRead1, refused1, ht, Ne.symm ht]
      all_goals exact fun b v h => .inl h
  case stored t' b v x r hv hx hr =>
    by_cases ht : t = t'
    · subst ht
      obtain ⟨h1, h2, h3, h4, h5, h6, h7⟩ := h
      obtain ⟨he1, he2⟩ := in_loop h3 (by rw [hv]; rfl)
      obtain ⟨g1, g2, g3⟩ := h7 b v hv
      rw [he1, he2, hv] at h1
      refine ⟨[], ?_, ?_, ?_, ?_, ?_, ?_, ?_⟩
      all_goals try dsimp only [say, setThr, setBuf]
      all_goals try simp only [placed_snoc, dataRead_snoc, refused_snoc, placed1, dataRead1, refused1, List.append_nil, he1, if_true]
      · rw [h1]; simp [TPC.inHand]
      · simp
      · simp
      · simp
      · rw [List.map_append, ← List.cons_append, List.pairwise_append]
        refine ⟨h5, by simp, ?_⟩
        intro b' hb' b2 hb2
        have hb2 : b2 = b := by simpa using hb2
        subst hb2
        rcases List.mem_cons.mp hb' with rfl | hb'
        · exact g1
        · exact g3 b' hb'
      · simp only [List.map_append, List.mem_append, List.map_cons, List.map_nil, List.mem_singleton]
        rintro b' (hb' | rfl)
        · exact h6 b' hb'
        · exact g2
      · simp
    · refine ⟨lost, h.other ?_ ?_ ?_ ?_ ?_ ?_ ?_ ?_⟩
      all_goals try dsimp only [say, setThr, setBuf]
      all_goals simp [placed_snoc, dataRead_snoc, refused_snoc, placed1, dataRead1, refused1, ht, Ne.symm ht]
      all_goals exact fun b v h => .inl h
  case refused t' b v x e hv hx hr =>
    by_cases ht : t = t'
    · subst ht
      obtain ⟨h1, h2, h3, h4, h5, h6, h7⟩ := h
      obtain ⟨he1, he2⟩ := in_loop h3 (by rw [hv]; rfl)
      rw [he1, he2, hv] at h1
      refine ⟨[], ?_, ?_, ?_, ?_, ?_, ?_, ?_⟩
      all_goals try dsimp only [say, setThr, setBuf]
      all_goals try simp only [placed_snoc, dataRead_snoc, refused_snoc, placed1, dataRead1, refused1, List.append_nil, he1, if_true]
      · rw [h1]; simp [TPC.inHand]
      · simp
      · simp [TPC.over]
      · simp
      · exact h5
      · exact h6
      · simp
    · refine ⟨lost, h.other ?_ ?_ ?_ ?_ ?_ ?_ ?_ ?_⟩
      all_goals try dsimp only [say, setThr, setBuf]
      all_goals simp [placed_snoc, dataRead_snoc, refused_snoc, placed1, dataRead1, refused1, ht, Ne.symm ht]
      all_goals exact fun b v h => .inl h
  case keyRaise t' e b v hv =>
    by_cases ht : t = t'
    · subst ht
      obtain ⟨h1, h2, h3, h4, h5, h6, h7⟩ := h
      obtain ⟨he1, he2⟩ := in_loop h3 (by rw [hv]; rfl)
      rw [he1, he2, hv] at h1
      refine ⟨[], ?_, ?_, ?_, ?_, ?_, ?_, ?_⟩
      all_goals try dsimp only [say, setThr, setBuf]
      all_goals try simp only [placed_snoc, dataRead_snoc, refused_snoc, placed1, dataRead1, refused1, List.append_nil, he1, if_true]
      · rw [h1]; simp [TPC.inHand]
      · simp
      · simp [TPC.over]
      · simp
      · exact h5
      · exact h6
      · simp
    · refine ⟨lost, h.other ?_ ?_ ?_ ?_ ?_ ?_ ?_ ?_⟩
      all_goals try dsimp only [say, setThr, setBuf]
      all_goals simp [placed_snoc, dataRead_snoc, refused_snoc, placed1, dataRead1, refused1, ht, Ne.symm ht]
      all_goals exact fun b v h => .inl h
  all_goals refine ⟨lost, h.other ?_ ?_ ?_ ?_ ?_ ?_ ?_ ?_⟩
  all_goals clear h
  all_goals try dsimp only [say, setThr, setBuf, setEvent, setNext, setDrop, setInfo, newSess, running]
  all_goals try simp only [placed_snoc, dataRead_snoc, refused_snoc, placed1, dataRead1, refused1, List.append_nil]
  all_goals first
    | assumption
    | rfl
    | exact fun e he => he
    | exact fun e he => List.mem_append_left _ he
    | exact fun e he => List.mem_append_left _ (List.mem_append_left _ he)
    | exact Nat.le_refl _
    | exact fun h => h
    | exact fun b v h => .inl h
    | grind [TPC.inHand, TPC.over]
omit [ReflBEq V] in
theorem kept (he : SB.init.exec cfg as = some s) (t : Nat) : ∃ lost, Kept s t lost := by
  have : s.Inv ∧ ∃ lost, Kept s t lost := exec_ind (cfg := cfg) (P := fun s : SB K V I => s.Inv ∧ ∃ lost, Kept s t lost)
    (fun _ _ _ h hs => ⟨h.1.step hs, h.2.elim fun _ hk => kept_step h.1 hk hs⟩) ⟨Inv.init, [], Kept.init t⟩ he
  exact this.2

omit [ReflBEq V] in
/-- **C166** nothing a thread reads gets lost or stored twice, whatever sessions it stores into: the data that `source.read()` returned to thread `t` are, in order,
what it stored (in whatever session), then at most one item: the one in its hands, the one refused, or the one it had when it found no buffer to put it in, on
which it died with `AttributeError`. Every execution. -/
theorem C166_conserved (he : SB.init.exec cfg as = some s) (t : Nat) :
    ∃ lost, dataRead t s.log = (placed t s.log).map (·.2) ++ (s.thr t).inHand ++ refusedBy t s.log ++ lost ∧
      ((s.thr t).inHand ++ refusedBy t s.log ++ lost).length ≤ 1 ∧ (lost ≠ [] → Ev.crashed t .attributeError ∈ s.log) := by
  obtain ⟨lost, h⟩ := kept he t
  refine ⟨lost, h.eq, ?_, h.died⟩
  by_cases hc : refusedBy t s.log ++ lost = []
  · rw [List.append_assoc, hc, List.append_nil]
    cases s.thr t <;> simp [TPC.inHand]
  · have := h.out hc
    have hh : (s.thr t).inHand = [] := by
      revert this
      cases s.thr t <;> simp [TPC.inHand, TPC.over]
    rw [hh]
    exact h.one

omit [ReflBEq V] in
/-- **C166** and it never stores into a session before its own, nor goes back from a later one to an earlier one. Every execution. -/
theorem C166_forward (he : SB.init.exec cfg as = some s) (t : Nat) : (t :: (placed t s.log).map (·.1)).Pairwise (· ≤ ·) := by
  obtain ⟨lost, h⟩ := kept he t
  exact h.up

omit [BEq V] [ReflBEq V] in
theorem brought_stored (b : Nat) (l : List (Ev V I)) : (brought b l).map (·.2) = storedIn b l := by
  unfold brought storedIn
  rw [List.map_filterMap]
  congr 1
  funext e
  cases e <;> simp

omit [BEq V] [ReflBEq V] in
theorem brought_by (b t : Nat) (l : List (Ev V I)) :
    ((brought b l).filter fun p => p.1 = t).map (·.2) = ((placed t l).filter fun p => p.1 = b).map (·.2) := by
  induction l with
  | nil => rfl
  | cons e l ih =>
    have hb : brought b (e :: l) = brought b [e] ++ brought b l := by rw [← List.singleton_append]; simp only [brought, List.filterMap_append]
    have hp : placed t (e :: l) = placed t [e] ++ placed t l := by rw [← List.singleton_append]; simp only [placed, List.filterMap_append]
    rw [hb, hp, List.filter_append, List.filter_append, List.map_append, List.map_append, ih]
    congr 1
    cases e <;> simp [brought, placed]
    rename_i t' b' v
    by_cases h1 : t' = t <;> by_cases h2 : b' = b <;> simp [h1, h2]

omit [ReflBEq V] in
/-- **C166** so what is stored in a session is put together from parts of what threads of this and earlier sessions read, each in order and each item once.
Every execution. -/
theorem C166_merge (he : SB.init.exec cfg as = some s) (b : Nat) :
    (brought b s.log).map (·.2) = storedIn b s.log ∧ Merged (brought b s.log) s.log ∧ ∀ p ∈ brought b s.log, p.1 ≤ b := by
  refine ⟨brought_stored b _, fun t => ?_, ?_⟩
  · obtain ⟨lost, h⟩ := kept he t
    rw [brought_by, h.eq, List.append_assoc, List.append_assoc]
    exact (List.filter_sublist.map _).trans (List.sublist_append_left _ _)
  · rintro ⟨t, v⟩ hp
    have hm : (b, v) ∈ placed t s.log := by
      simp only [brought, placed, List.mem_filterMap] at hp ⊢
      obtain ⟨e, he, h⟩ := hp
      refine ⟨e, he, ?_⟩
      cases e <;> simp at h ⊢
      obtain ⟨h1, h2, h3⟩ := h
      exact ⟨h2, h1, h3⟩
    have := C166_forward he t
    exact (List.pairwise_cons.mp this).1 b (List.mem_map_of_mem (f := (·.1)) hm)

/-- **C166** and what a consumer is handed by a reader of session `b`, in whatever way it reads, then what it can still read, is put together in the same way from
what threads of this and earlier sessions read: no item twice, none of a later session. Every execution. -/
theorem C166_consumer (he : SB.init.exec cfg as = some s) (b i : Nat) (c : Cons K V) (hv : s.view b = some c) (ho : OnlyReads cfg.rdCfg i c.ops) :
    ∃ l : List (Nat × V), l.map (·.2) = delivered cfg.rdCfg i c.ops c.outs ++ unreadOf c.ch i ∧ Merged l s.log ∧ ∀ p ∈ l, p.1 ≤ b := by
  have h := C118_part_of_stored b i he c hv ho
  obtain ⟨h1, h2, h3⟩ := C166_merge he b
  rw [← h1, List.sublist_map_iff] at h
  obtain ⟨l, hl, hq⟩ := h
  refine ⟨l, hq.symm, fun t => ((hl.filter _).map _).trans (h2 t), fun p hp => h3 p (hl.subset hp)⟩

/-- The thread is about to put an item into the buffer of session `b`. -/
def aims (b : Nat) : TPC V → Nat
  | .storing b' _ => if b' = b then 1 else 0
  | _ => 0

omit [BEq V] [ReflBEq V] in
theorem countP_stores (t b : Nat) (l : List (Ev V I)) : l.countP (isStoreTo t b) = ((placed t l).filter fun p => p.1 = b).length := by
  induction l with
  | nil => rfl
  | cons e l ih =>
    have hp : placed t (e :: l) = placed t [e] ++ placed t l := by rw [← List.singleton_append]; simp only [placed, List.filterMap_append]
    rw [hp, List.filter_append, List.length_append, List.countP_cons, ih, Nat.add_comm]
    congr 1
    cases e <;> simp [placed, isStoreTo]
    rename_i t' b' v
    by_cases h1 : t' = t <;> by_cases h2 : b' = b <;> simp [h1, h2]

set_option maxHeartbeats 4000000 in
omit [ReflBEq V] in
theorem aims_step {a : SBAct K V I} {t b : Nat} (hi : s.Inv) (hb : b + 1 < s.n) (hs : s.step cfg a = some s') :
    b + 1 < s'.n ∧ ((placed t s'.log).filter fun p => p.1 = b).length + aims b (s'.thr t) ≤
      ((placed t s.log).filter fun p => p.1 = b).length + aims b (s.thr t) := by
  have hsb : ∀ b', s.sourceBuffer = some b' → b' ≠ b := fun b' h => by have := (hi.sb b' h).2; omega
  clear hi
  have hst := step_to hs
  clear hs
  cases hst
  all_goals refine ⟨?_, ?_⟩
  all_goals try dsimp only [say, setThr, setBuf, setEvent, setNext, setDrop, setInfo, newSess, running]
  all_goals try simp only [placed_snoc, placed1, List.append_nil, List.filter_append, List.length_append]
  all_goals first
    | exact hb
    | exact Nat.le_refl _
    | omega
    | grind [aims]

omit [ReflBEq V] in
/-- **C166** once a later `start()` has opened the source, the buffer of an earlier session gets at most one more item from each thread: the one the thread was
about to put there. Every execution. -/
theorem C166_old_session (he : SB.init.exec cfg as = some s) {b k : Nat} (hk : Ev.opened k ∈ s.log ∨ Ev.openRaised k ∈ s.log) (hb : b < k)
    (he' : s.exec cfg bs = some s') (t : Nat) : s'.log.countP (isStoreTo t b) ≤ s.log.countP (isStoreTo t b) + 1 := by
  have hlt : k < s.n := (good he).log.latest k hk
  have := exec_ind (cfg := cfg) (P := fun x : SB K V I => x.Inv ∧ b + 1 < x.n ∧ ((placed t x.log).filter fun p => p.1 = b).length + aims b (x.thr t) ≤
      ((placed t s.log).filter fun p => p.1 = b).length + aims b (s.thr t))
    (fun x a x' h hs => ⟨h.1.step hs, (aims_step (t := t) h.1 h.2.1 hs).1, (aims_step h.1 h.2.1 hs).2.trans h.2.2⟩) ⟨(good he).inv, by omega, Nat.le_refl _⟩ he'
  rw [countP_stores, countP_stores]
  have h1 : aims b (s.thr t) ≤ 1 := by cases s.thr t <;> simp [aims]; split <;> omega
  omega

end SB
end S2P
