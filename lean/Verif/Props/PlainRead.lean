import Verif.Props.ShortSession
import Verif.Props.Poll
/-
C118, C119: from the source to a reader that is used in any way: `read(...)`, `reader.next(...)`, `next(reader)`, `for`, blocking reads, peeks, and (C119)
`range` and `tail` with `only_new_items=True`. `c.ops` and `c.outs` are the calls made on the session's buffer, by whoever, in the order in which they took
effect, and their outcomes.
-/
namespace S2P
open Spec
variable {K V I : Type}
section
variable [LinearOrder K] [BEq V] [ReflBEq V] {key : V → K} {kn : Py (Option K)} {m : Option Nat} {cfg : Nat → Cfg}

/-- One buffer: what is retained is the end of what was accepted; if it is all of it, a reader that only reads has missed nothing. -/
theorem retained_run (i : Nat) (ops : List (ChOp K V)) (hops : OnlyReads cfg i ops) :
    (Ch.run (Ch.init key kn m cfg) ops).1.buf.items <:+ takenAll ops (Ch.run (Ch.init key kn m cfg) ops).2 ∧
    ((Ch.run (Ch.init key kn m cfg) ops).1.buf.items = takenAll ops (Ch.run (Ch.init key kn m cfg) ops).2 →
      Whole key (Ch.run (Ch.init key kn m cfg) ops).1.buf.items ((Ch.run (Ch.init key kn m cfg) ops).1.readers i).lastItem
        (takenAll ops (Ch.run (Ch.init key kn m cfg) ops).2) (delivered cfg i ops (Ch.run (Ch.init key kn m cfg) ops).2)) := by
  induction ops using List.reverseRecOn with
  | nil => exact ⟨List.suffix_refl _, fun _ => ⟨List.suffix_refl _, rfl, List.prefix_refl _⟩⟩
  | append_singleton ops op ih =>
    have hlen := Ch.run_length (Ch.init key kn m cfg) ops
    obtain ⟨i1, i2⟩ := ih (fun o ho => hops o (by simp [ho]))
    have hr : Ch.Reach key kn m cfg (Ch.run (Ch.init key kn m cfg) ops).1 := ⟨ops, rfl⟩
    have hop : ∀ o, op = .rd i o → consumes (cfg i) o ∨ peeks (cfg i) o := fun o ho => hops o (by simp [ho])
    rw [Ch.run_snoc, delivered_snoc _ _ _ _ _ _ hlen, takenAll_snoc _ _ _ _ hlen]
    have hfull : (Ch.run (Ch.init key kn m cfg) ops).1.buf.items = takenAll ops (Ch.run (Ch.init key kn m cfg) ops).2 →
        Whole key ((Ch.run (Ch.init key kn m cfg) ops).1.step op).1.buf.items (((Ch.run (Ch.init key kn m cfg) ops).1.step op).1.readers i).lastItem
          (takenAll ops (Ch.run (Ch.init key kn m cfg) ops).2 ++ taken op ((Ch.run (Ch.init key kn m cfg) ops).1.step op).2)
          (delivered cfg i ops (Ch.run (Ch.init key kn m cfg) ops).2 ++ handed cfg i op ((Ch.run (Ch.init key kn m cfg) ops).1.step op).2) := by
      intro h
      refine whole_step hr i op hop (i2 h) ?_ ?_
      · rw [← h]; exact hr.sim.strict
      · rw [← h]; omega
    rcases ch_step hr i op hop with ⟨v, h1, h2, -, h3, h4⟩ | ⟨h1, h2, ⟨n, h3⟩, h4⟩ | ⟨h1, h2, h3, h4⟩
    · refine ⟨?_, fun h => hfull (i1.eq_of_length ?_)⟩
      · rw [h1, h3]
        obtain ⟨t, ht⟩ := i1
        exact (newest_suffix _ _).trans ⟨t, by rw [← ht]; simp⟩
      · have l1 := congrArg List.length h
        rw [h1, h3] at l1
        have l2 := (newest_suffix m ((Ch.run (Ch.init key kn m cfg) ops).1.buf.items ++ [v])).length_le
        have l3 := i1.length_le
        simp at l1 l2
        omega
    · refine ⟨?_, fun h => hfull (i1.eq_of_length ?_)⟩
      · rw [h1, h3, List.append_nil]; exact (List.drop_suffix _ _).trans i1
      · have l1 := congrArg List.length h
        rw [h1, h3] at l1
        have l3 := i1.length_le
        simp at l1
        omega
    · refine ⟨?_, fun h => hfull ?_⟩
      · rw [h1, h2, List.append_nil]; exact i1
      · rw [h1, h2, List.append_nil] at h; exact h

theorem whole_step_new {c : Ch K V} (hkn : ∀ k, kn ≠ .ok (some k)) (h : Ch.Reach key kn m cfg c) (i : Nat) (op : ChOp K V)
    (hop : ∀ o, op = .rd i o → takesNew (cfg i) o ∨ peeks (cfg i) o)
    (hsk : ∀ o, op = .rd i o → skipsNothing (cfg i) (fun k => ∃ v ∈ c.buf.items, key v = k) o ∨ peeks (cfg i) o)
    {D A : List V} (hw : Whole key c.buf.items (c.readers i).lastItem A D) (hA : A.Pairwise (fun v x => key v < key x))
    (hl : A.length ≤ c.buf.items.length + D.length) :
    Whole key (c.step op).1.buf.items ((c.step op).1.readers i).lastItem (A ++ taken op (c.step op).2) (D ++ newHanded cfg i op (c.step op).2) := by
  have hall := hw.all hA hl
  obtain ⟨w1, w2, w3⟩ := hw
  rcases ch_step_new hkn h i op hop with ⟨v, h1, h2, -, h3, h4⟩ | ⟨h1, h2, ⟨⟨n, h3⟩, -⟩, h4⟩ | ⟨h1, h2, -, h3, h4⟩
  · rw [h1, h2, h3, h4, List.append_nil]
    refine ⟨(newest_suffix _ _).trans ?_, w2, w3.trans (List.prefix_append _ _)⟩
    obtain ⟨t, ht⟩ := w1
    exact ⟨t, by rw [← ht]; simp⟩
  · rw [h1, h2, h3, h4, List.append_nil, List.append_nil]
    exact ⟨(List.drop_suffix _ _).trans w1, w2, w3⟩
  · rw [h1, h2, h4, List.append_nil]
    refine ⟨w1, ?_, ?_⟩
    · rw [List.getLast?_append]
      cases (newHanded cfg i op (c.step op).2).getLast? with
      | none => simpa using w2
      | some z => rfl
    · rw [← hall]
      exact (List.prefix_append_right_inj D).2 (h3 hsk)

omit [BEq V] [ReflBEq V] in
theorem skips_fewer {c : Cfg} {P Q : K → Prop} (hPQ : ∀ k, P k → Q k) (o : RdOp K V) (h : skipsNothing c Q o) : skipsNothing c P o := by
  cases o <;> try exact h
  exact ⟨h.1, h.2.1, h.2.2.1, fun k hk => h.2.2.2 k (hPQ k hk)⟩

/-- The same for a reader that polls with calls that leave nothing out. -/
theorem retained_run_new (hkn : ∀ k, kn ≠ .ok (some k)) (i : Nat) (ops : List (ChOp K V)) (hops : OnlyNew cfg i ops)
    (hsk : ∀ o, .rd i o ∈ ops → skipsNothing (cfg i) (fun k => ∃ v ∈ takenAll ops (Ch.run (Ch.init key kn m cfg) ops).2, key v = k) o ∨ peeks (cfg i) o) :
    (Ch.run (Ch.init key kn m cfg) ops).1.buf.items <:+ takenAll ops (Ch.run (Ch.init key kn m cfg) ops).2 ∧
    ((Ch.run (Ch.init key kn m cfg) ops).1.buf.items = takenAll ops (Ch.run (Ch.init key kn m cfg) ops).2 →
      Whole key (Ch.run (Ch.init key kn m cfg) ops).1.buf.items ((Ch.run (Ch.init key kn m cfg) ops).1.readers i).lastItem
        (takenAll ops (Ch.run (Ch.init key kn m cfg) ops).2) (newDelivered cfg i ops (Ch.run (Ch.init key kn m cfg) ops).2)) := by
  induction ops using List.reverseRecOn with
  | nil => exact ⟨List.suffix_refl _, fun _ => ⟨List.suffix_refl _, rfl, List.prefix_refl _⟩⟩
  | append_singleton ops op ih =>
    have hlen := Ch.run_length (Ch.init key kn m cfg) ops
    rw [Ch.run_snoc, takenAll_snoc _ _ _ _ hlen] at hsk
    obtain ⟨i1, i2⟩ := ih (fun o ho => hops o (by simp [ho]))
      (fun o ho => (hsk o (by simp [ho])).imp (skips_fewer (fun k ⟨v, hv, e⟩ => ⟨v, by simp [hv], e⟩) o) id)
    have hr : Ch.Reach key kn m cfg (Ch.run (Ch.init key kn m cfg) ops).1 := ⟨ops, rfl⟩
    have hop : ∀ o, op = .rd i o → takesNew (cfg i) o ∨ peeks (cfg i) o := fun o ho => hops o (by simp [ho])
    rw [Ch.run_snoc, newDelivered_snoc _ _ _ _ _ _ hlen, takenAll_snoc _ _ _ _ hlen]
    have hfull : (Ch.run (Ch.init key kn m cfg) ops).1.buf.items = takenAll ops (Ch.run (Ch.init key kn m cfg) ops).2 →
        Whole key ((Ch.run (Ch.init key kn m cfg) ops).1.step op).1.buf.items (((Ch.run (Ch.init key kn m cfg) ops).1.step op).1.readers i).lastItem
          (takenAll ops (Ch.run (Ch.init key kn m cfg) ops).2 ++ taken op ((Ch.run (Ch.init key kn m cfg) ops).1.step op).2)
          (newDelivered cfg i ops (Ch.run (Ch.init key kn m cfg) ops).2 ++ newHanded cfg i op ((Ch.run (Ch.init key kn m cfg) ops).1.step op).2) := by
      intro h
      refine whole_step_new hkn hr i op hop ?_ (i2 h) ?_ ?_
      · exact fun o ho => (hsk o (by simp [ho])).imp (skips_fewer (fun k ⟨v, hv, e⟩ => ⟨v, by rw [← h]; simp [hv], e⟩) o) id
      · rw [← h]; exact hr.sim.strict
      · rw [← h]; omega
    rcases ch_step_new hkn hr i op hop with ⟨v, h1, h2, -, h3, h4⟩ | ⟨h1, h2, ⟨⟨n, h3⟩, -⟩, h4⟩ | ⟨h1, h2, -, h3, h4⟩
    · refine ⟨?_, fun h => hfull (i1.eq_of_length ?_)⟩
      · rw [h1, h3]
        obtain ⟨t, ht⟩ := i1
        exact (newest_suffix _ _).trans ⟨t, by rw [← ht]; simp⟩
      · have l1 := congrArg List.length h
        rw [h1, h3] at l1
        have l2 := (newest_suffix m ((Ch.run (Ch.init key kn m cfg) ops).1.buf.items ++ [v])).length_le
        have l3 := i1.length_le
        simp at l1 l2
        omega
    · refine ⟨?_, fun h => hfull (i1.eq_of_length ?_)⟩
      · rw [h1, h3, List.append_nil]; exact (List.drop_suffix _ _).trans i1
      · have l1 := congrArg List.length h
        rw [h1, h3] at l1
        have l3 := i1.length_le
        simp at l1
        omega
    · refine ⟨?_, fun h => hfull ?_⟩
      · rw [h1, h2, List.append_nil]; exact i1
      · rw [h1, h2, List.append_nil] at h; exact h

end

namespace SB
variable [LinearOrder K] [BEq V] [ReflBEq V] {cfg : SBCfg K V} {s s' : SB K V I} {a : SBAct K V I} {as : List (SBAct K V I)}

omit [LinearOrder K] [BEq V] [ReflBEq V] in
/-- Every action leaves some reader alone. -/
theorem some_other (b : Nat) (a : SBAct K V I) : ∃ i, OneUser b i a := by
  cases a with
  | rd b' x =>
    cases x with
    | call op =>
      cases op with
      | rd j o => exact ⟨j + 1, fun _ => by simp [S2P.OneUser]⟩
      | _ => exact ⟨0, fun _ => trivial⟩
    | callRead j n p st => exact ⟨j + 1, fun _ h => by omega⟩
    | _ => exact ⟨0, fun _ => trivial⟩
  | attach b' j k => exact ⟨k + 1, by simp [OneUser]⟩
  | _ => exact ⟨0, trivial⟩

omit [ReflBEq V] in
/-- What the calls on a session's buffer added to it is what was stored in the session. -/
theorem history (b : Nat) (he : SB.init.exec cfg as = some s) :
    (∀ c, s.view b = some c → c.outs.length = c.ops.length ∧ takenAll c.ops c.outs = storedIn b s.log) ∧ (s.view b = none → storedIn b s.log = []) := by
  refine exec_ind (P := fun s : SB K V I => s.Inv ∧ (∀ c, s.view b = some c → c.outs.length = c.ops.length ∧ takenAll c.ops c.outs = storedIn b s.log) ∧
    (s.view b = none → storedIn b s.log = [])) ?_ ⟨Inv.init, fun c hv => by simp [view, SB.init] at hv, fun _ => rfl⟩ he |>.2
  rintro s a s' ⟨hi, h1, h2⟩ hs
  refine ⟨hi.step hs, fun c' hv => ?_, fun hv => ?_⟩
  · obtain ⟨i, hu⟩ := some_other b a
    cases view_step' hi b i hu hs c' hv with
    | same _ hv' hl => rw [hl]; exact h1 _ hv'
    | step c _ a hv' hs' ha hl hr =>
      obtain ⟨k1, k2⟩ := h1 c hv'
      rw [hl, ← k2]
      rcases hr with hr | rfl | ⟨op, rfl⟩
      · have ht : c.takes a = [] := by
          cases a with
          | call op => cases op <;> simp [CAct.isReaders] at hr <;> simp [Cons.takes, taken]
          | _ => rfl
        rcases Cons.step_readers hr hs' with ⟨-, e1, e2⟩ | ⟨j, o, -, e1, e2⟩
        · rw [e1, e2, ht, List.append_nil]; exact ⟨k1, rfl⟩
        · rw [e1, e2, ht, takenAll_snoc _ _ _ _ k1]; exact ⟨by simp [k1], by simp [taken]⟩
      · simp only [Cons.step, Option.some.injEq] at hs'; subst hs'; exact ⟨k1, by simp [Cons.takes]⟩
      · simp only [Cons.step, Option.some.injEq] at hs'
        subst hs'
        exact ⟨by simp [Cons.call, k1], takenAll_snoc _ _ _ _ k1⟩
    | new hv' f hl => rw [hl, h2 hv']; exact ⟨rfl, rfl⟩
  · obtain ⟨k1, k2⟩ := no_view_step hs b hv
    rw [k2]; exact h2 k1

/-- **C118** a reader that reads and peeks in any way: what its calls returned to it, peeks apart, then what it can still read, is in order and each once a
part of what was stored in the session. Every execution. -/
theorem C118_part_of_stored (b i : Nat) (he : SB.init.exec cfg as = some s) (c : Cons K V) (hv : s.view b = some c) (ho : OnlyReads cfg.rdCfg i c.ops) :
    (delivered cfg.rdCfg i c.ops c.outs ++ unreadOf c.ch i).Sublist (storedIn b s.log) := by
  have hr := view_reach he b c hv
  have := part_run (key := cfg.key) (kn := cfg.keyNone) (m := cfg.maxlen) i c.ops ho
  rw [hr.run] at this
  rw [unreadOf_eq hr.ch, ← ((history b he).1 c hv).2]
  exact this

/-- **C118** as long as the buffer retains everything stored, such a reader misses nothing: what it was handed, then what it can still read, is exactly what
was stored. Every execution. -/
theorem C118_all_retained (b i : Nat) (he : SB.init.exec cfg as = some s) (c : Cons K V) (hv : s.view b = some c) (ho : OnlyReads cfg.rdCfg i c.ops)
    (hr : s.items b = storedIn b s.log) : delivered cfg.rdCfg i c.ops c.outs ++ unreadOf c.ch i = storedIn b s.log := by
  have hre := view_reach he b c hv
  have hi : s.items b = c.ch.buf.items := by
    obtain ⟨x, hx, rfl⟩ := Option.map_eq_some_iff.1 hv
    simp [items, hx]
  obtain ⟨-, hw⟩ := retained_run (key := cfg.key) (kn := cfg.keyNone) (m := cfg.maxlen) i c.ops ho
  rw [hre.run] at hw
  have ht := ((history b he).1 c hv).2
  have hw := hw (by rw [ht, ← hi]; exact hr)
  have := hw.all (by rw [ht, ← hr, hi]; exact hre.ch.sim.strict) (by rw [ht, ← hr, hi]; exact Nat.le_add_right _ _)
  rw [unreadOf_eq hre.ch, this, ht]

/-- **C118** an unbounded buffer with `auto_drop=True`. -/
theorem C118_unbounded (hm : cfg.maxlen = none) (hd : cfg.autoDrop = true) (b i : Nat) (he : SB.init.exec cfg as = some s) (c : Cons K V)
    (hv : s.view b = some c) (ho : OnlyReads cfg.rdCfg i c.ops) :
    delivered cfg.rdCfg i c.ops c.outs ++ unreadOf c.ch i = storedIn b s.log :=
  C118_all_retained b i he c hv ho (C44_unbounded_auto_partial hm hd he b)

/-- **C118** `auto_drop=True`, `maxlen=m`, a session of at most `m` items. -/
theorem C118_short_session {m : Nat} (hd : cfg.autoDrop = true) (hm : cfg.maxlen = some m) (b i : Nat) (he : SB.init.exec cfg as = some s) (c : Cons K V)
    (hv : s.view b = some c) (ho : OnlyReads cfg.rdCfg i c.ops) (hlen : (storedIn b s.log).length ≤ m) :
    delivered cfg.rdCfg i c.ops c.outs ++ unreadOf c.ch i = storedIn b s.log :=
  C118_all_retained b i he c hv ho (by rw [(C34_only_eviction hd he b).1, hm]; simp [newest, Nat.sub_eq_zero_of_le hlen])

/-- **C118** `auto_drop=False`, any bound, as long as nothing is dropped and every restart finds the earlier threads ended. -/
theorem C118_no_auto_drop (hd : cfg.autoDrop = false) (b i : Nat) (he : SB.init.exec cfg as = some s) (hset : SB.init.Settled cfg as)
    (hdr : droppedFrom b s.log = []) (c : Cons K V) (hv : s.view b = some c) (ho : OnlyReads cfg.rdCfg i c.ops) :
    delivered cfg.rdCfg i c.ops c.outs ++ unreadOf c.ch i = storedIn b s.log :=
  C118_all_retained b i he c hv ho (by have := (room hd he hset).2 b; rw [hdr] at this; simpa using this.symm)

/-- **C119** a reader that also polls with `range` and `tail`, `only_new_items=True`, on a buffer whose key function does not turn `None` into a key: what it
was handed, then what it can still read, is in order and each once a part of what was stored in the session, and the keys of what it was handed increase.
Every execution. -/
theorem C119_part_of_stored (hkn : ∀ k, cfg.keyNone ≠ .ok (some k)) (b i : Nat) (he : SB.init.exec cfg as = some s) (c : Cons K V) (hv : s.view b = some c)
    (ho : OnlyNew cfg.rdCfg i c.ops) :
    (newDelivered cfg.rdCfg i c.ops c.outs ++ unreadOf c.ch i).Sublist (storedIn b s.log) ∧
    (newDelivered cfg.rdCfg i c.ops c.outs).Pairwise (fun v w => cfg.key v < cfg.key w) := by
  have hre := view_reach he b c hv
  have h1 := C99_part_of_accepted (key := cfg.key) (m := cfg.maxlen) hkn i c.ops ho
  have h2 := C99_increasing (key := cfg.key) (m := cfg.maxlen) hkn i c.ops ho
  rw [hre.run] at h1 h2
  exact ⟨by rw [← ((history b he).1 c hv).2]; exact h1, h2⟩

/-- **C119** and as long as the buffer retains everything stored (see C118 for when it does), a reader whose polls have no step and start at or below every
key, and which does not use `tail`, misses nothing. Every execution. -/
theorem C119_all_retained (hkn : ∀ k, cfg.keyNone ≠ .ok (some k)) (b i : Nat) (he : SB.init.exec cfg as = some s) (c : Cons K V) (hv : s.view b = some c)
    (ho : OnlyNew cfg.rdCfg i c.ops)
    (hsk : ∀ o, .rd i o ∈ c.ops → skipsNothing (cfg.rdCfg i) (fun k => ∃ v ∈ storedIn b s.log, cfg.key v = k) o ∨ peeks (cfg.rdCfg i) o)
    (hr : s.items b = storedIn b s.log) : newDelivered cfg.rdCfg i c.ops c.outs ++ unreadOf c.ch i = storedIn b s.log := by
  have hre := view_reach he b c hv
  have hi : s.items b = c.ch.buf.items := by
    obtain ⟨x, hx, rfl⟩ := Option.map_eq_some_iff.1 hv
    simp [items, hx]
  have ht := ((history b he).1 c hv).2
  obtain ⟨-, hw⟩ := retained_run_new (key := cfg.key) (m := cfg.maxlen) hkn i c.ops ho (by rw [hre.run]; simp only [ht]; exact hsk)
  rw [hre.run] at hw
  have hw := hw (by rw [ht, ← hi]; exact hr)
  have := hw.all (by rw [ht, ← hr, hi]; exact hre.ch.sim.strict) (by rw [ht, ← hr, hi]; exact Nat.le_add_right _ _)
  rw [unreadOf_eq hre.ch, this, ht]

end SB
end S2P
