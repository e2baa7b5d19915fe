import Verif.Proofs.RWInterrupt
import Verif.Props.RWLock
/-
C70: Ctrl-C (or any exception raised from outside) while a thread uses the buffer's lock.

`IM.exec body (init n d) as = some s`: with `n` threads, a fresh lock and protected data `d`, the scheduler choices `as` lead to `s`; `.interrupt i`
among them raises an exception in thread `i` (Model/RWInterrupt.lean). `InReader t`, `t.pc = .wCS`: inside a reader / the writer section.
-/
namespace S2P
open RW RWI
variable {D Op : Type}

/-- **C70**, true part: if interrupts strike only threads inside a section (and a writer only after its last mutation), nothing happens that could not
happen without interrupts: a writer is alone, what a reader saw in one section is one state made of whole operations, and when all have left the lock
is free again. -/
theorem C70_whole_partial {body : Op → D → List (D → D)} {n : Nat} {d : D} {as : List (IAct Op)} {s : IM D Op}
    (he : (RWI.init n d : IM D Op).exec body as = some s) (ha : Along WholeAt body (RWI.init n d) as) :
    (∀ (i j : Nat) t u, i ≠ j → s.th[i]? = some t → s.th[j]? = some u → t.pc = .wCS → u.pc ≠ .wCS ∧ ¬ InReader u) ∧
    (∀ t ∈ s.th, ∃ ops, ops <+: s.done ∧ (∀ x ∈ t.seen, x = afterOps (runBody body) d ops) ∧
      (InReader t → ops = s.done ∧ s.data = afterOps (runBody body) d ops)) ∧
    ((∀ t ∈ s.th, t.pc = .idle) → s.lk = LkI.fresh ∧ s.data = afterOps (runBody body) d s.done) := by
  rw [liftM_init] at he ha
  obtain ⟨m, hm, rfl⟩ := exec_whole ⟨[], rfl⟩ ha he
  refine ⟨fun i j t u hij ht hu hw => C28_writer_exclusive hm ht hw hij hu, fun t ht => C29_snapshot hm ht, fun hq => ?_⟩
  obtain ⟨h1, h2⟩ := C32_restored hm hq
  refine ⟨?_, h2⟩
  show lift m.lk = _
  rw [h1]; rfl

/-- **C70**, true part: if interrupts strike only threads inside a section, be it in the middle of a writer's operation, the lock itself stays sound: a
writer is alone, and when all have left the lock is free again. -/
theorem C70_lock_partial {body : Op → D → List (D → D)} {n : Nat} {d : D} {as : List (IAct Op)} {s : IM D Op}
    (he : (RWI.init n d : IM D Op).exec body as = some s) (ha : Along InSectionAt body (RWI.init n d) as) :
    (∀ (i j : Nat) t u, i ≠ j → s.th[i]? = some t → s.th[j]? = some u → t.pc = .wCS → u.pc ≠ .wCS ∧ ¬ InReader u) ∧
    ((∀ t ∈ s.th, t.pc = .idle) → s.lk = LkI.fresh) := by
  have h0 : Erased (RWI.init n d : IM D Op) (RWI.init n () : IM Unit Unit) := ⟨by simp [RWI.init, erT], rfl⟩
  obtain ⟨bs, e, h1, h2, h3⟩ := exec_er h0 ha he
  obtain ⟨g1, -, g2⟩ := C70_whole_partial h1 h2
  refine ⟨fun i j t u hij ht hu hw => ?_, fun hq => ?_⟩
  · have := g1 i j (erT t) (erT u) hij (h3.get ht) (h3.get hu) hw
    exact this
  · rw [← h3.lk]
    refine (g2 fun t ht => ?_).1
    rw [h3.th] at ht
    obtain ⟨t0, h4, rfl⟩ := List.mem_map.1 ht
    exact hq t0 h4

/-- **C70** is false: whatever happened before, once an exception strikes a thread that is waiting for the reader lock behind a writer (anywhere between
lines 43 and 46 of reader_writer_lock.py), then for ever after, whatever the threads do, no thread gets into a reader section that was not in one. -/
theorem C70_refuted_lockout {body : Op → D → List (D → D)} {n : Nat} {d : D} {as bs : List (IAct Op)} {s s' s'' : IM D Op}
    (he : (RWI.init n d : IM D Op).exec body as = some s) {i : Nat} {t : Th D Op} (ht : s.th[i]? = some t)
    (hp : t.pc ∈ [PC.r2, .r3, .r4, .r5, .r6, .r7, .r8]) (hs : s.step body (.interrupt i) = some s') (hb : s'.exec body bs = some s'')
    (j : Nat) (u : Th D Op) (hu : s''.th[j]? = some u) (hin : InReader u) : ∃ u0, s'.th[j]? = some u0 ∧ InReader u0 := by
  have hq : QInv s := exec_keeps (fun _ _ _ h hs => h.step hs) as _ _ (QInv.init n d) he
  have hh : PC.holds t.pc = true := by
    simp only [List.mem_cons, List.not_mem_nil, or_false] at hp
    rcases hp with hp | hp | hp | hp | hp | hp | hp <;> rw [hp] <;> rfl
  have hl : Lost s' := by
    simp only [IM.step, ht] at hs
    split at hs
    · simp at hs
    · injection hs with hs; subst hs
      refine ⟨hq.locked i t ht hh, fun k v hv => ?_⟩
      have hv' : (s.th.set i _)[k]? = some v := hv
      rcases get_set_cases hv' with ⟨rfl, rfl⟩ | ⟨hne, hv'⟩
      · simp only [holds_arrive, holds_unwind]
      · cases hb : PC.holds v.pc with
        | false => rfl
        | true => exact absurd (hq.one k i v t hv' ht hb hh) hne
  exact (hl.exec bs hb).2 j u hu hin

/-! ### Wrong in other ways too -/

/-- One operation: add a number. -/
def noOps : Nat → Nat → List (Nat → Nat) := fun op _ => [fun x => x + op]

/-- Thread 0 reads; writer 1, waiting for it to leave, is interrupted; writer 2 comes. -/
def exIntW : List (IAct Nat) :=
  [.beginRead 0] ++ List.replicate 8 (.go 0) ++ [.beginWrite 1 5] ++ List.replicate 4 (.go 1) ++ [.interrupt 1] ++ List.replicate 5 (.go 1) ++
  [.beginWrite 2 7] ++ List.replicate 5 (.go 2)

/-- **C70** is false: after a waiting writer was interrupted, another writer gets in while a reader is reading. -/
theorem C70_refuted_exclusion : ∃ s, (RWI.init 3 0 : IM Nat Nat).exec noOps exIntW = some s ∧
    ∃ t u, s.th[0]? = some t ∧ InReader t ∧ s.th[2]? = some u ∧ u.pc = .wCS := by
  refine ⟨_, rfl, _, _, rfl, .inl rfl, rfl, rfl⟩

/-- Thread 1 is interrupted before it has got the first lock of `reader_acquire`; reader 2 comes in, then writer 0. -/
def exIntR : List (IAct Nat) :=
  [.beginRead 1, .interrupt 1] ++ List.replicate 4 (.go 1) ++ [.beginRead 2] ++ List.replicate 8 (.go 2) ++
  [.beginWrite 0 5] ++ List.replicate 5 (.go 0)

/-- **C70** is false: after a thread was interrupted on its way to the reader lock, a writer gets in while a reader is reading. -/
theorem C70_refuted_exclusion_reader : ∃ s, (RWI.init 3 0 : IM Nat Nat).exec noOps exIntR = some s ∧
    ∃ t u, s.th[2]? = some t ∧ InReader t ∧ s.th[0]? = some u ∧ u.pc = .wCS := by
  refine ⟨_, rfl, _, _, rfl, .inl rfl, rfl, rfl⟩

/-- `drop(1)` is called, interrupted between `del self._keys[0]` and `del self._items[0]` (sorted_deque.py 151-152), and leaves. -/
def exHalfDrop (V : Type) : List (IAct (WOp V)) :=
  [.beginWrite 0 (.drop 1)] ++ List.replicate 6 (.go 0) ++ [.interrupt 0] ++ List.replicate 5 (.go 0)

/-- **C70** is false: a `drop(1)` of any non-empty buffer may be interrupted half way: afterwards the lock is free, and every item stands beside the key of
its successor. -/
theorem C70_refuted_half_drop {K V : Type} [LT K] [DecidableLT K] (b : SD K V) (k : K) (ks : List K) (v : V) (vs : List V)
    (hk : b.keys = k :: ks) (hv : b.items = v :: vs) :
    ∃ s, (RWI.init 1 b : IM (SD K V) (WOp V)).exec bufBody (exHalfDrop V) = some s ∧
      Along InSectionAt bufBody (RWI.init 1 b) (exHalfDrop V) ∧
      s.data = { b with keys := ks, items := v :: vs } ∧ s.lk = LkI.fresh ∧ (∀ t ∈ s.th, t.pc = .idle) := by
  obtain ⟨keys, items, key, kn, ml⟩ := b
  simp only at hk hv
  subst hk hv
  refine ⟨_, rfl, ?_, rfl, rfl, ?_⟩
  · simp only [exHalfDrop, List.replicate, List.append_eq, List.cons_append, List.nil_append, Along]
    refine ⟨trivial, fun s1 h1 => ⟨trivial, fun s2 h2 => ⟨trivial, fun s3 h3 => ⟨trivial, fun s4 h4 => ⟨trivial, fun s5 h5 => ⟨trivial, fun s6 h6 =>
      ⟨trivial, fun s7 h7 => ⟨?_, fun s8 h8 => ⟨trivial, fun s9 h9 => ⟨trivial, fun s10 h10 => ⟨trivial, fun s11 h11 => ⟨trivial, fun s12 h12 =>
      ⟨trivial, fun s13 h13 => trivial⟩⟩⟩⟩⟩⟩⟩⟩⟩⟩⟩⟩⟩
    injection h1 with h1; subst h1
    injection h2 with h2; subst h2
    injection h3 with h3; subst h3
    injection h4 with h4; subst h4
    injection h5 with h5; subst h5
    injection h6 with h6; subst h6
    injection h7 with h7; subst h7
    intro t ht
    injection ht with ht; subst ht
    exact .inr rfl
  · intro t ht
    change t ∈ [(⟨.idle, 0, none, [], []⟩ : Th (SD K V) (WOp V))] at ht
    rw [List.mem_singleton.1 ht]

/-- ... and lookups give wrong items: of the items 1, 2, 3 with themselves as keys, after the half `drop(1)` asking for key 2 gives item 1. -/
theorem C70_refuted_half_drop_find : ∃ s, (RWI.init 1 (SD.new [1, 2, 3] (fun x : Nat => x) (.error .typeError) none) :
      IM (SD Nat Nat) (WOp Nat)).exec bufBody (exHalfDrop Nat) = some s ∧
    s.data.find (some 2) = .ok 1 ∧ s.data.findGt (some 2) = .ok 2 := by
  obtain ⟨s, h1, -, h2, -⟩ := C70_refuted_half_drop (SD.new [1, 2, 3] (fun x : Nat => x) (.error .typeError) none) 1 [2, 3] 1 [2, 3]
    (by decide) (by decide)
  exact ⟨s, h1, by rw [h2]; decide, by rw [h2]; decide⟩

/-! ### The hypotheses are met -/

/-- A reader interrupted in its section, another inside, a writer waiting for them, then inside. -/
def exIntOk : List (IAct Nat) :=
  [.beginRead 0] ++ List.replicate 8 (.go 0) ++ [.beginRead 1] ++ List.replicate 8 (.go 1) ++ [.look 0, .interrupt 0, .beginWrite 2 5] ++
  List.replicate 4 (.go 2) ++ List.replicate 4 (.go 0) ++ List.replicate 5 (.go 1) ++ List.replicate 2 (.go 2)

instance (s : IM D Op) (a : IAct Op) : Decidable (WholeAt s a) :=
  match a with
  | .interrupt i => match h : s.th[i]? with
    | none => isTrue (fun t ht => by rw [h] at ht; simp at ht)
    | some ⟨pc, outer, op, [], seen⟩ =>
      if hp : pc = .rCS ∨ pc = .wCS then isTrue (fun u hu => by rw [h] at hu; injection hu with hu; subst hu; exact hp.imp id (⟨·, rfl⟩))
      else isFalse (fun hh => hp ((hh _ h).imp id (·.1)))
    | some ⟨pc, outer, op, f :: fs, seen⟩ =>
      if hp : pc = .rCS then isTrue (fun u hu => by rw [h] at hu; injection hu with hu; subst hu; exact .inl hp)
      else isFalse (fun hh => hp ((hh _ h).elim id (fun x => by simp at x)))
  | .beginRead _ | .beginWrite _ _ | .go _ | .look _ | .nest _ => isTrue trivial

/-- Checking a given execution. -/
def alongDec (body : Op → D → List (D → D)) : ∀ (s : IM D Op) (as : List (IAct Op)), Decidable (Along WholeAt body s as)
  | _, [] => isTrue trivial
  | s, a :: as =>
    if h : WholeAt s a then
      match hs : s.step body a with
      | none => isTrue ⟨h, fun s' h' => by rw [hs] at h'; simp at h'⟩
      | some s1 => match alongDec body s1 as with
        | isTrue h1 => isTrue ⟨h, fun s' h' => by rw [hs] at h'; injection h' with h'; subst h'; exact h1⟩
        | isFalse h1 => isFalse (fun hh => h1 (hh.2 _ hs))
    else isFalse (fun hh => h hh.1)

instance (body : Op → D → List (D → D)) (s : IM D Op) (as : List (IAct Op)) : Decidable (Along WholeAt body s as) := alongDec body s as

example : ∃ s, (RWI.init 3 0 : IM Nat Nat).exec noOps exIntOk = some s ∧ Along WholeAt noOps (RWI.init 3 0) exIntOk ∧
    (∃ t, s.th[2]? = some t ∧ t.pc = .wCS) ∧ s.data = 5 :=
  ⟨_, rfl, by decide, ⟨_, rfl, rfl⟩, rfl⟩

/-- C70_refuted_lockout: writer 0 inside, reader 1 behind it. -/
example : ∃ s t, (RWI.init 2 0 : IM Nat Nat).exec noOps ([.beginWrite 0 5] ++ List.replicate 5 (.go 0) ++ [.beginRead 1, .go 1]) = some s ∧
    s.th[1]? = some t ∧ t.pc = .r2 ∧ ∃ s', s.step noOps (.interrupt 1) = some s' ∧
    -- the writer leaves, nobody is inside, and yet the next reader is stuck
    ∃ s'', s'.exec noOps (List.replicate 4 (.go 1) ++ List.replicate 7 (.go 0) ++ [.beginRead 0]) = some s'' ∧ s''.step noOps (.go 0) = none ∧
      s''.data = 5 :=
  ⟨_, _, rfl, rfl, rfl, _, rfl, _, rfl, rfl, rfl⟩

end S2P
