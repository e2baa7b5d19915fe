import Verif.Props.Fair
/-
C167: the loop of the documentation (bounded buffer, `auto_drop=False`, the consumer drops what it has received) under a fair scheduler, for ever.
-/
namespace S2P
open Spec
variable {K V I : Type}
namespace SB
variable [LinearOrder K] [BEq V] [ReflBEq V] {cfg : SBCfg K V}

namespace Forever
variable {r : Forever I cfg}

/-- Never is more dropped from buffer `b` than consumer `i` has received. -/
def NeverAhead (r : Forever I cfg) (b i : Nat) : Prop :=
  ∀ j c, (r.st j).view b = some c → (droppedFrom b (r.st j).log).length ≤ (received c i).length

/-- As many items as consumer `i` has received are dropped from buffer `b`, sooner or later; or its session is stopped. -/
def DropsAll (r : Forever I cfg) (b i : Nat) : Prop :=
  ∀ k c, (r.st k).view b = some c → ∃ j, k ≤ j ∧ ((received c i).length ≤ (droppedFrom b (r.st j).log).length ∨ ∃ c', (r.st j).view b = some c' ∧ c'.stopped = true)

omit [ReflBEq V] in
theorem dropsReceived {b i : Nat} (h : r.NeverAhead b i) (n : Nat) : DropsReceived cfg b i (r.seg 0 n) := by
  intro as1 as2 s1 c1 e h1 hv
  have hlen : as1.length ≤ n := by
    have := congrArg List.length e
    simp [Run.seg] at this
    omega
  have : as1 = r.seg 0 as1.length := by
    obtain ⟨d, hd⟩ := Nat.exists_eq_add_of_le hlen
    rw [hd, Run.seg_add] at e
    exact (List.append_inj e (by simp [Run.seg])).1.symm
  rw [this, exec_to] at h1
  injection h1 with h1
  subst h1
  exact h _ _ hv

/-- What the consumer has received, what it can read, and what the buffer holds. -/
theorem everything (hd : cfg.autoDrop = false) (b i : Nat) (hpk : (cfg.rdCfg i).peek = false) (hu : ∀ j, OneUser b i (r.act j)) (hset : r.Settled)
    (hinc : ∀ j, (dataRead b (r.st j).log).Pairwise (fun v w => cfg.key v < cfg.key w)) (hdr : r.NeverAhead b i) (j : Nat) (c : Cons K V)
    (hv : (r.st j).view b = some c) :
    received c i ++ unreadOf c.ch i = storedIn b (r.st j).log ∧
    ∃ kept, received c i = droppedFrom b (r.st j).log ++ kept ∧ (r.st j).items b = kept ++ unreadOf c.ch i :=
  C91_gets_everything hd b i hpk (fun a ha => by obtain ⟨j, -, -, rfl⟩ := r.mem_seg _ _ _ ha; exact hu j) (exec_to r j) (settled_to hset j) (hinc j)
    (dropsReceived hdr j) c hv

/-- **C167** `auto_drop=False`, the source's data have increasing keys, never more is dropped than received: a `for` loop (default arguments) is given everything that has
been stored, sooner or later, in order; or the session is stopped first. -/
theorem C167_gets_all (hd : cfg.autoDrop = false) (b i k : Nat) (hpk : (cfg.rdCfg i).peek = false)
    (hstr : (cfg.rdCfg i).strict = false) (hu : ∀ j, OneUser b i (r.act j)) (hset : r.Settled)
    (hinc : ∀ j, (dataRead b (r.st j).log).Pairwise (fun v w => cfg.key v < cfg.key w)) (hdr : r.NeverAhead b i)
    (hf : r.FairLoop b i) (c : Cons K V) (hv : (r.st k).view b = some c)
    (hin : InLoop (c.pc i)) (hstay : ∀ j, k ≤ j → isLeave b i (r.act j) = false) :
    ∃ j c', k ≤ j ∧ (r.st j).view b = some c' ∧ (c'.stopped = true ∨ storedIn b (r.st k).log <+: received c' i) := by
  by_contra hno
  simp only [not_exists, not_and, not_or] at hno
  have hsto : ∀ j c', k ≤ j → (r.st j).view b = some c' → c'.stopped = false := fun j c' hj h => by simpa using (hno j c' hj h).1
  have hin' : ∀ j, k ≤ j → ∃ c', (r.st j).view b = some c' ∧ InLoop (c'.pc i) := by
    intro j hj
    obtain ⟨n, rfl⟩ := Nat.exists_eq_add_of_le hj
    obtain ⟨c', ys, h1, -, h3⟩ := loop_stays b i k n hpk hstr c hv hin hstay
    exact ⟨c', h1, h3.resolve_right fun h => by rw [hsto _ c' hj h1] at h; simp at h⟩
  obtain ⟨m, hm⟩ := r.many hf k hin' (2 * (unreadOf c.ch i).length + 2)
  have hsplit : r.seg 0 k ++ r.seg k m = r.seg 0 (k + m) := by rw [Run.seg_add r 0 k m, Nat.zero_add]
  obtain ⟨c', hv', hpre⟩ := C92_drop_loop_gets_all hd b i hpk hstr (as := r.seg 0 k) (bs := r.seg k m)
    (fun a ha => by rw [hsplit] at ha; obtain ⟨j, -, -, rfl⟩ := r.mem_seg _ _ _ ha; exact hu j) (exec_to r k) c hv
    (fun a ha => by obtain ⟨j, hj, -, rfl⟩ := r.mem_seg _ _ _ ha; exact hstay j hj) (exec_seg r k m) (by rw [hsplit]; exact settled_to hset _) (hinc _)
    (by rw [hsplit]; exact dropsReceived hdr _) (.inr ⟨hin, fun c' h => hsto _ c' (by omega) h, hm⟩)
  exact (hno (k + m) c' (by omega) hv').2 hpre

omit [ReflBEq V] in
theorem neverFull (b k : Nat) (h : ∀ j, k ≤ j → (r.st j).RoomAt cfg (r.act j) b) (n : Nat) : (r.st k).NeverFull cfg b (r.seg k n) := by
  induction n generalizing k with
  | zero => trivial
  | succ n ih =>
    rw [Nat.add_comm, Run.seg_add]
    have : r.seg k 1 = [r.act k] := by simp [Run.seg]
    rw [this]
    refine ⟨h k (Nat.le_refl k), fun s' hs' => ?_⟩
    rw [r.next] at hs'
    injection hs' with hs'
    subst hs'
    exact ih (k + 1) fun j hj => h j (by omega)

omit [LinearOrder K] [BEq V] [ReflBEq V] in
theorem data_le_reads (b : Nat) (l : List (Ev V I)) : (dataRead b l).length ≤ l.countP (isReadBy b) := by
  induction l with
  | nil => simp [dataRead]
  | cons e l ih =>
    rw [dataRead] at *
    rw [List.countP_cons, List.filterMap_cons]
    cases e <;> simp only [isReadBy] <;> try omega
    rename_i t x
    cases x
    · simp only; omega
    · simp only
      by_cases h : t = b
      · simp [h]; omega
      · simp [h]; omega

theorem reads_mono (r : Forever I cfg) (b : Nat) {k j : Nat} (h : k ≤ j) : (r.st k).log.countP (isReadBy b) ≤ (r.st j).log.countP (isReadBy b) :=
  (log_mono r h).sublist.countP_le

/-- **C167** and if what it has received is dropped, sooner or later: a bounded buffer (`maxlen` at least 1) never makes the thread wait for ever: the source is read
again and again, or the session is stopped. -/
theorem C167_reads_on (hd : cfg.autoDrop = false) (hm : cfg.maxlen ≠ some 0) (b i k : Nat) (hpk : (cfg.rdCfg i).peek = false)
    (hstr : (cfg.rdCfg i).strict = false) (hu : ∀ j, OneUser b i (r.act j)) (hset : r.Settled)
    (hinc : ∀ j, (dataRead b (r.st j).log).Pairwise (fun v w => cfg.key v < cfg.key w)) (hdr : r.NeverAhead b i) (hall : r.DropsAll b i)
    (ht : r.FairThread b) (hf : r.FairLoop b i) (hl : Ev.launched b ∈ (r.st k).log) (c : Cons K V) (hv : (r.st k).view b = some c)
    (hin : InLoop (c.pc i)) (hstay : ∀ j, k ≤ j → isLeave b i (r.act j) = false) (n : Nat) :
    ∃ j, k ≤ j ∧ ((∃ c', (r.st j).view b = some c' ∧ c'.stopped = true) ∨ n ≤ (r.st j).log.countP (isReadBy b)) := by
  by_contra hno
  simp only [not_exists, not_and, not_or] at hno
  have hsto : ∀ j c', k ≤ j → (r.st j).view b = some c' → c'.stopped = false := fun j c' hj h => by simpa using (hno j hj).1 c' h
  have hreads : ∀ j, k ≤ j → (r.st j).log.countP (isReadBy b) < n := fun j hj => by simpa using (hno j hj).2
  have hin' : ∀ j, k ≤ j → ∃ c', (r.st j).view b = some c' ∧ InLoop (c'.pc i) := by
    intro j hj
    obtain ⟨n, rfl⟩ := Nat.exists_eq_add_of_le hj
    obtain ⟨c', ys, h1, -, h3⟩ := loop_stays b i k n hpk hstr c hv hin hstay
    exact ⟨c', h1, h3.resolve_right fun h => by rw [hsto _ c' hj h1] at h; simp at h⟩
  have hle : ∀ j, k ≤ j → (storedIn b (r.st j).log).length ≤ n := by
    intro j hj
    have h1 := congrArg List.length (C40_stored_in_order_partial (exec_to r j) (settled_to hset j) b).1
    simp only [List.length_append] at h1
    have := data_le_reads b (r.st j).log
    have := hreads j hj
    omega
  have hmono : ∀ j j', j ≤ j' → storedIn b (r.st j).log <+: storedIn b (r.st j').log := fun j j' h => by
    obtain ⟨l, hl⟩ := log_mono r h
    exact ⟨storedIn b l, by rw [← hl]; simp [storedIn]⟩
  -- from some moment on nothing is stored
  have hmax : ∃ j0, k ≤ j0 ∧ ∀ j, j0 ≤ j → storedIn b (r.st j).log = storedIn b (r.st j0).log := by
    have : ∀ d j, k ≤ j → n ≤ d + (storedIn b (r.st j).log).length → ∃ j0, k ≤ j0 ∧ ∀ j', j0 ≤ j' → storedIn b (r.st j').log = storedIn b (r.st j0).log := by
      intro d
      induction d with
      | zero =>
        intro j hj hd
        exact ⟨j, hj, fun j' hj' => ((hmono j j' hj').eq_of_length_le (by have := hle j' (by omega); omega)).symm⟩
      | succ d ih =>
        intro j hj hd
        by_cases hex : ∃ j', j ≤ j' ∧ (storedIn b (r.st j).log).length < (storedIn b (r.st j').log).length
        · obtain ⟨j', h1, h2⟩ := hex
          exact ih j' (by omega) (by omega)
        · simp only [not_exists, not_and, not_lt] at hex
          exact ⟨j, hj, fun j' hj' => ((hmono j j' hj').eq_of_length_le (hex j' hj')).symm⟩
    exact this n k (Nat.le_refl k) (by omega)
  obtain ⟨j0, hj0, hconst⟩ := hmax
  obtain ⟨c0, hv0, hin0⟩ := hin' j0 hj0
  obtain ⟨j1, c1, hj1, hv1, hor⟩ := C167_gets_all hd b i j0 hpk hstr hu hset hinc hdr hf c0 hv0 hin0 (fun j hj => hstay j (by omega))
  have hpre := hor.resolve_left (by rw [hsto j1 c1 (by omega) hv1]; simp)
  obtain ⟨j2, hj2, hor⟩ := hall j1 c1 hv1
  have hdrop := hor.resolve_right (by rintro ⟨c', h, h'⟩; rw [hsto j2 c' (by omega) h] at h'; simp at h')
  have hempty : ∀ j, j2 ≤ j → (r.st j).items b = [] := by
    intro j hj
    obtain ⟨c', hv', -⟩ := hin' j (by omega)
    obtain ⟨h1, kept, h2, h3⟩ := everything hd b i hpk hu hset hinc hdr j c' hv'
    have h4 : (droppedFrom b (r.st j2).log).length ≤ (droppedFrom b (r.st j).log).length := by
      obtain ⟨l, hl⟩ := log_mono r hj
      rw [← hl]
      simp [droppedFrom]
    have h5 := hpre.length_le
    have h6 := congrArg List.length h1
    have h7 := congrArg List.length h2
    rw [hconst j (by omega)] at h6
    simp only [List.length_append] at h6 h7
    rw [h3, List.append_eq_nil_iff, ← List.length_eq_zero_iff, ← List.length_eq_zero_iff]
    omega
  obtain ⟨m, hm'⟩ := r.many ht j2 (fun j hj => ⟨(log_mono r (by omega : k ≤ j)).subset hl, fun ok h => by
    obtain ⟨c', hv', -⟩ := hin' j (by omega)
    have := C41_readers_see_stop (exec_to r j) b ok h c' hv'
    rw [hsto j c' (by omega) hv'] at this; simp at this⟩) (6 * n + 10)
  obtain ⟨l, h1, h2⟩ := C86_keeps_reading (exec_to r j2) b (exec_seg r j2 m) (neverFull b j2 (fun j hj e b' m' hb' hmax => by
    have hb : b' = b := (inv2_exec (exec_to r j) (settled_to hset j)).2.ownM b b' hb'
    rw [hb, hempty j hj]
    rw [hmax] at hm
    simp only [List.length_nil]
    exact Nat.pos_of_ne_zero fun h => hm (by rw [h])) m)
  have := hreads (j2 + m) (by omega)
  rw [h1, List.countP_append] at this
  omega

end Forever
end SB

namespace ObjSB
variable {σ : Type} [LinearOrder K] [BEq V] {o : SrcObj σ K V I} {cfg : SBCfg K V} {st : σ}

/-- In a calm run every restart finds the threads of earlier sessions ended. -/
theorem run_settled (r : Run (ObjSB.step o cfg) (ObjSB.init st)) (hcalm : ∀ k, r.act k = .other .start → ∀ t, ((r.st k).sb.thr t).idle = true) (k : Nat) :
    (r.st k).SettledAt (r.act k) := by
  have hex : ∀ n, (ObjSB.init st : ObjSB σ K V I).exec o cfg (r.seg 0 n) = some (r.st n) := by
    intro n
    have := exec_seg r 0 n
    rwa [r.zero, Nat.zero_add] at this
  have hset := calm_settled (hex (k + 1)) (by have := calm_seg r hcalm 0 (k + 1); rwa [r.zero] at this)
  have main : ∀ (xs : List (ObjAct K V I)) (s s' : ObjSB σ K V I) x, s.exec o cfg xs = some s' → s.Settled o cfg (xs ++ [x]) → s'.SettledAt x := by
    intro xs
    induction xs with
    | nil => intro s s' x h hs; simp only [exec, Option.some.injEq] at h; subst h; exact hs.1
    | cons y xs ih =>
      intro s s' x h hs
      simp only [exec] at h
      split at h
      · rename_i s1 hs1
        exact ih s1 s' x h (hs.2 _ hs1)
      · simp at h
  rw [Run.seg_succ, Nat.zero_add] at hset
  exact main _ _ _ _ (hex k) hset

end ObjSB

namespace Counter
variable {start stop : Int} {cfg : SBCfg Int (List Char)}

/-- **C167** a `for` loop over a session of `SimpleCounterString(start, stop)` with a bounded buffer and `auto_drop=False`, whose body (or somebody else) drops, sooner or
later, what the loop has received, and never more: the loop is given `s{start}`, ..., `s{stop-1}`, all of them, in order, each once, and nothing else, sooner or later; or
the session is stopped first. (`start()` only when no earlier thread is alive.) -/
theorem C167_counter (hf : ObjSB.Fits (counter start stop) cfg) (hm : cfg.maxlen ≠ some 0) (hd : cfg.autoDrop = false) (b i k : Nat)
    (hpk : (cfg.rdCfg i).peek = false) (hstr : (cfg.rdCfg i).strict = false)
    (r : Run (ObjSB.step (counter start stop) cfg) (ObjSB.init new))
    (hcalm : ∀ k, r.act k = .other .start → ∀ t, ((r.st k).sb.thr t).idle = true) (hu : ∀ k a, r.act k = .other a → SB.OneUser b i a)
    (hdr : ∀ j c, (r.st j).sb.view b = some c → (droppedFrom b (r.st j).sb.log).length ≤ (received c i).length)
    (hall : ∀ k c, (r.st k).sb.view b = some c → ∃ j, k ≤ j ∧ ((received c i).length ≤ (droppedFrom b (r.st j).sb.log).length ∨
      ∃ c', (r.st j).sb.view b = some c' ∧ c'.stopped = true))
    (ht : r.Fair (fun s => Ev.launched b ∈ s.sb.log ∧ ∀ ok, Ev.closed b ok ∉ s.sb.log) (·.ofThread b))
    (hc : r.Fair (fun s => ∃ c, s.sb.view b = some c ∧ SB.InLoop (c.pc i)) (·.isGo b i))
    (hl : Ev.launched b ∈ (r.st k).sb.log) (c : Cons Int (List Char)) (hv : (r.st k).sb.view b = some c) (hin : SB.InLoop (c.pc i))
    (hstay : ∀ j a, k ≤ j → r.act j = .other a → SB.isLeave b i a = false) :
    ∃ j c', k ≤ j ∧ (r.st j).sb.view b = some c' ∧ (c'.stopped = true ∨ received c' i = labels start (stop - start).toNat) := by
  by_contra hno
  simp only [not_exists, not_and, not_or] at hno
  obtain ⟨q, hq⟩ := ObjSB.run_below r
  have hsto : ∀ j c', k ≤ j → (q.st j).view b = some c' → c'.stopped = false := fun j c' hj h => by
    rw [(hq j).1] at h; simpa using (hno j c' hj h).1
  have hzero : ∀ n, (ObjSB.init new : ObjSB St Int (List Char) Info).exec (counter start stop) cfg (r.seg 0 n) = some (r.st n) := by
    intro n
    have := ObjSB.exec_seg r 0 n
    rwa [r.zero, Nat.zero_add] at this
  have hcs : ∀ n, (ObjSB.init new : ObjSB St Int (List Char) Info).Calm (counter start stop) cfg (r.seg 0 n) := by
    intro n
    have := ObjSB.calm_seg r hcalm 0 n
    rwa [r.zero] at this
  have hset : q.Settled := fun n e hw t => by
    have h := ObjSB.run_settled r hcalm n _ ((hq n).2.2.2 e) rfl
    rw [(hq n).1] at hw ⊢
    rcases h hw t with h | h | h <;> rw [h] <;> rfl
  have hinc : ∀ j, (dataRead b (q.st j).log).Pairwise (fun v w => cfg.key v < cfg.key w) := fun j => by
    rw [(hq j).1]
    exact orderly.rising.inc hf (ObjSB.acc (hzero j) (ObjSB.calm_settled (hzero j) (hcs j))) b
  have hu' : ∀ j, SB.OneUser b i (q.act j) := fun j => ((hq j).2.2.1 b i).2.1 fun a e => hu j a e
  have hstay' : ∀ j, k ≤ j → SB.isLeave b i (q.act j) = false := fun j hj => ((hq j).2.2.1 b i).2.2 fun a e => hstay j a hj e
  have hdr' : q.NeverAhead b i := fun j c h => by rw [(hq j).1] at h ⊢; exact hdr j c h
  have hall' : q.DropsAll b i := fun k c h => by
    rw [(hq k).1] at h
    obtain ⟨j, h1, h2⟩ := hall k c h
    exact ⟨j, h1, by rw [(hq j).1]; exact h2⟩
  have ht' : q.FairThread b := fun k h => by
    dsimp only at h
    rw [(hq k).1] at h
    obtain ⟨j, h1, h2⟩ := ht k h
    exact ⟨j, h1, ((hq j).2.1 b).trans h2⟩
  have hc' : q.FairLoop b i := fun k h => by
    dsimp only at h
    rw [(hq k).1] at h
    obtain ⟨j, h1, h2⟩ := hc k h
    exact ⟨j, h1, ((hq j).2.2.1 b i).1.trans h2⟩
  have hv' : (q.st k).view b = some c := by rw [(hq k).1]; exact hv
  obtain ⟨j, hj, hor⟩ := SB.Forever.C167_reads_on hd hm b i k hpk hstr hu' hset hinc hdr' hall' ht' hc' (by rw [(hq k).1]; exact hl) c hv' hin hstay'
    ((stop - start).toNat + 1)
  have hreads := hor.resolve_left (by rintro ⟨c', h, h'⟩; rw [hsto j c' hj h] at h'; simp at h')
  have hst : ∀ j', j ≤ j' → storedIn b (q.st j').log = labels start (stop - start).toNat := fun j' h => by
    have := SB.Forever.reads_mono q b h
    rw [(hq j').1] at this ⊢
    exact (stored_of_reads hf (hzero j') (hcs j') b (by omega)).1
  have hin' : ∃ c', (q.st j).view b = some c' ∧ SB.InLoop (c'.pc i) := by
    obtain ⟨n, rfl⟩ := Nat.exists_eq_add_of_le hj
    obtain ⟨c', ys, h1, -, h3⟩ := SB.Forever.loop_stays b i k n hpk hstr c hv' hin hstay'
    exact ⟨c', h1, h3.resolve_right fun h => by rw [hsto _ c' hj h1] at h; simp at h⟩
  obtain ⟨c1, hv1, hin1⟩ := hin'
  obtain ⟨j2, c2, hj2, hv2, hor⟩ := SB.Forever.C167_gets_all hd b i j hpk hstr hu' hset hinc hdr' hc' c1 hv1 hin1 (fun j' h => hstay' j' (by omega))
  have hpre := hor.resolve_left (by rw [hsto j2 c2 (by omega) hv2]; simp)
  rw [hst j (Nat.le_refl j)] at hpre
  have hev := (SB.Forever.everything hd b i hpk hu' hset hinc hdr' j2 c2 hv2).1
  rw [hst j2 hj2] at hev
  refine (hno j2 c2 (by omega) (by rw [← (hq j2).1]; exact hv2)).2 (hpre.eq_of_length_le ?_).symm
  rw [← hev]
  simp

end Counter
end S2P
