import Verif.Props.WholePath
import Verif.Props.LoopEnd
/-
C108, C109: the loop of the documentation of simply.py (3-26): `for i in reader: ...; stream_buffer.drop()` with `auto_drop=False`, on a source that raises
when it has no more data.
-/
namespace S2P
open Spec

theorem loopDone_stopped {K V : Type} [LinearOrder K] [BEq V] {key : V → K} {kn : Py (Option K)} {m : Option Nat} {cfg : Nat → Cfg} {c : Cons K V}
    (h : c.Reach key kn m cfg) (i : Nat) (hd : .loopDone ∈ c.evtsOf i) : c.stopped = true := by
  obtain ⟨as, he⟩ := h
  refine Cons.exec_ind (P := fun c => ∀ i, .loopDone ∈ c.evtsOf i → c.stopped = true) (fun s a s' hP hs => ?_) as ?_ he i hd
  · intro i hi
    have hst : s.stopped = true → s'.stopped = true := fun h => C25_stop_is_permanent (cfg := cfg) (as := [a]) (by simp only [Cons.exec, hs]) h
    rcases step_emits hs with h | ⟨j, e, h, h1, -⟩
    · exact hst (hP i (by simpa only [Cons.evtsOf, h] using hi))
    · simp only [Cons.evtsOf, h, List.filter_append, List.map_append, List.mem_append] at hi
      rcases hi with hi | hi
      · exact hst (hP i hi)
      · obtain ⟨y, hy, e'⟩ := List.mem_map.1 hi
        have := List.mem_singleton.1 (List.mem_filter.1 hy).1
        subst this
        exact hst (h1 (.inr (.inl e')))
  · intro i hi; simp [Cons.init, Cons.evtsOf] at hi

namespace SB
variable {K V I : Type} [LinearOrder K] [BEq V] [ReflBEq V] {cfg : SBCfg K V} {s s' : SB K V I} {a : SBAct K V I} {as : List (SBAct K V I)}

omit [ReflBEq V] in
theorem raised_origin (hs : s.step cfg a = some s') (t : Nat) (e : PyErr) (h : Ev.readRaised t e ∈ s'.log) :
    Ev.readRaised t e ∈ s.log ∨ (s.thr t = .reading ∧ ∀ b, s'.items b = s.items b) := by
  have hst := step_to hs
  clear hs
  cases hst
  all_goals try simp only [say, setThr, setBuf, setEvent, setNext, setDrop, setInfo, newSess, running] at *
  all_goals first
    | exact .inl h
    | grind [items]

/-- With `auto_drop=False` (settled executions) there is room in the buffer of a session whose source has raised. -/
theorem room_after_raise (hd : cfg.autoDrop = false) (he : SB.init.exec cfg as = some s) (hset : SB.init.Settled cfg as) (b : Nat) (e : PyErr)
    (hr : Ev.readRaised b e ∈ s.log) : ∃ m, cfg.maxlen = some m ∧ (s.items b).length < m := by
  refine exec_ind_acts (P := fun as s => SB.init.Settled cfg as → Ev.readRaised b e ∈ s.log → ∃ m, cfg.maxlen = some m ∧ (s.items b).length < m) ?_ ?_ as s he hset hr
  · intro _ h; simp [SB.init] at h
  · intro as a s s' he ih hs hset hr
    obtain ⟨h1, _⟩ := hset.of_snoc he
    rcases raised_origin hs b e hr with h | ⟨h, hi⟩
    · obtain ⟨m, hm, hlt⟩ := ih h1 h
      have hl := died_leaving he b ⟨_, h, rfl, by simp [byThread]⟩
      have hg := good he
      refine ⟨m, hm, ?_⟩
      cases data_step hg.inv hg.bufs hs b with
      | same q1 q2 => rw [q1]; exact hlt
      | stored t v q => have := (inv2_exec he h1).2.own t b v q; subst this; rw [q] at hl; simp [TPC.leaving] at hl
      | dropped k _ _ q => rw [q, List.length_drop]; omega
    · obtain ⟨-, m, hm, hlt⟩ := C33_reads_when_room_partial hd he h1 b h
      exact ⟨m, hm, by rw [hi b]; exact hlt⟩

end SB

namespace Simp
variable {K D I : Type} [LinearOrder K] [BEq D] {en : Bool} {cfg : SBCfg K (SItem D)} {s s' : Simp K D I} {x : SimpAct K D I} {xs : List (SimpAct K D I)}

theorem step_acts' (hs : s.step en cfg x = some s') :
    (s'.sb = s.sb ∧ ∀ a, x ≠ .sb a) ∨ ∃ a, s.sb.step cfg a = some s'.sb ∧ (x = .sb a ∨ (SB.plain a = true ∧ ∀ a, x ≠ .sb a)) ∧
      (a = .start → (x = .enter ∧ s.pc = .before) ∨ x = .sb .start) := by
  unfold step at hs
  cases x <;> dsimp only at hs
  all_goals
    try split at hs
  all_goals
    try split at hs
  all_goals
    simp only [Option.some.injEq, Option.map_eq_some_iff, reduceCtorEq] at hs
    try (first | subst hs | (obtain ⟨y, hy, rfl⟩ := hs))
  all_goals first
    | exact .inl ⟨rfl, by simp⟩
    | exact .inr ⟨_, hy, .inl rfl, by simp⟩
    | exact .inr ⟨_, hy, .inr ⟨rfl, by simp⟩, by simp_all⟩

/-- `path`, with the moments of the execution below and its calls of `start`. -/
theorem path_split (he : s.exec en cfg xs = some s') :
    ∃ as, s.sb.exec cfg as = some s'.sb ∧ as.filter (fun a => !SB.plain a) = (userActs xs).filter (fun a => !SB.plain a) ∧
      (s.Settled en cfg xs → s.sb.Settled cfg as) ∧
      (∀ as1 as2, as = as1 ++ as2 → ∃ xs1 xs2 st, xs = xs1 ++ xs2 ∧ s.exec en cfg xs1 = some st ∧ s.sb.exec cfg as1 = some st.sb) ∧
      (∀ as1 as2, as = as1 ++ .start :: as2 → ∃ xs1 x xs2 st, xs = xs1 ++ x :: xs2 ∧ s.exec en cfg xs1 = some st ∧ s.sb.exec cfg as1 = some st.sb ∧
        ((x = .enter ∧ st.pc = .before) ∨ x = .sb .start)) ∧
      (∀ xs1 xs2, xs = xs1 ++ xs2 → ∃ as1 as2 st, as = as1 ++ as2 ∧ s.exec en cfg xs1 = some st ∧ s.sb.exec cfg as1 = some st.sb ∧
        as2.filter (fun a => !SB.plain a) = (userActs xs2).filter (fun a => !SB.plain a)) := by
  induction xs generalizing s with
  | nil =>
    simp only [exec, Option.some.injEq] at he; subst he
    refine ⟨[], rfl, rfl, fun _ => trivial, fun as1 as2 h => ?_, fun as1 as2 h => ?_, fun xs1 xs2 h => ?_⟩
    · simp at h; obtain ⟨rfl, rfl⟩ := h
      exact ⟨[], [], s, rfl, rfl, rfl⟩
    · simp at h
    · simp at h; obtain ⟨rfl, rfl⟩ := h
      exact ⟨[], [], s, rfl, rfl, rfl, rfl⟩
  | cons x xs ih =>
    simp only [exec] at he
    split at he
    swap
    · simp at he
    rename_i s1 hs
    obtain ⟨as, k1, k2, k3, k4, k5, k6⟩ := ih he
    have lift : ∀ {ys st}, s1.exec en cfg ys = some st → s.exec en cfg (x :: ys) = some st := by
      intro ys st h; simp only [exec, hs]; exact h
    rcases step_acts' hs with ⟨e, hx⟩ | ⟨a, ha, hx, hst⟩
    · refine ⟨as, by rw [← e]; exact k1, ?_, fun h => by rw [← e]; exact k3 (h.2 _ hs), fun as1 as2 h => ?_, fun as1 as2 h => ?_, fun xs1 xs2 h => ?_⟩
      · rw [k2]
        cases x <;> first | rfl | exact (hx _ rfl).elim
      · obtain ⟨xs1, xs2, st, q1, q2, q3⟩ := k4 as1 as2 h
        exact ⟨x :: xs1, xs2, st, by rw [q1]; rfl, lift q2, by rw [← e]; exact q3⟩
      · obtain ⟨xs1, y, xs2, st, q1, q2, q3, q4⟩ := k5 as1 as2 h
        exact ⟨x :: xs1, y, xs2, st, by rw [q1]; rfl, lift q2, by rw [← e]; exact q3, q4⟩
      · cases xs1 with
        | nil =>
          simp only [List.nil_append] at h
          subst h
          refine ⟨[], as, s, rfl, rfl, rfl, ?_⟩
          rw [k2]
          cases x <;> first | rfl | exact (hx _ rfl).elim
        | cons y xs1 =>
          simp only [List.cons_append, List.cons.injEq] at h
          obtain ⟨rfl, h⟩ := h
          obtain ⟨as1, as2, st, q1, q2, q3, q4⟩ := k6 xs1 xs2 h
          exact ⟨as1, as2, st, q1, lift q2, by rw [← e]; exact q3, q4⟩
    · have lift' : ∀ {bs st}, s1.sb.exec cfg bs = some st → s.sb.exec cfg (a :: bs) = some st := by
        intro ys st h; simp only [SB.exec, ha]; exact h
      have hfil : (a :: as).filter (fun a => !SB.plain a) = (userActs (x :: xs)).filter (fun a => !SB.plain a) := by
        rcases hx with rfl | ⟨hp, hx⟩
        · simp only [userActs, List.filterMap_cons, List.filter_cons] at k2 ⊢
          split <;> rw [k2]
        · rw [List.filter_cons, if_neg (by simp [hp]), k2]
          cases x <;> first | rfl | exact (hx _ rfl).elim
      refine ⟨a :: as, lift' k1, hfil, fun h => ⟨fun e hw => ?_, fun y hy => ?_⟩, fun as1 as2 h => ?_, fun as1 as2 h => ?_, fun xs1 xs2 h => ?_⟩
      · rcases hx with rfl | ⟨hp, -⟩
        · exact h.1 (by rw [e]) hw
        · rw [e] at hp; simp [SB.plain] at hp
      · rw [ha] at hy; cases hy; exact k3 (h.2 _ hs)
      · cases as1 with
        | nil => exact ⟨[], x :: xs, s, rfl, rfl, rfl⟩
        | cons a' as1 =>
          simp only [List.cons_append, List.cons.injEq] at h
          obtain ⟨rfl, h⟩ := h
          obtain ⟨xs1, xs2, st, q1, q2, q3⟩ := k4 as1 as2 h
          exact ⟨x :: xs1, xs2, st, by rw [q1]; rfl, lift q2, lift' q3⟩
      · cases as1 with
        | nil =>
          simp only [List.nil_append, List.cons.injEq] at h
          obtain ⟨rfl, -⟩ := h
          refine ⟨[], x, xs, s, rfl, rfl, rfl, ?_⟩
          exact hst rfl
        | cons a' as1 =>
          simp only [List.cons_append, List.cons.injEq] at h
          obtain ⟨rfl, h⟩ := h
          obtain ⟨xs1, y, xs2, st, q1, q2, q3, q4⟩ := k5 as1 as2 h
          exact ⟨x :: xs1, y, xs2, st, by rw [q1]; rfl, lift q2, lift' q3, q4⟩
      · cases xs1 with
        | nil =>
          simp only [List.nil_append] at h
          subst h
          exact ⟨[], a :: as, s, rfl, rfl, rfl, hfil⟩
        | cons y xs1 =>
          simp only [List.cons_append, List.cons.injEq] at h
          obtain ⟨rfl, h⟩ := h
          obtain ⟨as1, as2, st, q1, q2, q3, q4⟩ := k6 xs1 xs2 h
          exact ⟨a :: as1, as2, st, by rw [q1]; rfl, lift q2, lift' q3, q4⟩

theorem exec_append (xs ys : List (SimpAct K D I)) (s : Simp K D I) : s.exec en cfg (xs ++ ys) = (s.exec en cfg xs).bind fun t => t.exec en cfg ys := by
  induction xs generalizing s with
  | nil => rfl
  | cons x xs ih => simp only [List.cons_append, exec]; split <;> simp [ih]

theorem once_exec (hn : SimpAct.sb SBAct.start ∉ xs) (hO : s.Once cfg) (he : s.exec en cfg xs = some s') : s'.Once cfg := by
  induction xs generalizing s with
  | nil => simp only [exec, Option.some.injEq] at he; subst he; exact hO
  | cons x xs ih =>
    simp only [List.mem_cons, not_or] at hn
    simp only [exec] at he
    split at he
    · rename_i s1 hs; exact ih hn.2 (hO.step (Ne.symm hn.1) hs) he
    · simp at he

theorem once_init : (init : Simp K D I).Once cfg := ⟨⟨[], rfl⟩, fun _ => ⟨rfl, rfl⟩, fun h => by simp [Simp.init, SB.init] at h⟩

theorem log_grows {sb sb' : SB K (SItem D) I} {as : List (SBAct K (SItem D) I)} (he : sb.exec cfg as = some sb') : ∃ l, sb'.log = sb.log ++ l := by
  induction as generalizing sb with
  | nil => simp only [SB.exec, Option.some.injEq] at he; subst he; exact ⟨[], by simp⟩
  | cons a as ih =>
    simp only [SB.exec] at he
    split at he
    · rename_i s1 hs
      obtain ⟨l, h⟩ := ih he
      obtain ⟨l', h'⟩ := SB.step_log hs
      exact ⟨l' ++ l, by rw [h, h', List.append_assoc]⟩
    · simp at he

/-- At no moment have more items been dropped from buffer `b` than consumer `i` had received. -/
def DropsReceived (cfg : SBCfg K (SItem D)) (b i : Nat) (xs : List (SimpAct K D I)) : Prop :=
  ∀ xs1 xs2 s1 c1, xs = xs1 ++ xs2 → init.exec true cfg xs1 = some s1 → s1.sb.view b = some c1 → (droppedFrom b s1.sb.log).length ≤ (received c1 i).length

variable [ReflBEq D]

/-- Why a session of a `with` statement ended if nobody called `stop()`: `read_stream` raised. -/
theorem ended_by_read (hkey : ∀ i j d d', i < j → cfg.key (.pair i d) < cfg.key (.pair j d')) (hm : cfg.maxlen ≠ none ∨ cfg.autoDrop = true)
    (he : init.exec true cfg xs = some s) (hn : SimpAct.sb SBAct.start ∉ xs) (hk : ∀ a, .sb a ∈ xs → a.isKeyRaise = false)
    (hns : ∀ r, Ev.stopCalled r ∉ s.sb.log) (b : Nat) (c : Cons K (SItem D)) (hv : s.sb.view b = some c) (hst : c.stopped = true) :
    (∃ e, Ev.readRaised b e ∈ s.sb.log) ∧ (s.sb.thr b).inHand = [] := by
  obtain ⟨as, h1, -, h3, -, h5, -⟩ := path_split he
  change SB.init.exec cfg as = some _ at h1
  have hset := h3 (settled_of_no_restart hn)
  have hg := SB.good h1
  have hflag : Ev.eventSet b ∈ s.sb.log := by
    obtain ⟨x, hx, rfl⟩ := Option.map_eq_some_iff.1 hv
    refine (hg.log.flag b).1 ?_
    have : x.evt = b := hg.inv.evt b x hx
    rw [← this]; exact hst
  rcases SB.C85_ends_for_a_reason h1 hset b (.inl hflag) with ⟨as1, a, as2, s1, e, h6, h7, h8⟩ | hd
  · exfalso
    rcases h8 with rfl | rfl
    · rw [e, SB.exec_append, h6] at h1
      simp only [Option.bind, SB.exec] at h1
      split at h1
      swap
      · simp at h1
      rename_i s2 hs
      obtain ⟨l, hl⟩ := log_grows h1
      have : ∃ r, Ev.stopCalled r ∈ s2.log := by
        simp only [SB.step] at hs
        split at hs <;> (try split at hs) <;> (injection hs with hs; subst hs; simp [SB.say])
      obtain ⟨r, hr⟩ := this
      exact hns r (by rw [hl]; simp [hr])
    · obtain ⟨xs1, x, xs2, st, q1, q2, q3, q4⟩ := h5 as1 as2 e
      have : st.sb = s1 := by
        have := q3.symm.trans h6
        exact Option.some.inj this
      rcases q4 with ⟨-, q4⟩ | rfl
      · have hO := once_exec (fun h => hn (by rw [q1]; simp [h])) once_init q2
        have := (hO.2.1 q4).1
        simp_all
      · exact hn (by rw [q1]; simp)
  · have hl := SB.died_leaving h1 b hd
    refine ⟨?_, by cases hx : s.sb.thr b <;> simp_all [TPC.leaving, TPC.inHand]⟩
    obtain ⟨e, h6, h7, h8⟩ := hd
    cases e <;> simp only [isDeath, Bool.false_eq_true] at h7
    · rename_i t e
      simp only [byThread, decide_eq_true_eq] at h8
      subst h8; exact ⟨e, h6⟩
    · exact ((C51_never_rejects hkey he hn hk).2 _ _ _ _ h6).elim
    · exact (SB.C44_no_crash_partial hm h1 hset _ _ h6).elim

/-- **C108** with `auto_drop=False` and a consumer that at no moment has dropped more items than it has received: received, then still readable, then the
item in the hands of the reading thread, are all the reads of `read_stream`, numbered, in order. -/
theorem C108_nothing_lost (hkey : ∀ i j d d', i < j → cfg.key (.pair i d) < cfg.key (.pair j d')) (hd : cfg.autoDrop = false)
    (b i : Nat) (hpk : (cfg.rdCfg i).peek = false)
    (he : init.exec true cfg xs = some s) (hn : SimpAct.sb SBAct.start ∉ xs) (hk : ∀ a, .sb a ∈ xs → a.isKeyRaise = false)
    (hu : ∀ a, .sb a ∈ xs → SB.OneUser b i a) (hdr : DropsReceived cfg b i xs) (c : Cons K (SItem D)) (hv : s.sb.view b = some c) :
    received c i ++ unreadOf c.ch i ++ (s.sb.thr b).inHand = enumerated (s.raw b) := by
  obtain ⟨as, h1, h2, h3, h4, -⟩ := path_split he
  have hset := h3 (settled_of_no_restart hn)
  have hA := acc he (settled_of_no_restart hn)
  have hinc : (dataRead b s.sb.log).Pairwise fun v w => cfg.key v < cfg.key w := by
    rw [hA.num.data b]
    simp only [handed, if_true, enumerated]
    rw [List.pairwise_iff_getElem]
    intro n m hn hm hlt
    simp only [List.getElem_mapIdx]
    exact hkey _ _ _ _ hlt
  have hdr' : SB.DropsReceived cfg b i as := by
    intro as1 as2 s1 c1 e q1 q2
    obtain ⟨xs1, xs2, st, r1, r2, r3⟩ := h4 as1 as2 e
    have : st.sb = s1 := Option.some.inj (r3.symm.trans q1)
    subst this
    exact hdr xs1 xs2 st c1 r1 r2 q2
  rw [(SB.C91_gets_everything hd b i hpk (oneUser_path h2 hu) h1 hset hinc hdr' c hv).1]
  exact (C51_never_rejects hkey he hn hk).1 b

/-- **C108** the documented loop: `read_stream` gives `L` and raises when it has given all of it, nobody calls `stop()`. When the loop has ended by itself, its
body has been given the numbered data from the first on, and fewer than `maxlen` of them, the last ones, have not come. -/
theorem C108_misses_at_most (L : List (Option D)) (hkey : ∀ i j d d', i < j → cfg.key (.pair i d) < cfg.key (.pair j d')) (hd : cfg.autoDrop = false)
    (m : Nat) (hm : cfg.maxlen = some m) (b i : Nat) (hpk : (cfg.rdCfg i).peek = false)
    (he : init.exec true cfg xs = some s) (hn : SimpAct.sb SBAct.start ∉ xs) (hk : ∀ a, .sb a ∈ xs → a.isKeyRaise = false)
    (hu : ∀ a, .sb a ∈ xs → SB.OneUser b i a) (hdr : DropsReceived cfg b i xs) (hend : ∀ e, Ev.readRaised b e ∈ s.sb.log → s.raw b = L)
    (hns : ∀ r, Ev.stopCalled r ∉ s.sb.log) (c : Cons K (SItem D)) (hv : s.sb.view b = some c) (hdone : .loopDone ∈ c.evtsOf i) :
    received c i <+: enumerated L ∧ L.length < (received c i).length + m := by
  obtain ⟨as, h1, -, hset, -⟩ := path_split he
  have hset := hset (settled_of_no_restart hn)
  have hr := SB.view_reach h1 b c hv
  obtain ⟨⟨e, h2⟩, h3⟩ := ended_by_read hkey (.inl (by simp [hm])) he hn hk hns b c hv (loopDone_stopped hr i hdone)
  have := C108_nothing_lost hkey hd b i hpk he hn hk hu hdr c hv
  rw [h3, List.append_nil, hend e h2] at this
  refine ⟨⟨_, this⟩, ?_⟩
  have hl := congrArg List.length this
  simp only [List.length_append, enumerated, List.length_mapIdx] at hl
  have hb : (unreadOf c.ch i).length < m := by
    obtain ⟨m', g1, g2⟩ := SB.room_after_raise hd h1 hset b e h2
    rw [hm] at g1
    injection g1 with g1; subst g1
    refine Nat.lt_of_le_of_lt (List.length_filter_le _ _) ?_
    obtain ⟨x, hx, rfl⟩ := Option.map_eq_some_iff.1 hv
    simpa [SB.items, hx] using g2
  omega

/-- **C108** so with `maxlen=1` the loop is given everything. -/
theorem C108_maxlen_one (L : List (Option D)) (hkey : ∀ i j d d', i < j → cfg.key (.pair i d) < cfg.key (.pair j d')) (hd : cfg.autoDrop = false)
    (hm : cfg.maxlen = some 1) (b i : Nat) (hpk : (cfg.rdCfg i).peek = false)
    (he : init.exec true cfg xs = some s) (hn : SimpAct.sb SBAct.start ∉ xs) (hk : ∀ a, .sb a ∈ xs → a.isKeyRaise = false)
    (hu : ∀ a, .sb a ∈ xs → SB.OneUser b i a) (hdr : DropsReceived cfg b i xs) (hend : ∀ e, Ev.readRaised b e ∈ s.sb.log → s.raw b = L)
    (hns : ∀ r, Ev.stopCalled r ∉ s.sb.log) (c : Cons K (SItem D)) (hv : s.sb.view b = some c) (hdone : .loopDone ∈ c.evtsOf i) :
    received c i = enumerated L := by
  obtain ⟨h1, h2⟩ := C108_misses_at_most L hkey hd 1 hm b i hpk he hn hk hu hdr hend hns c hv hdone
  refine h1.eq_of_length ?_
  have := h1.length_le
  simp only [enumerated, List.length_mapIdx] at this ⊢
  omega

/-- **C109** what is true of "the documented loop gets all the data": when it is run again after its end, as long as it takes (it ends by itself again,
C107), it has. `xs`: until the first loop's thread has seen the end; `ys`: from there to the end of the second loop. -/
theorem C109_second_loop_partial (L : List (Option D)) (hkey : ∀ i j d d', i < j → cfg.key (.pair i d) < cfg.key (.pair j d')) (hd : cfg.autoDrop = false)
    (hm : cfg.maxlen ≠ none) (b i : Nat) (hpk : (cfg.rdCfg i).peek = false) (hstr : (cfg.rdCfg i).strict = false) {ys : List (SimpAct K D I)}
    (h0 : init.exec true cfg xs = some s) (he : s.exec true cfg ys = some s') (hn : SimpAct.sb SBAct.start ∉ xs ++ ys)
    (hk : ∀ a, .sb a ∈ xs ++ ys → a.isKeyRaise = false)
    (hu : ∀ a, .sb a ∈ xs ++ ys → SB.OneUser b i a) (hdr : DropsReceived cfg b i (xs ++ ys)) (hend : ∀ e, Ev.readRaised b e ∈ s.sb.log → s.raw b = L)
    (hns : ∀ r, Ev.stopCalled r ∉ s.sb.log) (c : Cons K (SItem D)) (hv : s.sb.view b = some c) (hdone : .loopDone ∈ c.evtsOf i)
    (hstay : ∀ a, .sb a ∈ ys → SB.isLeave b i a = false) (hpc : BetweenReads (c.pc i)) (hgo : 2 * (unreadOf c.ch i).length ≤ (userActs ys).countP (SB.isGo b i)) :
    ∃ c', s'.sb.view b = some c' ∧ received c' i = enumerated L := by
  have hn1 : SimpAct.sb SBAct.start ∉ xs := fun h => hn (by simp [h])
  have hk1 : ∀ a, .sb a ∈ xs → a.isKeyRaise = false := fun a h => hk a (by simp [h])
  have he2 : init.exec true cfg (xs ++ ys) = some s' := by rw [exec_append, h0]; exact he
  obtain ⟨as', h1, h2, h3, h4, -, h6⟩ := path_split he2
  obtain ⟨as, bs, st, rfl, q2, q3, q4⟩ := h6 xs ys rfl
  have : st = s := Option.some.inj (q2.symm.trans h0)
  subst this
  have hset := h3 (settled_of_no_restart hn)
  have hbs : st.sb.exec cfg bs = some s'.sb := by
    rw [SB.exec_append, q3] at h1; exact h1
  have hr := SB.view_reach q3 b c hv
  obtain ⟨⟨e, g1⟩, g2⟩ := ended_by_read hkey (.inl hm) h0 hn1 hk1 hns b c hv (loopDone_stopped hr i hdone)
  have hL := hend e g1
  have hst : storedIn b st.sb.log = enumerated L := by
    have := (C51_never_rejects hkey h0 hn1 hk1).1 b
    rwa [g2, List.append_nil, hL] at this
  have hA := acc he2 (settled_of_no_restart hn)
  have hA1 := acc h0 (settled_of_no_restart hn1)
  have hinc : (dataRead b s'.sb.log).Pairwise fun v w => cfg.key v < cfg.key w := by
    rw [hA.num.data b]
    simp only [handed, if_true, enumerated]
    rw [List.pairwise_iff_getElem]
    intro n m hn hm hlt
    simp only [List.getElem_mapIdx]
    exact hkey _ _ _ _ hlt
  have hdr' : SB.DropsReceived cfg b i (as ++ bs) := by
    intro as1 as2 s1 c1 e q1 q2
    obtain ⟨xs1, xs2, st, r1, r2, r3⟩ := h4 as1 as2 e
    have : st.sb = s1 := Option.some.inj (r3.symm.trans q1)
    subst this
    exact hdr xs1 xs2 st c1 r1 r2 q2
  obtain ⟨c', j1, j2⟩ := SB.C92_drop_loop_gets_all hd b i hpk hstr (oneUser_path h2 hu) q3 c hv (stay_path q4 hstay) hbs hset hinc hdr'
    (.inl ⟨hpc, by rw [isGo_path b i q4]; omega⟩)
  refine ⟨c', j1, ?_⟩
  rw [hst] at j2
  have hall := C108_nothing_lost hkey hd b i hpk he2 hn hk hu hdr c' j1
  have hsame : dataRead b s'.sb.log = dataRead b st.sb.log := by
    obtain ⟨⟨l, hl, hcl⟩, -⟩ := SB.C90_death_is_final q3 b ⟨_, g1, rfl, by simp [byThread]⟩ hbs
    rw [hl, dataRead_append]
    suffices dataRead b l = [] by rw [this, List.append_nil]
    simp only [dataRead, List.filterMap_eq_nil_iff]
    intro x hx
    have := hcl x hx
    split
    · rename_i t v
      rw [if_neg]
      rintro rfl
      simp [byThread, isCloseBy] at this
    · rfl
  rw [hA.num.data b, hA1.num.data b, hL] at hsame
  simp only [handed, if_true] at hsame
  rw [hsame] at hall
  refine (j2.eq_of_length ?_).symm
  have := congrArg List.length hall
  have := j2.length_le
  simp only [List.length_append] at *
  omega

end Simp
end S2P
