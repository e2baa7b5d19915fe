import Verif.Props.DropLoop
/-
C92: a `for` loop over a reader delivers everything that is stored, within a bounded number of its own steps.
-/
namespace S2P
open Spec
variable {K V I : Type}
namespace SB
variable [LinearOrder K] [BEq V] [ReflBEq V] {cfg : SBCfg K V} {s s' : SB K V I} {a : SBAct K V I} {as : List (SBAct K V I)}

/-- Consumer `i` of session `b` does a step (of its loop). -/
def isGo (b i : Nat) : SBAct K V I → Bool
  | .rd b' (.go i') => b' = b && i' = i
  | _ => false

/-- Consumer `i` of session `b` leaves its loop or gives up its call: `break`, `return` or an exception in the body, an interrupted sleep. -/
def isLeave (b i : Nat) : SBAct K V I → Bool
  | .rd b' (.leave i') => b' = b && i' = i
  | _ => false

omit [LinearOrder K] [BEq V] [ReflBEq V] in
theorem stay_of_check {b i : Nat} (h : as.all (fun a => !isLeave b i a) = true) : ∀ a ∈ as, isLeave b i a = false := fun a ha => by
  simpa using List.all_eq_true.1 h a ha

omit [ReflBEq V] in
/-- What a step does to the position and the observations of a consumer. -/
theorem view_pc (hi : s.Inv) (hs : s.step cfg a = some s') (b i : Nat) (c : Cons K V) (hv : s.view b = some c) :
    ∃ c', s'.view b = some c' ∧ ((isGo b i a = true ∧ c.go i = some c') ∨
      (isGo b i a = false ∧ (c.pc i = .idle ∨ c'.pc i = c.pc i ∨ (isLeave b i a = true ∧ c'.pc i = .idle)) ∧ c'.evtsOf i = c.evtsOf i ∧
        (OneUser b i a → c'.ch.readers i = c.ch.readers i))) := by
  have hst := step_to hs
  clear hs
  obtain ⟨x, hx, hc⟩ := Option.map_eq_some_iff.1 hv
  have hcp : c.pc = x.cons.pc := by rw [← hc]
  have hce : c.evtsOf i = x.cons.evtsOf i := by rw [← hc]; rfl
  have hcr : c.ch = x.cons.ch := by rw [← hc]
  cases hst with
  | rd b' a' x' c1 ha hx' hs =>
    by_cases hb : b = b'
    · subst hb
      have hxx : x' = x := by rw [hx] at hx'; injection hx' with h; exact h.symm
      subst hxx
      have hst := Cons.step_stopped ha hs
      have hv' : (s.setBuf b { x' with cons := c1 }).view b = some c1 := by
        simp only [view, setBuf, if_true, Option.map_some, Option.some.injEq]
        simp only at hst
        rw [← hst]
      refine ⟨c1, hv', ?_⟩
      rw [hc] at hs
      cases a' with
      | go j =>
        by_cases hj : j = i
        · subst hj; exact .inl ⟨by simp [isGo], hs⟩
        · have hf := Cons.go_frame hj hs
          exact .inr ⟨by simp [isGo, hj], .inr (.inl hf.pc), hf.evts, fun _ => hf.rd⟩
      | call op =>
        simp only [Cons.step, Option.some.injEq] at hs
        subst hs
        refine .inr ⟨rfl, .inr (.inl rfl), rfl, fun hu => ?_⟩
        cases op with
        | rd j o => exact (Cons.call_rd_frame c (hu rfl) o).rd
        | append v => rfl
        | drop n => rfl
      | setStop => simp [CAct.isReaders] at ha
      | leave j =>
        simp only [Cons.step] at hs
        split at hs
        · injection hs with hs
          subst hs
          refine .inr ⟨rfl, ?_, rfl, fun _ => rfl⟩
          by_cases hj : i = j
          · subst hj; exact .inr (.inr ⟨by simp [isLeave], by simp [Cons.goto]⟩)
          · exact .inr (.inl (by simp [Cons.goto, hj]))
        · simp at hs
      | callNext j | callIter j | callRead j =>
        simp only [Cons.step] at hs
        split at hs
        · rename_i hp
          injection hs with hs
          subst hs
          refine .inr ⟨rfl, ?_, rfl, fun _ => rfl⟩
          by_cases hj : i = j
          · subst hj; exact .inl hp
          · exact .inr (.inl (by simp [Cons.goto, hj]))
        · simp at hs
    · refine ⟨c, ?_, .inr ⟨?_, .inr (.inl rfl), rfl, fun _ => rfl⟩⟩
      · simp only [view, setBuf, if_neg hb, hx, Option.map_some, hc]
      · cases a' <;> simp [isGo]
        intro h; exact absurd h.symm hb
  | bufOk info e hp he =>
    have hne : b ≠ s.n - 1 := by
      intro h
      have := hi.ph
      rw [hp] at this
      simp only [PhaseOk] at this
      rw [h, this.2.2.2.1] at hx
      simp at hx
    refine ⟨c, ?_, .inr ⟨rfl, .inr (.inl rfl), rfl, fun _ => rfl⟩⟩
    simp only [view, say, setBuf, if_neg hne, hx, Option.map_some, hc]
  | stored t b' v x' r _ hx' _ =>
    by_cases hb : b = b'
    · subst hb
      have hxx : x' = x := by rw [hx] at hx'; injection hx' with h; exact h.symm
      subst hxx
      refine ⟨_, (by simp only [view, say, setThr, setBuf, if_true, Option.map_some]; rfl), .inr ⟨rfl, .inr (.inl ?_), ?_, fun hu => ?_⟩⟩
      · rw [hcp]; rfl
      · rw [hce]; rfl
      · rw [hcr]; first | rfl | exact (Cons.call_rd_frame x'.cons hu _).rd
    · refine ⟨c, ?_, .inr ⟨rfl, .inr (.inl rfl), rfl, fun _ => rfl⟩⟩
      simp only [view, say, setThr, setBuf, if_neg hb, hx, Option.map_some, hc]
  | refused t b' v x' r _ hx' _ =>
    by_cases hb : b = b'
    · subst hb
      have hxx : x' = x := by rw [hx] at hx'; injection hx' with h; exact h.symm
      subst hxx
      refine ⟨_, (by simp only [view, say, setThr, setBuf, if_true, Option.map_some]; rfl), .inr ⟨rfl, .inr (.inl ?_), ?_, fun hu => ?_⟩⟩
      · rw [hcp]; rfl
      · rw [hce]; rfl
      · rw [hcr]; first | rfl | exact (Cons.call_rd_frame x'.cons hu _).rd
    · refine ⟨c, ?_, .inr ⟨rfl, .inr (.inl rfl), rfl, fun _ => rfl⟩⟩
      simp only [view, say, setThr, setBuf, if_neg hb, hx, Option.map_some, hc]
  | drop _ _ b' x' _ hx' =>
    by_cases hb : b = b'
    · subst hb
      have hxx : x' = x := by rw [hx] at hx'; injection hx' with h; exact h.symm
      subst hxx
      refine ⟨_, (by simp only [view, say, setThr, setBuf, setDrop, if_true, Option.map_some]; rfl), .inr ⟨rfl, .inr (.inl ?_), ?_, fun hu => ?_⟩⟩
      · rw [hcp]; rfl
      · rw [hce]; rfl
      · rw [hcr]; first | rfl | exact (Cons.call_rd_frame x'.cons hu _).rd
    · refine ⟨c, ?_, .inr ⟨rfl, .inr (.inl rfl), rfl, fun _ => rfl⟩⟩
      simp only [view, say, setThr, setBuf, setDrop, if_neg hb, hx, Option.map_some, hc]
  | attach _ _ j b' _ x' _ _ _ hx' op _ =>
    by_cases hb : b = b'
    · subst hb
      have hxx : x' = x := by rw [hx] at hx'; injection hx' with h; exact h.symm
      subst hxx
      refine ⟨_, (by simp only [view, say, setThr, setBuf, if_true, Option.map_some]; rfl), .inr ⟨rfl, .inr (.inl ?_), ?_, fun hu => ?_⟩⟩
      · rw [hcp]; rfl
      · rw [hce]; rfl
      · rw [hcr]; first | rfl | exact (Cons.call_rd_frame x'.cons hu _).rd
    · refine ⟨c, ?_, .inr ⟨rfl, .inr (.inl rfl), rfl, fun _ => rfl⟩⟩
      simp only [view, say, setThr, setBuf, if_neg hb, hx, Option.map_some, hc]
  | _ =>
    refine ⟨_, (by simp only [view, say, setThr, setNext, setDrop, setInfo, setEvent, hx, Option.map_some]; rfl), .inr ⟨rfl, .inr (.inl ?_), ?_, fun hu => ?_⟩⟩
    · rw [hcp]
    · rw [hce]; rfl
    · rw [hcr]

/-- In a `for` loop. -/
def InLoop : CPC → Prop
  | .iterRead | .iterYield | .iterSleep | .iterCheck | .iterCheck2 => True
  | _ => False

omit [ReflBEq V] in
/-- A consumer inside a call can always do its next statement. -/
theorem rd_go_some {b i : Nat} {c : Cons K V} (hv : s.view b = some c) (h : c.pc i ≠ .idle) : ∃ y, s.step cfg (.rd b (.go i)) = some y := by
  obtain ⟨x, hx, hc⟩ := Option.map_eq_some_iff.1 hv
  have : ∃ c', c.go i = some c' := by
    unfold Cons.go
    cases hp : c.pc i <;> simp only
    · exact absurd hp h
    all_goals first
      | exact ⟨_, rfl⟩
      | (split <;> exact ⟨_, rfl⟩)
  obtain ⟨c', hc'⟩ := this
  refine ⟨s.setBuf b { x with cons := c' }, ?_⟩
  simp only [SB.step, CAct.isReaders, if_true, hx, Cons.step]
  rw [hc, hc']

omit [LinearOrder K] [BEq V] [ReflBEq V] in
theorem InLoop.ne_idle {p : CPC} (h : InLoop p) : p ≠ .idle := by rintro rfl; exact h

/-- How far a loop is from its next read. -/
def toRead : CPC → Nat
  | .iterRead => 3
  | .iterYield | .iterSleep => 2
  | .iterCheck2 => 1
  | _ => 0

omit [ReflBEq V] in
theorem view_stopped {bs : List (SBAct K V I)} (h0 : SB.init.exec cfg as = some s) (he : s.exec cfg bs = some s') (b : Nat) (c c' : Cons K V)
    (hv : s.view b = some c) (hv' : s'.view b = some c') (hst : c'.stopped = false) : c.stopped = false := by
  induction bs generalizing s as c with
  | nil =>
    simp only [SB.exec, Option.some.injEq] at he; subst he
    rw [hv] at hv'; injection hv' with h; rw [h]; exact hst
  | cons a bs ih =>
    simp only [SB.exec] at he
    split at he
    swap
    · simp at he
    rename_i s1 hs
    obtain ⟨c1, hv1, -⟩ := view_pc (good h0).inv hs b 0 c hv
    have h1 := ih (as := as ++ [a]) (by rw [exec_append, h0]; simp only [Option.bind, SB.exec, hs]) he c1 hv1
    by_contra hne
    have hne : c.stopped = true := by simpa using hne
    rcases view_step (good h0).inv hs b c1 hv1 with ⟨d, hd, h⟩ | ⟨hd, -⟩
    · rw [hv] at hd; injection hd with hd; subst hd
      rcases h with rfl | ⟨a', h⟩
      · rw [hne] at h1; simp at h1
      · have := C25_stop_is_permanent (cfg := cfg.rdCfg) (as := [a']) (s' := c1) (by simp only [Cons.exec, h]) hne
        rw [this] at h1; simp at h1
    · rw [hv] at hd; simp at hd

theorem loop_core {bs : List (SBAct K V I)} (b i : Nat) (hpk : (cfg.rdCfg i).peek = false) (hstr : (cfg.rdCfg i).strict = false)
    (h0 : SB.init.exec cfg as = some s) (c : Cons K V) (hv : s.view b = some c) (hin : InLoop (c.pc i)) (hstay : ∀ a ∈ bs, isLeave b i a = false)
    (hall : ∀ bs1 bs2 s1 c1, bs = bs1 ++ bs2 → s.exec cfg bs1 = some s1 → s1.view b = some c1 →
      received c1 i ++ unreadOf c1.ch i = storedIn b s1.log)
    (he : s.exec cfg bs = some s') (hrun : BetweenReads (c.pc i) ∨ ∀ c', s'.view b = some c' → c'.stopped = false) :
    ∃ c', s'.view b = some c' ∧ storedIn b s.log <+: storedIn b s'.log ∧
      ((InLoop (c'.pc i) ∧ (BetweenReads (c.pc i) → BetweenReads (c'.pc i)) ∧
        2 * (received c i).length + toRead (c.pc i) + bs.countP (isGo b i) ≤ 2 * (received c' i).length + toRead (c'.pc i)) ∨
      (storedIn b s.log).length ≤ (received c' i).length) := by
  induction bs using List.reverseRecOn generalizing s' with
  | nil =>
    simp only [SB.exec, Option.some.injEq] at he; subst he
    exact ⟨c, hv, List.prefix_refl _, .inl ⟨hin, id, by simp⟩⟩
  | append_singleton bs a ih =>
    rw [exec_append] at he
    obtain ⟨s1, h1, he⟩ := Option.bind_eq_some_iff.1 he
    have he1 := he
    simp only [SB.exec] at he
    split at he
    swap
    · simp at he
    rename_i s2 hs
    injection he with he; subst he
    have h01 : SB.init.exec cfg (as ++ bs) = some s1 := by rw [exec_append, h0]; exact h1
    have hrun1 : BetweenReads (c.pc i) ∨ ∀ c', s1.view b = some c' → c'.stopped = false := by
      refine hrun.imp id fun hr c1 hv1 => ?_
      obtain ⟨c2, hv2, -⟩ := view_pc (good h01).inv hs b i c1 hv1
      exact view_stopped h01 he1 b c1 c2 hv1 hv2 (hr c2 hv2)
    obtain ⟨c1, hv1, hpre, hor⟩ := ih (fun a ha => hstay a (List.mem_append_left _ ha)) (fun bs1 bs2 s1 c1 e => hall bs1 (bs2 ++ [a]) s1 c1 (by rw [e, List.append_assoc])) h1 hrun1
    obtain ⟨c2, hv2, hgo⟩ := view_pc (good h01).inv hs b i c1 hv1
    have hpre' := hpre.trans (storedIn_prefix hs b)
    refine ⟨c2, hv2, hpre', ?_⟩
    have hc1 := hall bs [a] s1 c1 rfl h1 hv1
    rcases hor with ⟨hl, hb, hle⟩ | hle
    · rcases hgo with ⟨hg, hgo⟩ | ⟨hg, hpc, hev, -⟩
      · rw [List.countP_append, List.countP_singleton, if_pos hg]
        have hreach := view_reach h01 b c1 hv1
        cases hp : c1.pc i with
        | iterRead =>
          obtain ⟨-, -, -, k4⟩ := iter_read_step hreach i hstr hpk hp hgo
          rw [hp] at hle
          rcases k4 with ⟨k4, k5, k6⟩ | ⟨k4, k5, k6⟩
          · right
            rw [k4, List.append_nil] at hc1
            have : received c2 i = received c1 i := by simp only [received, k6]
            rw [this, hc1]
            exact hpre.length_le
          · left
            have : received c2 i = received c1 i ++ (unreadOf c1.ch i).take (chunkSize (cfg.rdCfg i).n) := by
              simp only [received, k6, List.flatMap_append, List.flatMap_cons, List.flatMap_nil, List.append_nil, CEvt.items, chunkOf_items]
            have hlen : 1 ≤ ((unreadOf c1.ch i).take (chunkSize (cfg.rdCfg i).n)).length := by
              have := List.length_pos_iff.2 k4
              simp only [List.length_take, chunkSize]
              omega
            rw [k5, this, List.length_append]
            simp only [toRead] at hle ⊢
            exact ⟨trivial, fun _ => trivial, by omega⟩
        | iterYield | iterSleep =>
          simp only [Cons.go, hp, Option.some.injEq] at hgo
          subst hgo
          rw [hp] at hle
          have hrec : ∀ p, received (c1.goto i p) i = received c1 i := fun _ => rfl
          rw [hrec]
          left
          refine ⟨by simp [Cons.goto, InLoop], fun _ => by simp [Cons.goto, BetweenReads], ?_⟩
          simp only [Cons.goto, if_true, toRead] at hle ⊢
          omega
        | iterCheck | iterCheck2 =>
          rw [hp] at hle hb
          have hnb : ¬ BetweenReads (c.pc i) := fun h => (hb h).elim
          have hst := (hrun1.resolve_left hnb) c1 hv1
          simp only [Cons.go, hp, hst, Bool.false_eq_true, if_false, Option.some.injEq] at hgo
          subst hgo
          have hrec : ∀ p, received (c1.goto i p) i = received c1 i := fun _ => rfl
          rw [hrec]
          left
          refine ⟨by simp [Cons.goto, InLoop], fun h => absurd h hnb, ?_⟩
          simp only [Cons.goto, if_true, toRead] at hle ⊢
          omega
        | _ => rw [hp] at hl; exact hl.elim
      · rw [List.countP_append, List.countP_singleton, if_neg (by simp [hg])]
        have hrec : received c2 i = received c1 i := by simp only [received, hev]
        have hpc : c2.pc i = c1.pc i := by
          rcases hpc with h | h | ⟨h, -⟩
          · rw [h] at hl; exact hl.elim
          · exact h
          · rw [hstay a (by simp)] at h; cases h
        rw [hrec, hpc]
        exact .inl ⟨hl, hb, by simpa using hle⟩
    · right
      refine hle.trans ?_
      rcases hgo with ⟨-, hgo⟩ | ⟨-, -, hev, -⟩
      · exact (step_received (a := .go i) (cfg := cfg.rdCfg) hgo i).length_le
      · simp only [received, hev]; exact le_refl _

/-- With everything received or readable at every moment (`hall`), a loop that has done two steps per unread item has received what was stored. -/
theorem loop_delivers {bs : List (SBAct K V I)} (b i : Nat) (hpk : (cfg.rdCfg i).peek = false) (hstr : (cfg.rdCfg i).strict = false)
    (h0 : SB.init.exec cfg as = some s) (c : Cons K V) (hv : s.view b = some c) (hstay : ∀ a ∈ bs, isLeave b i a = false)
    (hall : ∀ bs1 bs2 s1 c1, bs = bs1 ++ bs2 → s.exec cfg bs1 = some s1 → s1.view b = some c1 →
      received c1 i ++ unreadOf c1.ch i = storedIn b s1.log)
    (he : s.exec cfg bs = some s')
    (hrun : (BetweenReads (c.pc i) ∧ 2 * (unreadOf c.ch i).length ≤ bs.countP (isGo b i)) ∨
      (InLoop (c.pc i) ∧ (∀ c', s'.view b = some c' → c'.stopped = false) ∧ 2 * (unreadOf c.ch i).length + 2 ≤ bs.countP (isGo b i))) :
    ∃ c', s'.view b = some c' ∧ storedIn b s.log <+: received c' i := by
  have hin : InLoop (c.pc i) := by
    rcases hrun with ⟨h, -⟩ | ⟨h, -, -⟩
    · cases hp : c.pc i <;> rw [hp] at h <;> simp [BetweenReads, InLoop] at *
    · exact h
  obtain ⟨c', hv', hpre, hor⟩ := loop_core b i hpk hstr h0 c hv hin hstay hall he (hrun.imp And.left fun h => h.2.1)
  refine ⟨c', hv', ?_⟩
  have hc' := hall bs [] s' c' (by simp) he hv'
  have hc := congrArg List.length (hall [] bs s c rfl rfl hv)
  rw [List.length_append] at hc
  have hlen : (storedIn b s.log).length ≤ (received c' i).length := by
    rcases hor with ⟨-, -, hle⟩ | hle
    · have hle3 : ∀ p, toRead p ≤ 3 := by intro p; cases p <;> simp [toRead]
      have h3 := hle3 (c'.pc i)
      rcases hrun with ⟨h, hk⟩ | ⟨h, -, hk⟩
      · have : 2 ≤ toRead (c.pc i) := by cases hp : c.pc i <;> rw [hp] at h <;> simp [BetweenReads, toRead] at *
        omega
      · omega
    · exact hle
  exact List.prefix_of_prefix_length_le hpre ⟨_, hc'⟩ hlen

/-- **C92** a `for` loop over a reader of an unbounded buffer, that is not broken off: once it has done two steps per item that was unread, it has been given everything that
was stored when counting began, in order. Every execution and schedule; a loop that is not just looking at the stop event, or a stream that is still
running (then two more steps). -/
theorem C92_loop_gets_all {bs : List (SBAct K V I)} (hm : cfg.maxlen = none) (hd : cfg.autoDrop = true) (b i : Nat) (hpk : (cfg.rdCfg i).peek = false)
    (hstr : (cfg.rdCfg i).strict = false) (hu : ∀ a ∈ as ++ bs, OneUser b i a)
    (h0 : SB.init.exec cfg as = some s) (c : Cons K V) (hv : s.view b = some c) (hstay : ∀ a ∈ bs, isLeave b i a = false)
    (he : s.exec cfg bs = some s')
    (hrun : (BetweenReads (c.pc i) ∧ 2 * (unreadOf c.ch i).length ≤ bs.countP (isGo b i)) ∨
      (InLoop (c.pc i) ∧ (∀ c', s'.view b = some c' → c'.stopped = false) ∧ 2 * (unreadOf c.ch i).length + 2 ≤ bs.countP (isGo b i))) :
    ∃ c', s'.view b = some c' ∧ storedIn b s.log <+: received c' i := by
  refine loop_delivers b i hpk hstr h0 c hv hstay (fun bs1 bs2 s1 c1 e h1 hv1 => ?_) he hrun
  refine C63_unbounded hm hd b i hpk (as := as ++ bs1) (fun a ha => hu a ?_) (by rw [exec_append, h0]; exact h1) c1 hv1
  rw [e]
  simp only [List.mem_append] at ha ⊢
  exact ha.elim .inl (fun h => .inr (.inl h))

omit [ReflBEq V] in
theorem dataRead_grows {bs : List (SBAct K V I)} (he : s.exec cfg bs = some s') (b : Nat) : dataRead b s.log <+: dataRead b s'.log := by
  induction bs generalizing s with
  | nil => simp only [SB.exec, Option.some.injEq] at he; subst he; exact List.prefix_refl _
  | cons a bs ih =>
    simp only [SB.exec] at he
    split at he
    swap
    · simp at he
    rename_i s1 hs
    refine List.IsPrefix.trans ?_ (ih he)
    have hst := step_to hs
    clear hs
    cases hst
    all_goals simp [say, setThr, setBuf, setEvent, setNext, setDrop, setInfo, newSess, dataRead_append]

/-- **C92** and of a consumer with `auto_drop=False` that drops what it has received. -/
theorem C92_drop_loop_gets_all {bs : List (SBAct K V I)} (hd : cfg.autoDrop = false) (b i : Nat) (hpk : (cfg.rdCfg i).peek = false)
    (hstr : (cfg.rdCfg i).strict = false) (hu : ∀ a ∈ as ++ bs, OneUser b i a)
    (h0 : SB.init.exec cfg as = some s) (c : Cons K V) (hv : s.view b = some c) (hstay : ∀ a ∈ bs, isLeave b i a = false)
    (he : s.exec cfg bs = some s')
    (hset : SB.init.Settled cfg (as ++ bs)) (hinc : (dataRead b s'.log).Pairwise (fun v w => cfg.key v < cfg.key w))
    (hdr : DropsReceived cfg b i (as ++ bs))
    (hrun : (BetweenReads (c.pc i) ∧ 2 * (unreadOf c.ch i).length ≤ bs.countP (isGo b i)) ∨
      (InLoop (c.pc i) ∧ (∀ c', s'.view b = some c' → c'.stopped = false) ∧ 2 * (unreadOf c.ch i).length + 2 ≤ bs.countP (isGo b i))) :
    ∃ c', s'.view b = some c' ∧ storedIn b s.log <+: received c' i := by
  refine loop_delivers b i hpk hstr h0 c hv hstay (fun bs1 bs2 s1 c1 e h1 hv1 => ?_) he hrun
  have h01 : SB.init.exec cfg (as ++ bs1) = some s1 := by rw [exec_append, h0]; exact h1
  have h12 : s1.exec cfg bs2 = some s' := by
    rw [e, exec_append, h1] at he; exact he
  refine (C91_gets_everything hd b i hpk (as := as ++ bs1) (fun a ha => hu a ?_) h01
    (Settled.left (bs := bs2) (by rw [List.append_assoc, ← e]; exact hset)) (hinc.sublist ?_) ?_ c1 hv1).1
  · rw [e]
    simp only [List.mem_append] at ha ⊢
    exact ha.elim .inl (fun h => .inr (.inl h))
  · exact (dataRead_grows h12 b).sublist
  · intro as1 as2 s2 c2 e2 k1 k2
    exact hdr as1 (as2 ++ bs2) s2 c2 (by rw [e, ← List.append_assoc, e2, List.append_assoc]) k1 k2

end SB
end S2P
