import Verif.Model.IterBuffer
import Verif.Proofs.NextReader
/-
`for x in stream_buffer` (Model/IterBuffer.lean): which steps of the stream buffer its steps are, and what the generators handed out.
-/
namespace S2P
variable {K V I : Type}

/-- What calls of `next` on generator `g` came to, oldest first, leaving out those that came while it was running. -/
def outsOf (g : Nat) (l : List (Nat × GEv V)) : List (GEv V) :=
  l.filterMap fun p => if p.1 = g then (match p.2 with | .executing => none | e => some e) else none

theorem outsOf_append (g : Nat) (l l' : List (Nat × GEv V)) : outsOf g (l ++ l') = outsOf g l ++ outsOf g l' := by simp [outsOf]

namespace GSB

section
variable [LT K] [DecidableLT K] [BEq V]

/-- The steps, one by one. -/
inductive GStep (cfg : SBCfg K V) (s : GSB K V I) : GAct K V I → GSB K V I → Prop
  | sb (a y) (hp : a.isOther = true) (h : s.sb.step cfg a = some y) : GStep cfg s (.sb a) { s with sb := y }
  | iter (g) (h0 : s.gens g = .unborn) : GStep cfg s (.iter g) (s.setGen g .made)
  | first (g) (h0 : s.gens g = .made) : GStep cfg s (.next g) (s.setGen g .called)
  | resume (g b y) (h0 : s.gens g = .at b) (h : s.sb.step cfg (.rd b (.go (genRd g))) = some y) :
      GStep cfg s (.next g) (({ s with sb := y }).setGen g (.within b))
  | again (g o) (h0 : s.gens g = .over o) : GStep cfg s (.next g) (s.say g .stop)
  | busy (g) (h0 : s.gens g = .called ∨ ∃ b, s.gens g = .got b ∨ s.gens g = .within b) : GStep cfg s (.next g) (s.say g .executing)
  | mk (g y b) (h0 : s.gens g = .called) (h : s.sb.step cfg .mkReader = some y) (hb : s.sb.sourceBuffer = some b) :
      GStep cfg s (.go g) (({ s with sb := y }).setGen g (.got b))
  | mkFail (g y) (h0 : s.gens g = .called) (h : s.sb.step cfg .mkReader = some y) (hb : s.sb.sourceBuffer = none) :
      GStep cfg s (.go g) ((({ s with sb := y }).setGen g (.over none)).say g (.raised .streamNotStarted))
  | start (g b y) (h0 : s.gens g = .got b) (h : s.sb.step cfg (.rd b (.callIter (genRd g))) = some y) :
      GStep cfg s (.go g) (({ s with sb := y }).setGen g (.within b))
  | item (g b y r) (h0 : s.gens g = .within b) (h : s.sb.step cfg (.rd b (.go (genRd g))) = some y) (hp : pcOf y b (genRd g) = some .iterYield)
      (he : NSB.lastEvt y b = some (.yielded r)) : GStep cfg s (.go g) ((({ s with sb := y }).setGen g (.at b)).say g (.item r))
  | raise (g b y e) (h0 : s.gens g = .within b) (h : s.sb.step cfg (.rd b (.go (genRd g))) = some y) (hp : pcOf y b (genRd g) = some .idle)
      (he : NSB.lastEvt y b = some (.raised e)) : GStep cfg s (.go g) ((({ s with sb := y }).setGen g (.over (some b))).say g (.raised e))
  | stop (g b y) (h0 : s.gens g = .within b) (h : s.sb.step cfg (.rd b (.go (genRd g))) = some y) (hp : pcOf y b (genRd g) = some .idle)
      (he : ∀ e, NSB.lastEvt y b ≠ some (.raised e)) : GStep cfg s (.go g) ((({ s with sb := y }).setGen g (.over (some b))).say g .stop)
  | cont (g b y) (h0 : s.gens g = .within b) (h : s.sb.step cfg (.rd b (.go (genRd g))) = some y) (hp : pcOf y b (genRd g) ≠ some .idle)
      (he : pcOf y b (genRd g) = some .iterYield → ∀ r, NSB.lastEvt y b ≠ some (.yielded r)) : GStep cfg s (.go g) { s with sb := y }
  | closeMade (g) (h0 : s.gens g = .made) : GStep cfg s (.close g) (s.setGen g (.over none))
  | close (g b y) (h0 : s.gens g = .at b ∨ s.gens g = .within b) (h : s.sb.step cfg (.rd b (.leave (genRd g))) = some y) :
      GStep cfg s (.close g) (({ s with sb := y }).setGen g (.over (some b)))

variable {cfg : SBCfg K V} {s s' : GSB K V I} {a : GAct K V I} {as : List (GAct K V I)}

theorem step_to (hs : s.step cfg a = some s') : GStep cfg s a s' := by
  cases a with
  | sb a =>
    simp only [step] at hs
    split at hs
    · rename_i hp
      obtain ⟨y, h, rfl⟩ := Option.map_eq_some_iff.1 hs
      exact .sb a y hp h
    · cases hs
  | iter g =>
    simp only [step] at hs
    split at hs
    · rename_i hp; injection hs with hs; subst hs; exact .iter g hp
    · cases hs
  | next g =>
    simp only [step, next] at hs
    cases hg : s.gens g <;> rw [hg] at hs <;> simp only [reduceCtorEq, Option.some.injEq] at hs
    · subst hs; exact .first g hg
    · subst hs; exact .busy g (.inl hg)
    · subst hs; exact .busy g (.inr ⟨_, .inl hg⟩)
    · subst hs; exact .busy g (.inr ⟨_, .inr hg⟩)
    · obtain ⟨y, h, rfl⟩ := Option.map_eq_some_iff.1 hs
      exact .resume g _ y hg h
    · subst hs; exact .again g _ hg
  | go g =>
    simp only [step, go] at hs
    cases hg : s.gens g <;> rw [hg] at hs <;> simp only [reduceCtorEq] at hs
    · obtain ⟨y, h, rfl⟩ := Option.map_eq_some_iff.1 hs
      cases hb : s.sb.sourceBuffer with
      | none => exact .mkFail g y hg h hb
      | some b => exact .mk g y b hg h hb
    · obtain ⟨y, h, rfl⟩ := Option.map_eq_some_iff.1 hs
      exact .start g _ y hg h
    · rename_i b
      obtain ⟨y, h, rfl⟩ := Option.map_eq_some_iff.1 hs
      split
      · exact .item g b y _ hg h (by assumption) (by assumption)
      · exact .raise g b y _ hg h (by assumption) (by assumption)
      · rename_i hpc hno
        exact .stop g b y hg h hpc (by grind)
      · exact .cont g b y hg h (by grind) (by grind)
  | close g =>
    simp only [step, close] at hs
    cases hg : s.gens g <;> rw [hg] at hs <;> simp only [reduceCtorEq, Option.some.injEq] at hs
    · subst hs; exact .closeMade g hg
    · obtain ⟨y, h, rfl⟩ := Option.map_eq_some_iff.1 hs
      exact .close g _ y (.inr hg) h
    · obtain ⟨y, h, rfl⟩ := Option.map_eq_some_iff.1 hs
      exact .close g _ y (.inl hg) h

theorem exec_append (as bs : List (GAct K V I)) (s : GSB K V I) : s.exec cfg (as ++ bs) = (s.exec cfg as).bind (·.exec cfg bs) := by
  induction as generalizing s with
  | nil => rfl
  | cons a as ih =>
    simp only [List.cons_append, exec]
    cases s.step cfg a with
    | none => rfl
    | some t => exact ih t

theorem exec_snoc (he : s.exec cfg as = some s') {t : GSB K V I} (hs : s'.step cfg a = some t) : s.exec cfg (as ++ [a]) = some t := by
  rw [exec_append, he]; simp [exec, hs]

theorem exec_ind {P : GSB K V I → Prop} (hstep : ∀ s a s', a ∈ as → P s → s.step cfg a = some s' → P s') (h0 : P s) (he : s.exec cfg as = some s') : P s' := by
  induction as generalizing s with
  | nil => simp only [exec, Option.some.injEq] at he; subst he; exact h0
  | cons a as ih =>
    simp only [exec] at he
    split at he
    · rename_i t ht
      exact ih (fun s b s' hb => hstep s b s' (by simp [hb])) (hstep s a t (by simp) h0 ht) he
    · cases he

theorem genRd_inj {r r' : Nat} (h : genRd r = genRd r') : r = r' := by unfold genRd at h; omega

theorem odd (i g : Nat) (h : (i % 2 == 0) = true) : i ≠ genRd g := by
  simp only [beq_iff_eq] at h; unfold genRd; omega

theorem other_reader {x : SBAct K V I} (hp : x.isOther = true) (b g : Nat) : SB.OneUser b (genRd g) x ∧ ∀ a', x = .rd b a' → a'.reader? ≠ some (genRd g) := by
  constructor
  · cases x with
    | rd b' a' =>
      intro _
      cases a' with
      | call op =>
        cases op with
        | rd i o => exact odd i g hp
        | _ => trivial
      | callRead i n p st => intro hi; exact absurd hi (odd i g hp)
      | _ => trivial
    | attach b' i j => simp only [SBAct.isOther, Bool.and_eq_true] at hp; exact odd j g hp.2
    | _ => trivial
  · rintro a' rfl hr
    simp only [SBAct.isOther, hr] at hp
    exact odd _ g hp rfl

/-- A statement of generator `g` on its reader. -/
def moves (s : GSB K V I) (g : Nat) : GAct K V I → Option (Nat × CAct K V)
  | .next g' => if g' = g then (match s.gens g with | .at b => some (b, .go (genRd g)) | _ => none) else none
  | .go g' => if g' = g then (match s.gens g with | .got b => some (b, .callIter (genRd g)) | .within b => some (b, .go (genRd g)) | _ => none) else none
  | .close g' => if g' = g then (match s.gens g with | .at b | .within b => some (b, .leave (genRd g)) | _ => none) else none
  | _ => none

/-- Which step of the stream buffer a step is: none, one not about the reader of generator `g`, or one of that reader. -/
theorem step_act (g : Nat) (hs : s.step cfg a = some s') : (s'.sb = s.sb ∧ s.moves g a = none) ∨
    ∃ x, s.sb.step cfg x = some s'.sb ∧ (x = .startGo → a = .sb .startGo) ∧ ((s.moves g a = none ∧ ∀ b, SB.OneUser b (genRd g) x ∧ ∀ a', x = .rd b a' → a'.reader? ≠ some (genRd g)) ∨
      ∃ b c, s.moves g a = some (b, c) ∧ x = .rd b c ∧ (∀ b, SB.OneUser b (genRd g) x)) := by
  have away : ∀ (g' b : Nat) (c : CAct K V), g' ≠ g → (c = .go (genRd g') ∨ c = .callIter (genRd g') ∨ c = .leave (genRd g')) →
      ∀ b', SB.OneUser b' (genRd g) (.rd b c : SBAct K V I) ∧ ∀ a', (.rd b c : SBAct K V I) = .rd b' a' → a'.reader? ≠ some (genRd g) := by
    intro g' b c hne hc b'
    constructor
    · intro _; rcases hc with rfl | rfl | rfl <;> trivial
    · intro a' ha hr
      injection ha with _ ha; subst ha
      rcases hc with rfl | rfl | rfl <;> (simp only [CAct.reader?, Option.some.injEq] at hr; exact hne (genRd_inj hr))
  have own : ∀ (b : Nat) (c : CAct K V), (c = .go (genRd g) ∨ c = .callIter (genRd g) ∨ c = .leave (genRd g)) → ∀ b', SB.OneUser b' (genRd g) (.rd b c : SBAct K V I) := by
    intro b c hc b' _; rcases hc with rfl | rfl | rfl <;> trivial
  have hst := step_to hs
  cases hst with
  | sb x y hp h => exact .inr ⟨x, h, fun e => by rw [e], .inl ⟨rfl, fun b => other_reader hp b g⟩⟩
  | iter g' h0 => exact .inl ⟨rfl, rfl⟩
  | first g' h0 => refine .inl ⟨rfl, ?_⟩; simp only [moves]; grind
  | again g' o h0 => refine .inl ⟨rfl, ?_⟩; simp only [moves]; grind
  | busy g' h0 => refine .inl ⟨rfl, ?_⟩; simp only [moves]; grind
  | closeMade g' h0 => refine .inl ⟨rfl, ?_⟩; simp only [moves]; grind
  | mk g' y b h0 h hb => exact .inr ⟨_, h, by simp, .inl ⟨by simp only [moves]; grind, fun _ => ⟨trivial, by simp⟩⟩⟩
  | mkFail g' y h0 h hb => exact .inr ⟨_, h, by simp, .inl ⟨by simp only [moves]; grind, fun _ => ⟨trivial, by simp⟩⟩⟩
  | resume g' b y h0 h | item g' b y r h0 h _ _ | raise g' b y e h0 h _ _ | stop g' b y h0 h _ _ | cont g' b y h0 h _ _ | start g' b y h0 h =>
    refine .inr ⟨_, h, by simp, ?_⟩
    by_cases hg : g' = g
    · subst hg
      refine .inr ⟨_, _, ?_, rfl, own _ _ (by simp)⟩
      simp only [moves, if_true, h0]
    · refine .inl ⟨by simp [moves, hg], away g' _ _ hg (by simp)⟩
  | close g' b y h0 h =>
    refine .inr ⟨_, h, by simp, ?_⟩
    by_cases hg : g' = g
    · subst hg
      refine .inr ⟨_, _, ?_, rfl, own _ _ (by simp)⟩
      rcases h0 with h0 | h0 <;> simp only [moves, if_true, h0]
    · refine .inl ⟨by simp [moves, hg], away g' _ _ hg (by simp)⟩

/-- Every `start()` reaches the replacement of the buffer when the threads of earlier sessions have ended (as `SB.Settled`). -/
def Settled (cfg : SBCfg K V) : GSB K V I → List (GAct K V I) → Prop
  | _, [] => True
  | s, a :: as => (∀ x, a = .sb x → s.sb.SettledAt x) ∧ ∀ s', s.step cfg a = some s' → s'.Settled cfg as

theorem Settled.split {bs : List (GAct K V I)} (h : s.Settled cfg (as ++ bs)) (he : s.exec cfg as = some s') : s.Settled cfg as ∧ s'.Settled cfg bs := by
  induction as generalizing s with
  | nil => simp only [exec, Option.some.injEq] at he; exact ⟨trivial, he ▸ h⟩
  | cons a as ih =>
    simp only [exec] at he
    split at he
    · rename_i s1 h1
      obtain ⟨k1, k2⟩ := ih (h.2 _ h1) he
      exact ⟨⟨h.1, fun s2 h2 => by rw [h1] at h2; cases h2; exact k1⟩, k2⟩
    · simp at he

/-- The step of the stream buffer is settled if the step is. -/
theorem act_settled {x : SBAct K V I} (h : ∀ x, a = .sb x → s.sb.SettledAt x) (hs : s.step cfg a = some s') (hx : s.sb.step cfg x = some s'.sb)
    (hxa : x = .startGo → a = .sb .startGo) : s.sb.SettledAt x := by
  intro e
  exact h _ (by rw [hxa e, e]) e

/-- The execution of the stream buffer behind an execution. -/
theorem exec_sb (g : Nat) (he : s.exec cfg as = some s') : ∃ bs, s.sb.exec cfg bs = some s'.sb ∧ (∀ a ∈ bs, ∀ b, SB.OneUser b (genRd g) a) ∧
    (s.Settled cfg as → s.sb.Settled cfg bs) := by
  induction as generalizing s with
  | nil => simp only [exec, Option.some.injEq] at he; subst he; exact ⟨[], rfl, by simp, fun _ => trivial⟩
  | cons a as ih =>
    simp only [exec] at he
    split at he
    · rename_i t ht
      obtain ⟨bs, hb, hbs, hset⟩ := ih he
      rcases step_act g ht with ⟨h, -⟩ | ⟨x, hx, hst, h⟩
      · exact ⟨bs, by rw [← h]; exact hb, hbs, fun hS => by rw [← h]; exact hset (hS.2 _ ht)⟩
      · refine ⟨x :: bs, by simp only [SB.exec, hx]; exact hb, ?_, fun hS => ⟨act_settled hS.1 ht hx hst, fun z hz => ?_⟩⟩
        · simp only [List.mem_cons, forall_eq_or_imp]
          refine ⟨?_, hbs⟩
          rcases h with ⟨-, h⟩ | ⟨_, _, -, -, h⟩
          · exact fun b => (h b).1
          · exact h
        · rw [hx] at hz; injection hz with hz; subst hz
          exact hset (hS.2 _ ht)
    · cases he

/-- Waiting for an item or about to look for one. -/
def Busy (p : CPC) : Prop := p = .iterRead ∨ p = .iterCheck ∨ p = .iterCheck2 ∨ p = .iterSleep

end

section
variable [LinearOrder K] [BEq V] {cfg : SBCfg K V} {s s' : GSB K V I} {a : GAct K V I} {as : List (GAct K V I)}

/-- A step not about reader `i` of session `b`. -/
theorem keep {x x' : SB K V I} (hi : x.Inv) {a : SBAct K V I} (hs : x.step cfg a = some x') (b i : Nat) (hu : SB.OneUser b i a)
    (hno : ∀ a', a = .rd b a' → a'.reader? ≠ some i) (c' : Cons K V) (hv' : x'.view b = some c') :
    (x.view b = none ∧ c'.pc i = .idle ∧ c'.evtsOf i = []) ∨ ∃ c, x.view b = some c ∧ c'.pc i = c.pc i ∧ c'.evtsOf i = c.evtsOf i := by
  cases hv : x.view b with
  | none =>
    cases SB.view_step' hi b i hu hs c' hv' with
    | same c h1 _ => rw [hv] at h1; cases h1
    | step c _ _ h1 _ _ _ _ => rw [hv] at h1; cases h1
    | new _ f _ => exact .inl ⟨rfl, rfl, rfl⟩
  | some c =>
    refine .inr ⟨c, rfl, ?_⟩
    obtain ⟨c2, hv2, hor⟩ := SB.view_pc hi hs b i c hv
    rw [hv'] at hv2; injection hv2 with hv2; subst hv2
    obtain ⟨y, hy, rfl⟩ := Option.map_eq_some_iff.1 hv
    obtain ⟨y', hy', rfl⟩ := Option.map_eq_some_iff.1 hv'
    have hpc := SB.pc_away hi hs b i hno hy hy'
    refine ⟨hpc, ?_⟩
    rcases hor with ⟨hgo, -⟩ | ⟨-, -, hev, -⟩
    · exfalso
      cases a with
      | rd b' a' =>
        cases a' with
        | go j =>
          simp only [SB.isGo, Bool.and_eq_true, decide_eq_true_eq] at hgo
          exact hno (.go j) (by rw [hgo.1]) (by rw [hgo.2]; rfl)
        | _ => simp [SB.isGo] at hgo
      | _ => simp [SB.isGo] at hgo
    · exact hev

theorem view_stays {x x' : SB K V I} (hi : x.Inv) {a : SBAct K V I} (hs : x.step cfg a = some x') (b : Nat) {c : Cons K V} (hv : x.view b = some c) :
    ∃ c', x'.view b = some c' := by
  obtain ⟨c', h, -⟩ := SB.view_pc hi hs b 0 c hv
  exact ⟨c', h⟩

variable [ReflBEq V]

/-- A step of the loop of a reader with the default settings: it goes on, hands out one item, or ends because the stream is stopped. -/
theorem loop_go {c c' : Cons K V} {i : Nat} {key : V → K} {kn : Py (Option K)} {m : Option Nat} {rc : Nat → Cfg} (hr : c.Reach key kn m rc)
    (hd : rc i = Cfg.default) (hp : Busy (c.pc i) ∨ c.pc i = .iterYield) (h : c.go i = some c') :
    (Busy (c'.pc i) ∧ c'.evts = c.evts) ∨ (c'.pc i = .iterYield ∧ Busy (c.pc i) ∧ ∃ v, c'.evts = c.evts ++ [(i, .yielded (.one v))]) ∨
      (c'.pc i = .idle ∧ Busy (c.pc i) ∧ c'.evts = c.evts ++ [(i, .loopDone)]) := by
  obtain ⟨e1, -⟩ := call_next hr i (by rw [hd]; rfl)
  rw [hd] at e1
  rcases hp with (hp | hp | hp | hp) | hp <;> simp only [Cons.go, hp] at h
  · split at h <;> (rename_i hc; rw [hc] at e1; rw [Cons.call] at hc; injection hc with h1 h2; subst h1; injection h with h; subst h)
    · cases e1
    · exact .inl ⟨by simp [Cons.goto, Busy], rfl⟩
    · rename_i r _
      refine .inr (.inl ⟨by simp [Cons.goto], .inl hp, ?_⟩)
      cases hu : unreadOf c.ch i with
      | nil => rw [hu] at e1; injection e1 with e1; rename_i hne; exact absurd e1 hne
      | cons v vs =>
        rw [hu] at e1
        injection e1 with e1
        refine ⟨v, ?_⟩
        simp only [chunkOf, Cfg.default] at e1
        simp [Cons.goto, Cons.emit, e1]
  · split at h <;> (injection h with h; subst h)
    · exact .inr (.inr ⟨by simp [Cons.goto], .inr (.inl hp), rfl⟩)
    · exact .inl ⟨by simp [Cons.goto, Busy], rfl⟩
  · split at h <;> (injection h with h; subst h)
    · exact .inr (.inr ⟨by simp [Cons.goto], .inr (.inr (.inl hp)), rfl⟩)
    · exact .inl ⟨by simp [Cons.goto, Busy], rfl⟩
  · injection h with h; subst h
    exact .inl ⟨by simp [Cons.goto, Busy], rfl⟩
  · injection h with h; subst h
    exact .inl ⟨by simp [Cons.goto, Busy], rfl⟩

/-- What generator `g` handed out (`vs`), whether it failed at its first `next`, and how often it raised `StopIteration`. -/
structure Fit (s : GSB K V I) (g : Nat) (vs : List V) (failed : Bool) (m : Nat) : Prop where
  outs : outsOf g s.res = vs.map (fun v => .item (.one v)) ++ (if failed then [.raised .streamNotStarted] else []) ++ List.replicate m .stop
  early : (∀ o, s.gens g ≠ .over o) → failed = false ∧ m = 0
  noSess : (s.gens g).session = none → vs = []
  fail : failed = true → s.gens g = .over none
  sess : ∀ b, (s.gens g).session = some b → ∃ c t, s.sb.view b = some c ∧ c.evtsOf (genRd g) = vs.map (fun v => .yielded (.one v)) ++ t ∧
    (t = [] ∨ (t = [.loopDone] ∧ s.gens g = .over (some b) ∧ 0 < m)) ∧
    (s.gens g = .got b → c.pc (genRd g) = .idle) ∧ (s.gens g = .within b → Busy (c.pc (genRd g))) ∧ (s.gens g = .at b → c.pc (genRd g) = .iterYield) ∧
    (s.gens g = .over (some b) → c.pc (genRd g) = .idle)
  fresh : ∀ b c, (s.gens g).session ≠ some b → s.sb.view b = some c → c.pc (genRd g) = .idle ∧ c.evtsOf (genRd g) = []

omit [ReflBEq V] in
/-- A step not about generator `g`. -/
theorem fit_other {g m : Nat} {vs : List V} {f : Bool} (hi : s.sb.Inv) (h : Fit s g vs f m) (hg : s'.gens g = s.gens g) (ho : outsOf g s'.res = outsOf g s.res)
    (hx : s'.sb = s.sb ∨ ∃ x, s.sb.step cfg x = some s'.sb ∧ ∀ b, SB.OneUser b (genRd g) x ∧ ∀ a', x = .rd b a' → a'.reader? ≠ some (genRd g)) :
    Fit s' g vs f m := by
  obtain ⟨h1, h2, h3, h4, h5, h6⟩ := h
  rcases hx with hx | ⟨x, hx, hno⟩
  · exact ⟨by rw [ho]; exact h1, by rw [hg]; exact h2, by rw [hg]; exact h3, by rw [hg]; exact h4, by rw [hg, hx]; exact h5, by rw [hg, hx]; exact h6⟩
  · refine ⟨by rw [ho]; exact h1, by rw [hg]; exact h2, by rw [hg]; exact h3, by rw [hg]; exact h4, ?_, ?_⟩
    · rw [hg]
      intro b hb
      obtain ⟨c, t, hv, k1, k2, k3⟩ := h5 b hb
      obtain ⟨c', hv'⟩ := view_stays hi hx b hv
      rcases keep hi hx b (genRd g) (hno b).1 (hno b).2 c' hv' with ⟨k, -⟩ | ⟨c2, k, kp, ke⟩
      · rw [hv] at k; cases k
      · rw [hv] at k; injection k with k; subst k
        exact ⟨c', t, hv', by rw [ke]; exact k1, k2, by rw [kp]; exact k3⟩
    · rw [hg]
      intro b c' hb hv'
      rcases keep hi hx b (genRd g) (hno b).1 (hno b).2 c' hv' with ⟨-, k⟩ | ⟨c2, k, kp, ke⟩
      · exact k
      · obtain ⟨l1, l2⟩ := h6 b c2 hb k
        exact ⟨by rw [kp]; exact l1, by rw [ke]; exact l2⟩

omit [ReflBEq V] in
/-- A statement of a reader, seen at its session and at the others. -/
theorem rd_view {x x' : SB K V I} {b : Nat} {a : CAct K V} (hi : x.Inv) (h : x.step cfg (.rd b a) = some x') :
    ∃ c c', x.view b = some c ∧ x'.view b = some c' ∧ c.step cfg.rdCfg a = some c' ∧ (∀ b', b' ≠ b → x'.view b' = x.view b') ∧
      (∀ i, pcOf x' b i = some (c'.pc i)) ∧ NSB.lastEvt x' b = c'.evts.getLast?.map (·.2) := by
  have hst := SB.step_to h
  cases hst with
  | rd _ _ z c1 ha hz hs =>
    have hstop := Cons.step_stopped ha hs
    have hc : ({ c1 with stopped := x.flag z.evt } : Cons K V) = c1 := by simp only at hstop; rw [← hstop]
    refine ⟨_, c1, by simp only [SB.view, hz, Option.map_some], ?_, hs, ?_, ?_, ?_⟩
    · simp only [SB.view, SB.setBuf, if_true, Option.map_some, hc]
    · intro b' hb; simp only [SB.view, SB.setBuf, if_neg hb]
    · intro i; simp [pcOf, SB.setBuf]
    · simp [NSB.lastEvt, SB.setBuf]

theorem fit_step {g m : Nat} {vs : List V} {f : Bool} (hd : cfg.rdCfg (genRd g) = Cfg.default) (h0 : (GSB.init : GSB K V I).exec cfg as = some s)
    (h : Fit s g vs f m) (hs : s.step cfg a = some s') : ∃ vs' f' m', Fit s' g vs' f' m' := by
  obtain ⟨bs, hbs, -, -⟩ := exec_sb g h0
  have hi := (SB.good hbs).inv
  have hreach := fun b c hv => SB.view_reach hbs b c hv
  have hact := step_act g hs
  have hst := step_to hs
  have hh := h
  obtain ⟨h1, h2, h3, h4, h5, h6⟩ := h
  have other : s'.gens g = s.gens g → outsOf g s'.res = outsOf g s.res → s.moves g a = none → ∃ vs' f' m', Fit s' g vs' f' m' := by
    intro e1 e2 e3
    refine ⟨vs, f, m, fit_other (cfg := cfg) hi hh e1 e2 ?_⟩
    rcases hact with ⟨k, -⟩ | ⟨x, hx, -, ⟨-, k⟩ | ⟨_, _, k, -⟩⟩
    · exact .inl k
    · exact .inr ⟨x, hx, k⟩
    · rw [e3] at k; cases k
  clear hs
  cases hst with
  | sb x y hp hx => exact other rfl rfl rfl
  | iter g' hg =>
    by_cases e : g' = g
    · subst e
      refine ⟨vs, f, m, h1, ?_, ?_, ?_, ?_, ?_⟩ <;> simp only [setGen, if_true, Gen.session, hg] at * <;> grind
    · exact other (by simp [setGen, Ne.symm e]) rfl rfl
  | first g' hg =>
    by_cases e : g' = g
    · subst e
      refine ⟨vs, f, m, h1, ?_, ?_, ?_, ?_, ?_⟩ <;> simp only [setGen, if_true, Gen.session, hg] at * <;> grind
    · exact other (by simp [setGen, Ne.symm e]) rfl (by simp [moves, e])
  | closeMade g' hg =>
    by_cases e : g' = g
    · subst e
      refine ⟨vs, f, m, h1, ?_, ?_, ?_, ?_, ?_⟩ <;> simp only [setGen, if_true, Gen.session, hg] at * <;> grind
    · exact other (by simp [setGen, Ne.symm e]) rfl (by simp [moves, e])
  | again g' o hg =>
    by_cases e : g' = g
    · subst e
      refine ⟨vs, f, m + 1, ?_, ?_, h3, h4, ?_, h6⟩
      · simp only [say, outsOf_append, h1, List.replicate_succ']
        simp [outsOf]
      · intro k; exact absurd hg (k o)
      · intro b hb
        obtain ⟨c, t, k1, k2, k3, k4⟩ := h5 b hb
        exact ⟨c, t, k1, k2, k3.imp id (fun ⟨l1, l2, l3⟩ => ⟨l1, l2, by omega⟩), k4⟩
    · exact other rfl (by simp [say, outsOf_append, outsOf, e]) (by simp [moves, e])
  | busy g' hg =>
    exact other rfl (by simp only [say, outsOf_append]; simp [outsOf]) (by simp only [moves]; grind)
  | mk g' y b hg hx hb =>
    by_cases e : g' = g
    · subst e
      have hvs := h3 (by rw [hg]; rfl)
      obtain ⟨rfl, rfl⟩ := h2 (by simp [hg])
      have hkeep := fun b' => keep hi hx b' (genRd g') (by trivial) (by simp)
      obtain ⟨z, hz⟩ := Option.isSome_iff_exists.1 (hi.sb b hb).1
      have hvb : ∃ c, s.sb.view b = some c := ⟨_, by simp only [SB.view, hz, Option.map_some]; rfl⟩
      obtain ⟨c0, hc0⟩ := hvb
      have hfr : ∀ b' c', y.view b' = some c' → c'.pc (genRd g') = .idle ∧ c'.evtsOf (genRd g') = [] := by
        intro b' c' hv'
        rcases hkeep b' c' hv' with ⟨-, k⟩ | ⟨c, k, kp, ke⟩
        · exact k
        · obtain ⟨l1, l2⟩ := h6 b' c (by rw [hg]; simp [Gen.session]) k
          exact ⟨by rw [kp]; exact l1, by rw [ke]; exact l2⟩
      obtain ⟨c', hv'⟩ := view_stays hi hx b hc0
      refine ⟨vs, false, 0, h1, ?_, ?_, ?_, ?_, ?_⟩ <;> simp only [setGen, if_true, Gen.session]
      · simp
      · simp
      · simp
      · rintro b' hb'
        injection hb' with hb'; subst hb'
        exact ⟨c', [], hv', by rw [(hfr b c' hv').2, hvs]; rfl, .inl rfl, fun _ => (hfr b c' hv').1, by simp, by simp, by simp⟩
      · exact fun b' c' _ hv' => hfr b' c' hv'
    · exact other (by simp [setGen, Ne.symm e]) rfl (by simp [moves, e])
  | mkFail g' y hg hx hb =>
    by_cases e : g' = g
    · subst e
      have hvs := h3 (by rw [hg]; rfl)
      obtain ⟨rfl, rfl⟩ := h2 (by simp [hg])
      have hkeep := fun b' => keep hi hx b' (genRd g') (by trivial) (by simp)
      refine ⟨vs, true, 0, ?_, ?_, ?_, ?_, ?_, ?_⟩ <;> simp only [setGen, say, if_true, Gen.session]
      · rw [outsOf_append, h1]; simp [outsOf]
      · intro k; exact absurd rfl (k none)
      · exact fun _ => hvs
      · simp
      · simp
      · intro b' c' _ hv'
        rcases hkeep b' c' hv' with ⟨-, k⟩ | ⟨c, k, kp, ke⟩
        · exact k
        · obtain ⟨l1, l2⟩ := h6 b' c (by rw [hg]; simp [Gen.session]) k
          exact ⟨by rw [kp]; exact l1, by rw [ke]; exact l2⟩
    · exact other (by simp [setGen, say, Ne.symm e]) (by simp [say, setGen, outsOf_append, outsOf, e]) (by simp [moves, e])
  | start g' b y hg hx =>
    by_cases e : g' = g
    · subst e
      obtain ⟨c, t, hv, k1, k2, k3, -⟩ := h5 b (by rw [hg]; rfl)
      obtain ⟨rfl, rfl⟩ := h2 (by simp [hg])
      obtain ⟨c0, c', hv0, hv', hc, hoth, -, -⟩ := rd_view hi hx
      rw [hv] at hv0; injection hv0 with hv0; subst hv0
      simp only [Cons.step, k3 hg, if_true, Option.some.injEq] at hc
      subst hc
      refine ⟨vs, false, 0, h1, ?_, ?_, ?_, ?_, ?_⟩ <;> simp only [setGen, if_true, Gen.session]
      · simp
      · simp
      · simp
      · rintro b' hb'
        injection hb' with hb'; subst hb'
        refine ⟨_, t, hv', k1, .inl ?_, by simp, by simp [Cons.goto, Busy], by simp, by simp⟩
        exact k2.resolve_right (by simp [hg])
      · intro b' c2 hb' hv2
        rw [hoth b' (by intro e; exact hb' (by rw [e]))] at hv2
        exact h6 b' c2 (by rw [hg]; exact hb') hv2
    · exact other (by simp [setGen, Ne.symm e]) rfl (by simp [moves, e])
  | close g' b y hg hx =>
    by_cases e : g' = g
    · subst e
      have hss : (s.gens g').session = some b := by rcases hg with hg | hg <;> rw [hg] <;> rfl
      obtain ⟨c, t, hv, k1, k2, -⟩ := h5 b hss
      obtain ⟨rfl, rfl⟩ := h2 (by rcases hg with hg | hg <;> simp [hg])
      obtain ⟨c0, c', hv0, hv', hc, hoth, -, -⟩ := rd_view hi hx
      rw [hv] at hv0; injection hv0 with hv0; subst hv0
      simp only [Cons.step] at hc
      split at hc
      swap
      · cases hc
      injection hc with hc
      subst hc
      refine ⟨vs, false, 0, h1, ?_, ?_, ?_, ?_, ?_⟩ <;> simp only [setGen, if_true, Gen.session]
      · simp
      · simp
      · simp
      · rintro b' hb'
        injection hb' with hb'; subst hb'
        refine ⟨_, t, hv', k1, .inl ?_, by simp, by simp, by simp, by simp [Cons.goto]⟩
        refine k2.resolve_right ?_
        simp
      · intro b' c2 hb' hv2
        rw [hoth b' (by intro e; exact hb' (by rw [e]))] at hv2
        exact h6 b' c2 (by rw [hss]; exact hb') hv2
    · exact other (by simp [setGen, Ne.symm e]) rfl (by simp [moves, e])
  | resume g' b y hg hx =>
    by_cases e : g' = g
    · subst e
      obtain ⟨c, t, hv, k1, k2, -, -, k3, -⟩ := h5 b (by rw [hg]; rfl)
      obtain ⟨rfl, rfl⟩ := h2 (by simp [hg])
      obtain ⟨c0, c', hv0, hv', hc, hoth, -, -⟩ := rd_view hi hx
      rw [hv] at hv0; injection hv0 with hv0; subst hv0
      rcases loop_go (hreach b c hv) hd (.inr (k3 hg)) hc with ⟨l1, l2⟩ | ⟨-, l, -⟩ | ⟨-, l, -⟩
      rotate_left
      · rw [k3 hg] at l; simp [Busy] at l
      · rw [k3 hg] at l; simp [Busy] at l
      refine ⟨vs, false, 0, h1, ?_, ?_, ?_, ?_, ?_⟩ <;> simp only [setGen, if_true, Gen.session]
      · simp
      · simp
      · simp
      · rintro b' hb'
        injection hb' with hb'; subst hb'
        refine ⟨c', t, hv', by rw [Cons.evtsOf, l2]; exact k1, .inl ?_, by simp, fun _ => l1, by simp, by simp⟩
        exact k2.resolve_right (by simp [hg])
      · intro b' c2 hb' hv2
        rw [hoth b' (by intro e; exact hb' (by rw [e]))] at hv2
        exact h6 b' c2 (by rw [hg]; exact hb') hv2
    · exact other (by simp [setGen, Ne.symm e]) rfl (by simp [moves, e])
  | item g' b y r hg hx hp he =>
    by_cases e : g' = g
    · subst e
      obtain ⟨c, t, hv, k1, k2, -, k3, -⟩ := h5 b (by rw [hg]; rfl)
      obtain ⟨rfl, rfl⟩ := h2 (by simp [hg])
      obtain ⟨c0, c', hv0, hv', hc, hoth, hpc, hlast⟩ := rd_view hi hx
      rw [hv] at hv0; injection hv0 with hv0; subst hv0
      rw [hpc, Option.some.injEq] at hp
      rcases loop_go (hreach b c hv) hd (.inl (k3 hg)) hc with ⟨l, -⟩ | ⟨l1, -, v, l2⟩ | ⟨l, -⟩
      · rw [hp] at l; simp [Busy] at l
      swap
      · rw [hp] at l; cases l
      rw [hlast, l2] at he
      simp only [List.getLast?_append, List.getLast?_singleton, Option.some_or, Option.map_some, Option.some.injEq, CEvt.yielded.injEq] at he
      subst he
      have ht : t = [] := k2.resolve_right (by simp [hg])
      subst ht
      refine ⟨vs ++ [v], false, 0, ?_, ?_, ?_, ?_, ?_, ?_⟩ <;> simp only [setGen, say, if_true, Gen.session]
      · rw [outsOf_append, h1]; simp [outsOf]
      · simp
      · simp
      · simp
      · rintro b' hb'
        injection hb' with hb'; subst hb'
        refine ⟨c', [], hv', ?_, .inl rfl, by simp, by simp, fun _ => hp, by simp⟩
        rw [Cons.evtsOf, l2, List.filter_append, List.map_append]
        rw [Cons.evtsOf] at k1
        rw [k1]; simp
      · intro b' c2 hb' hv2
        rw [hoth b' (by intro e; exact hb' (by rw [e]))] at hv2
        exact h6 b' c2 (by rw [hg]; exact hb') hv2
    · exact other (by simp [setGen, say, Ne.symm e]) (by simp [say, setGen, outsOf_append, outsOf, e]) (by simp [moves, e])
  | raise g' b y e' hg hx hp he =>
    by_cases e : g' = g
    · subst e
      exfalso
      obtain ⟨c, t, hv, k1, k2, -, k3, -⟩ := h5 b (by rw [hg]; rfl)
      obtain ⟨c0, c', hv0, hv', hc, hoth, hpc, hlast⟩ := rd_view hi hx
      rw [hv] at hv0; injection hv0 with hv0; subst hv0
      rw [hpc, Option.some.injEq] at hp
      rcases loop_go (hreach b c hv) hd (.inl (k3 hg)) hc with ⟨l, -⟩ | ⟨l1, -, v, l2⟩ | ⟨-, -, l⟩
      · rw [hp] at l; simp [Busy] at l
      · rw [hp] at l1; cases l1
      · rw [hlast, l] at he
        simp at he
    · exact other (by simp [setGen, say, Ne.symm e]) (by simp [say, setGen, outsOf_append, outsOf, e]) (by simp [moves, e])
  | stop g' b y hg hx hp he =>
    by_cases e : g' = g
    · subst e
      obtain ⟨c, t, hv, k1, k2, -, k3, -⟩ := h5 b (by rw [hg]; rfl)
      obtain ⟨rfl, rfl⟩ := h2 (by simp [hg])
      obtain ⟨c0, c', hv0, hv', hc, hoth, hpc, hlast⟩ := rd_view hi hx
      rw [hv] at hv0; injection hv0 with hv0; subst hv0
      rw [hpc, Option.some.injEq] at hp
      rcases loop_go (hreach b c hv) hd (.inl (k3 hg)) hc with ⟨l, -⟩ | ⟨l1, -, v, l2⟩ | ⟨l1, -, l2⟩
      · rw [hp] at l; simp [Busy] at l
      · rw [hp] at l1; cases l1
      have ht : t = [] := k2.resolve_right (by simp [hg])
      subst ht
      refine ⟨vs, false, 1, ?_, ?_, ?_, ?_, ?_, ?_⟩ <;> simp only [setGen, say, if_true, Gen.session]
      · rw [outsOf_append, h1]; simp [outsOf]
      · intro k; exact absurd rfl (k (some b))
      · simp
      · simp
      · rintro b' hb'
        injection hb' with hb'; subst hb'
        refine ⟨c', [.loopDone], hv', ?_, .inr ⟨rfl, by simp⟩, by simp, by simp, by simp, fun _ => hp⟩
        rw [Cons.evtsOf, l2, List.filter_append, List.map_append]
        rw [Cons.evtsOf] at k1
        rw [k1]; simp
      · intro b' c2 hb' hv2
        rw [hoth b' (by intro e; exact hb' (by rw [e]))] at hv2
        exact h6 b' c2 (by rw [hg]; exact hb') hv2
    · exact other (by simp [setGen, say, Ne.symm e]) (by simp [say, setGen, outsOf_append, outsOf, e]) (by simp [moves, e])
  | cont g' b y hg hx hp he =>
    by_cases e : g' = g
    · subst e
      obtain ⟨c, t, hv, k1, k2, -, k3, -⟩ := h5 b (by rw [hg]; rfl)
      obtain ⟨rfl, rfl⟩ := h2 (by simp [hg])
      obtain ⟨c0, c', hv0, hv', hc, hoth, hpc, hlast⟩ := rd_view hi hx
      rw [hv] at hv0; injection hv0 with hv0; subst hv0
      rw [hpc] at hp he
      rcases loop_go (hreach b c hv) hd (.inl (k3 hg)) hc with ⟨l1, l2⟩ | ⟨l1, -, v, l2⟩ | ⟨l1, -, l2⟩
      rotate_left
      · exfalso
        refine he (by rw [l1]) (.one v) ?_
        rw [hlast, l2]; simp
      · exact absurd (by rw [l1]) hp
      refine ⟨vs, false, 0, h1, ?_, h3, ?_, ?_, ?_⟩
      · simp
      · simp
      · intro b' hb'
        have : b' = b := by rw [hg] at hb'; injection hb' with hb'; exact hb'.symm
        subst this
        refine ⟨c', t, hv', by rw [Cons.evtsOf, l2]; exact k1, k2, ?_, fun _ => l1, ?_, ?_⟩ <;> simp [hg]
      · intro b' c2 hb' hv2
        simp only at hb'
        rw [hoth b' (by intro e; exact hb' (by rw [e, hg]; rfl))] at hv2
        exact h6 b' c2 hb' hv2
    · exact other rfl rfl (by simp [moves, e])

theorem fit (g : Nat) (hd : cfg.rdCfg (genRd g) = Cfg.default) (he : (GSB.init : GSB K V I).exec cfg as = some s) : ∃ vs f m, Fit s g vs f m := by
  have key : (∃ as, (GSB.init : GSB K V I).exec cfg as = some s) ∧ ∃ vs f m, Fit s g vs f m := by
    refine exec_ind (P := fun s => (∃ as, (GSB.init : GSB K V I).exec cfg as = some s) ∧ ∃ vs f m, Fit s g vs f m) ?_
      ⟨⟨[], rfl⟩, [], false, 0, rfl, fun _ => ⟨rfl, rfl⟩, fun _ => rfl, by simp, by simp [init, Gen.session], by simp [init, SB.init, SB.view]⟩ he
    rintro s a s' - ⟨⟨xs, hxs⟩, vs, f, m, h⟩ hs
    exact ⟨⟨_, exec_snoc hxs hs⟩, fit_step hd hxs h hs⟩
  exact key.2
end
end GSB
end S2P
