import Verif.Proofs.IterBuffer
import Verif.Props.LoopEnd
/-
C152: `for x in stream_buffer`. `outsOf g`: what the calls of `next` on generator `g` came to.
-/
namespace S2P
open Spec
variable {K V I : Type}

/-- The items in an outcome. -/
def GEv.items : GEv V → List V
  | .item r => r.items
  | _ => []

/-- The items generator `g` handed out, in order. -/
def handed (g : Nat) (l : List (Nat × GEv V)) : List V := (outsOf g l).flatMap GEv.items

theorem flatMap_ones (vs : List V) : (vs.map (fun v => GEv.item (.one v)) : List (GEv V)).flatMap GEv.items = vs := by
  induction vs with
  | nil => rfl
  | cons v vs ih => rw [List.map_cons, List.flatMap_cons, ih]; rfl

theorem flatMap_yields (vs : List V) : (vs.map (fun v => CEvt.yielded (.one v)) : List (CEvt V)).flatMap CEvt.items = vs := by
  induction vs with
  | nil => rfl
  | cons v vs ih => rw [List.map_cons, List.flatMap_cons, ih]; rfl

/-- Generator `g` does a statement. -/
def GAct.isGo (g : Nat) : GAct K V I → Bool
  | .go g' => g' = g
  | _ => false

/-- Generator `g` is closed. -/
def GAct.isClose (g : Nat) : GAct K V I → Bool
  | .close g' => g' = g
  | _ => false

theorem SB.Settled.append [LT K] [DecidableLT K] [BEq V] {cfg : SBCfg K V} {as bs : List (SBAct K V I)} {s0 s : SB K V I} (h : s0.Settled cfg as)
    (he : s0.exec cfg as = some s) (h' : s.Settled cfg bs) : s0.Settled cfg (as ++ bs) := by
  induction as generalizing s0 with
  | nil => simp only [SB.exec, Option.some.injEq] at he; subst he; exact h'
  | cons a as ih =>
    simp only [SB.exec] at he
    split at he
    · rename_i t ht
      refine ⟨h.1, fun z hz => ?_⟩
      rw [ht] at hz; injection hz with hz; subst hz
      exact ih (h.2 _ ht) he
    · cases he

namespace GSB
variable [LinearOrder K] [BEq V] {cfg : SBCfg K V} {s s' : GSB K V I} {a : GAct K V I} {as : List (GAct K V I)}

/-- **C152** making the iterator does nothing: the stream buffer is as before, and no session is chosen. -/
theorem C152_iter_does_nothing (g : Nat) (hs : s.step cfg (.iter g) = some s') :
    s'.sb = s.sb ∧ s'.res = s.res ∧ (s'.gens g).session = none ∧ ∀ g', g' ≠ g → s'.gens g' = s.gens g' := by
  have hst := step_to hs
  cases hst with
  | iter _ h0 => exact ⟨rfl, rfl, by simp [setGen, Gen.session], fun g' h => by simp [setGen, h]⟩

/-- **C152** the session an iterator reads is the one that is current at its first `next`, when no `start()` is in progress; it never changes. -/
theorem C152_session (g b : Nat) (hs : s.step cfg a = some s') :
    ((s.gens g).session = some b → (s'.gens g).session = some b) ∧
    ((s.gens g).session = none → (s'.gens g).session = some b → s.gens g = .called ∧ a = .go g ∧ s.sb.start = none ∧ s.sb.sourceBuffer = some b ∧
      s'.sb.sourceBuffer = some b) := by
  have hst := step_to hs
  clear hs
  have mkr : ∀ y, s.sb.step cfg .mkReader = some y → s.sb.start = none ∧ y.sourceBuffer = s.sb.sourceBuffer := by
    intro y h
    have := SB.step_to h
    cases this
    rename_i h0
    exact ⟨h0, rfl⟩
  cases hst with
  | sb x y hp h => exact ⟨id, fun h1 h2 => by simp only at h2; rw [h1] at h2; cases h2⟩
  | mk g' y b' h0 h hb =>
    obtain ⟨k1, k2⟩ := mkr y h
    simp only [setGen]
    constructor <;> grind [Gen.session]
  | mkFail g' y h0 h hb =>
    simp only [setGen, say]
    constructor <;> grind [Gen.session]
  | _ =>
    simp only [setGen, say] <;> constructor <;> grind [Gen.session]

/-- **C152** if the stream has no session at the first `next`, that call raises `StreamNotStartedError`, and the iterator is finished. -/
theorem C152_not_started (g : Nat) (hc : s.gens g = .called) (hs : s.step cfg (.go g) = some s') :
    (s.sb.sourceBuffer = none → outsOf g s'.res = outsOf g s.res ++ [.raised .streamNotStarted] ∧ s'.gens g = .over none) ∧
    (s.sb.sourceBuffer ≠ none → outsOf g s'.res = outsOf g s.res ∧ (s'.gens g).session = s.sb.sourceBuffer) := by
  have hst := step_to hs
  clear hs
  cases hst with
  | mk _ y b h0 h hb => exact ⟨by simp [hb], fun _ => ⟨rfl, by simp [setGen, Gen.session, hb]⟩⟩
  | mkFail _ y h0 h hb => exact ⟨fun _ => ⟨by simp [say, setGen, outsOf_append, outsOf], by simp [say, setGen]⟩, by simp [hb]⟩
  | _ => simp_all

variable [ReflBEq V]

/-- **C152** what the calls of `next` on an iterator come to: single items, then (if it ended or was closed) `StopIteration` for ever; or, if there was no
session at the first, `StreamNotStartedError` once and then `StopIteration`. Nothing else is raised and `None` is never handed out. -/
theorem C152_outcomes (g : Nat) (hd : cfg.rdCfg (genRd g) = Cfg.default) (he : (GSB.init : GSB K V I).exec cfg as = some s) :
    (∃ m, outsOf g s.res = (handed g s.res).map (fun v => .item (.one v)) ++ List.replicate m .stop ∧ (m ≠ 0 → ∃ o, s.gens g = .over o)) ∨
    (∃ m, outsOf g s.res = .raised .streamNotStarted :: List.replicate m .stop ∧ s.gens g = .over none) := by
  obtain ⟨vs, f, m, h⟩ := fit g hd he
  have hh : handed g s.res = vs := by
    rw [handed, h.outs]
    rw [List.flatMap_append, List.flatMap_append, flatMap_ones]
    cases f <;> simp [GEv.items]
  cases f with
  | false =>
    refine .inl ⟨m, by rw [h.outs, hh]; simp, fun hm => ?_⟩
    by_contra hne
    exact hm (h.early (fun o ho => hne ⟨o, ho⟩)).2
  | true =>
    have := h.fail rfl
    have hv := h.noSess (by rw [this]; rfl)
    subst hv
    exact .inr ⟨m, by rw [h.outs]; simp, this⟩

theorem handed_received (g b : Nat) (hd : cfg.rdCfg (genRd g) = Cfg.default) (he : (GSB.init : GSB K V I).exec cfg as = some s)
    (hb : (s.gens g).session = some b) : ∃ c, s.sb.view b = some c ∧ received c (genRd g) = handed g s.res := by
  obtain ⟨vs, f, m, h⟩ := fit g hd he
  have hf : f = false := by
    cases f with
    | false => rfl
    | true => rw [h.fail rfl] at hb; cases hb
  subst hf
  obtain ⟨c, t, hv, k1, k2, -⟩ := h.sess b hb
  refine ⟨c, hv, ?_⟩
  have ht : t.flatMap CEvt.items = [] := by rcases k2 with rfl | ⟨rfl, -⟩ <;> rfl
  rw [received, k1, List.flatMap_append, flatMap_yields, ht, handed, h.outs, List.flatMap_append, List.flatMap_append, flatMap_ones]
  simp [GEv.items]

/-- **C152** what an iterator handed out, followed by what it can still hand out, is in order and each once a part of what was stored in its session. -/
theorem C152_part_of_stored (g b : Nat) (hd : cfg.rdCfg (genRd g) = Cfg.default) (he : (GSB.init : GSB K V I).exec cfg as = some s)
    (hb : (s.gens g).session = some b) :
    ∃ c, s.sb.view b = some c ∧ (handed g s.res ++ unreadOf c.ch (genRd g)).Sublist (storedIn b s.sb.log) := by
  obtain ⟨c, hv, hr⟩ := handed_received g b hd he hb
  obtain ⟨bs, hbs, hu, -⟩ := exec_sb g he
  exact ⟨c, hv, hr ▸ SB.C63_part_of_stored b (genRd g) (by rw [hd]; rfl) (fun a ha => hu a ha b) hbs c hv⟩

/-- **C152** and with an unbounded buffer exactly that: every loop over the stream buffer, however many there are and whenever they begin, gets the session from its
first item. -/
theorem C152_unbounded (g b : Nat) (hm : cfg.maxlen = none) (hda : cfg.autoDrop = true) (hd : cfg.rdCfg (genRd g) = Cfg.default)
    (he : (GSB.init : GSB K V I).exec cfg as = some s) (hb : (s.gens g).session = some b) :
    ∃ c, s.sb.view b = some c ∧ handed g s.res ++ unreadOf c.ch (genRd g) = storedIn b s.sb.log := by
  obtain ⟨c, hv, hr⟩ := handed_received g b hd he hb
  obtain ⟨bs, hbs, hu, -⟩ := exec_sb g he
  exact ⟨c, hv, hr ▸ SB.C63_unbounded hm hda b (genRd g) (by rw [hd]; rfl) (fun a ha => hu a ha b) hbs c hv⟩

omit [ReflBEq V] in
/-- The execution of the stream buffer behind a stretch in which generator `g`, at its reader, is not closed. -/
theorem stretch (g b : Nat) (hn : ∀ a ∈ as, a.isClose g = false) (he : s.exec cfg as = some s')
    (hg : s.gens g = .within b ∨ s.gens g = .at b ∨ s.gens g = .over (some b)) :
    ∃ bs, s.sb.exec cfg bs = some s'.sb ∧ (∀ a ∈ bs, SB.OneUser b (genRd g) a) ∧ (∀ a ∈ bs, SB.isLeave b (genRd g) a = false) ∧
      as.countP (GAct.isGo g) ≤ bs.countP (SB.isGo b (genRd g)) ∧ (s'.gens g = .within b ∨ s'.gens g = .at b ∨ s'.gens g = .over (some b)) ∧
      (s.Settled cfg as → s.sb.Settled cfg bs) := by
  induction as generalizing s with
  | nil => simp only [exec, Option.some.injEq] at he; subst he; exact ⟨[], rfl, by simp, by simp, by simp, hg, fun _ => trivial⟩
  | cons a as ih =>
    simp only [exec] at he
    split at he
    swap
    · cases he
    rename_i t ht
    have hc : a.isClose g = false := hn a (by simp)
    have hg' : t.gens g = .within b ∨ t.gens g = .at b ∨ t.gens g = .over (some b) := by
      have hst := step_to ht
      clear ht
      cases hst <;> simp only [setGen, say, GAct.isClose] at * <;> grind
    obtain ⟨bs, hb, h1, h2, h3, h4, hset⟩ := ih (fun a ha => hn a (by simp [ha])) he hg'
    have hcount : (a :: as).countP (GAct.isGo g) = as.countP (GAct.isGo g) + if a.isGo g then 1 else 0 := by rw [List.countP_cons]
    have hgo : a.isGo g = true → s.moves g a = some (b, .go (genRd g)) := by
      intro h
      cases a <;> simp only [GAct.isGo, decide_eq_true_eq, Bool.false_eq_true] at h
      subst h
      have hst := step_to ht
      clear ht
      cases hst <;> simp only [moves] <;> grind
    rcases step_act g ht with ⟨h, hmv⟩ | ⟨x, hx, hst, h⟩
    · refine ⟨bs, by rw [← h]; exact hb, h1, h2, ?_, h4, fun hS => by rw [← h]; exact hset (hS.2 _ ht)⟩
      have : a.isGo g = false := by
        cases h' : a.isGo g with
        | false => rfl
        | true => rw [hgo h'] at hmv; cases hmv
      rw [hcount, this]
      exact h3
    · refine ⟨x :: bs, by simp only [SB.exec, hx]; exact hb, ?_, ?_, ?_, h4, fun hS => ⟨act_settled hS.1 ht hx hst, fun z hz => by
        rw [hx] at hz; injection hz with hz; subst hz; exact hset (hS.2 _ ht)⟩⟩
      · simp only [List.mem_cons, forall_eq_or_imp]
        refine ⟨?_, h1⟩
        rcases h with ⟨-, h⟩ | ⟨_, _, -, -, h⟩
        · exact (h b).1
        · exact h b
      · simp only [List.mem_cons, forall_eq_or_imp]
        refine ⟨?_, h2⟩
        rcases h with ⟨-, h⟩ | ⟨b', c, hmv, rfl, -⟩
        · cases x with
          | rd b' c =>
            cases c with
            | leave j =>
              simp only [SB.isLeave, Bool.and_eq_false_iff, decide_eq_false_iff_not]
              by_contra hcon
              simp only [not_or, not_not] at hcon
              exact (h b).2 _ (by rw [hcon.1]) (by rw [hcon.2]; rfl)
            | _ => rfl
          | _ => rfl
        · cases a with
          | close g' =>
            simp only [GAct.isClose, decide_eq_false_iff_not] at hc
            simp [moves, hc] at hmv
          | next g' | go g' =>
            simp only [moves] at hmv
            split at hmv
            swap
            · cases hmv
            split at hmv <;> (try cases hmv) <;> rfl
          | _ => simp [moves] at hmv
      · rw [hcount, List.countP_cons]
        have : (if a.isGo g then 1 else 0) ≤ (if SB.isGo b (genRd g) x then 1 else 0) := by
          split
          swap
          · omega
          rename_i h'
          rcases h with ⟨hmv, -⟩ | ⟨b', c, hmv, rfl, -⟩
          · rw [hgo h'] at hmv; cases hmv
          · rw [hgo h'] at hmv
            injection hmv with hmv
            injection hmv with e1 e2
            subst e1 e2
            simp [SB.isGo]
        omega

omit [ReflBEq V] in
theorem inLoop (p : CPC) (h : Busy p ∨ p = .iterYield) : SB.InLoop p := by
  rcases h with (rfl | rfl | rfl | rfl) | rfl <;> trivial

/-- **C152** unbounded buffer: an iterator that is waiting, or at its loop body, in a running stream has handed out everything stored so far within two statements per
item it has not handed out, and two more, if it is not closed. Every schedule. -/
theorem C152_gets_all {bs : List (GAct K V I)} (g b : Nat) (hm : cfg.maxlen = none) (hda : cfg.autoDrop = true) (hd : cfg.rdCfg (genRd g) = Cfg.default)
    (h0 : (GSB.init : GSB K V I).exec cfg as = some s) (hg : s.gens g = .within b ∨ s.gens g = .at b) (he : s.exec cfg bs = some s')
    (hn : ∀ a ∈ bs, a.isClose g = false) (c : Cons K V) (hv : s.sb.view b = some c)
    (hrun : ∀ c', s'.sb.view b = some c' → c'.stopped = false) (hk : 2 * (unreadOf c.ch (genRd g)).length + 2 ≤ bs.countP (GAct.isGo g)) :
    storedIn b s.sb.log <+: handed g s'.res := by
  obtain ⟨xs, hxs, hxu, hxset⟩ := exec_sb g h0
  obtain ⟨ys, hys, hyu, hyl, hyc, hyg, hyset⟩ := stretch g b hn he (by tauto)
  have hpk : (cfg.rdCfg (genRd g)).peek = false := by rw [hd]; rfl
  have hstr : (cfg.rdCfg (genRd g)).strict = false := by rw [hd]; rfl
  obtain ⟨vs, f, m, hfit⟩ := fit g hd h0
  have hpc : SB.InLoop (c.pc (genRd g)) := by
    obtain ⟨c0, t, hv0, -, -, -, k1, k2, -⟩ := hfit.sess b (by rcases hg with hg | hg <;> rw [hg] <;> rfl)
    rw [hv] at hv0; injection hv0 with hv0; subst hv0
    exact inLoop _ (hg.imp k1 k2)
  obtain ⟨c', hv', hpre⟩ := SB.C92_loop_gets_all hm hda b (genRd g) hpk hstr (fun a ha => by
    simp only [List.mem_append] at ha
    exact ha.elim (fun h => hxu a h b) (hyu a)) hxs c hv hyl hys (.inr ⟨hpc, hrun, by omega⟩)
  obtain ⟨c2, hv2, hr⟩ := handed_received g b hd (as := as ++ bs) (by rw [exec_append, h0]; exact he)
    (by rcases hyg with h | h | h <;> rw [h] <;> rfl)
  rw [hv'] at hv2; injection hv2 with hv2; subst hv2
  rwa [hr] at hpre

theorem pc_in (g b : Nat) (hd : cfg.rdCfg (genRd g) = Cfg.default) (h0 : (GSB.init : GSB K V I).exec cfg as = some s) (c : Cons K V)
    (hv : s.sb.view b = some c) : (s.gens g = .within b → Busy (c.pc (genRd g))) ∧ (s.gens g = .at b → c.pc (genRd g) = .iterYield) ∧
      (s.gens g = .got b → c.pc (genRd g) = .idle) ∧ (s.gens g = .over (some b) → c.pc (genRd g) = .idle) := by
  obtain ⟨vs, f, m, hfit⟩ := fit g hd h0
  have key : ∀ x : Gen, x.session = some b → s.gens g = x → ∃ t, c.evtsOf (genRd g) = vs.map (fun v => .yielded (.one v)) ++ t ∧
      (s.gens g = .got b → c.pc (genRd g) = .idle) ∧ (s.gens g = .within b → Busy (c.pc (genRd g))) ∧ (s.gens g = .at b → c.pc (genRd g) = .iterYield) ∧
    (s.gens g = .over (some b) → c.pc (genRd g) = .idle) := by
    intro x hx hg
    obtain ⟨c0, t, hv0, k0, -, k⟩ := hfit.sess b (by rw [hg]; exact hx)
    rw [hv] at hv0; injection hv0 with hv0; subst hv0
    exact ⟨t, k0, k⟩
  refine ⟨fun h => ?_, fun h => ?_, fun h => ?_, fun h => ?_⟩ <;> obtain ⟨_, -, k1, k2, k3, k4⟩ := key _ (by rfl) h
  · exact k2 h
  · exact k3 h
  · exact k1 h
  · exact k4 h

/-- **C152** after the session's source is closed (`start()` being called only when no earlier thread is alive), an iterator that is not closed ends (with
`StopIteration`) before its `2 * n + 3`rd statement, if it had `n` items to hand out. Any settings, wherever it is. -/
theorem C152_ends {bs : List (GAct K V I)} (g b : Nat) (hd : cfg.rdCfg (genRd g) = Cfg.default)
    (h0 : (GSB.init : GSB K V I).exec cfg as = some s) (hg : s.gens g = .within b ∨ s.gens g = .at b) (he : s.exec cfg bs = some s')
    (hn : ∀ a ∈ bs, a.isClose g = false) (ok : Bool) (hcl : Ev.closed b ok ∈ s.sb.log)
    (hset : GSB.init.Settled cfg (as ++ bs)) (c : Cons K V) (hv : s.sb.view b = some c) :
    (s'.gens g = .over (some b) ∧ .stop ∈ outsOf g s'.res) ∨
    ((s'.gens g = .within b ∨ s'.gens g = .at b) ∧ bs.countP (GAct.isGo g) < 2 * (unreadOf c.ch (genRd g)).length + 3) := by
  obtain ⟨xs, hxs, hxu, hxset⟩ := exec_sb g h0
  obtain ⟨ys, hys, hyu, hyl, hyc, hyg, hyset⟩ := stretch g b hn he (by tauto)
  have hpk : (cfg.rdCfg (genRd g)).peek = false := by rw [hd]; rfl
  have hstr : (cfg.rdCfg (genRd g)).strict = false := by rw [hd]; rfl
  have hpc : SB.InLoop (c.pc (genRd g)) := by
    obtain ⟨k1, k2, -⟩ := pc_in g b hd h0 c hv
    exact inLoop _ (hg.imp k1 k2)
  have hall : (SB.init : SB K V I).Settled cfg (xs ++ ys) := by
    obtain ⟨k1, k2⟩ := hset.split h0
    exact (hxset k1).append hxs (hyset k2)
  obtain ⟨-, c', zs, hv', hev, hor⟩ := SB.loop_end_core b (genRd g) hpk hstr hyu hyl hxs ((SB.good hxs).log.closed b ok hcl) c hv hpc hys hall
  have h02 : (GSB.init : GSB K V I).exec cfg (as ++ bs) = some s' := by rw [exec_append, h0]; exact he
  rcases hor with ⟨hin, hcnt⟩ | hdone
  · right
    refine ⟨?_, ?_⟩
    · obtain ⟨-, -, -, k⟩ := pc_in g b hd h02 c' hv'
      rcases hyg with h | h | h
      · exact .inl h
      · exact .inr h
      · rw [k h] at hin; exact hin.elim
    · have h1 : 1 ≤ SB.toEnd (c'.pc (genRd g)) := by revert hin; cases c'.pc (genRd g) <;> simp [SB.InLoop, SB.toEnd]
      have h2 : SB.toEnd (c.pc (genRd g)) ≤ 3 := by cases c.pc (genRd g) <;> simp [SB.toEnd]
      omega
  · left
    obtain ⟨vs', f', m', hfit'⟩ := fit g hd h02
    obtain ⟨c2, t, hv2, k1, k2, -⟩ := hfit'.sess b (by rcases hyg with h | h | h <;> rw [h] <;> rfl)
    rw [hv'] at hv2; injection hv2 with hv2; subst hv2
    have hin : CEvt.loopDone ∈ c'.evtsOf (genRd g) := by rw [hev]; simp [hdone]
    rw [k1] at hin
    simp only [List.mem_append, List.mem_map, reduceCtorEq, and_false, exists_false, false_or] at hin
    rcases k2 with rfl | ⟨-, k3, k4⟩
    · cases hin
    · refine ⟨k3, ?_⟩
      rw [hfit'.outs]
      simp only [List.mem_append, List.mem_replicate]
      exact .inr ⟨by omega, by trivial⟩

/-- **C152** and if (`auto_drop=True`) it was at its loop body when the source had been closed, it has then handed out everything it had to hand out; before
that, a beginning of it. -/
theorem C152_drains {bs : List (GAct K V I)} (g b : Nat) (hda : cfg.autoDrop = true) (hd : cfg.rdCfg (genRd g) = Cfg.default)
    (h0 : (GSB.init : GSB K V I).exec cfg as = some s) (hg : s.gens g = .at b) (he : s.exec cfg bs = some s')
    (hn : ∀ a ∈ bs, a.isClose g = false) (ok : Bool) (hcl : Ev.closed b ok ∈ s.sb.log)
    (hset : GSB.init.Settled cfg (as ++ bs)) (c : Cons K V) (hv : s.sb.view b = some c) :
    (s'.gens g = .over (some b) ∧ handed g s'.res = handed g s.res ++ unreadOf c.ch (genRd g)) ∨
    ((s'.gens g = .within b ∨ s'.gens g = .at b) ∧ ∃ l, l <+: unreadOf c.ch (genRd g) ∧ handed g s'.res = handed g s.res ++ l) := by
  obtain ⟨xs, hxs, hxu, hxset⟩ := exec_sb g h0
  obtain ⟨ys, hys, hyu, hyl, hyc, hyg, hyset⟩ := stretch g b hn he (by tauto)
  have hpk : (cfg.rdCfg (genRd g)).peek = false := by rw [hd]; rfl
  have hstr : (cfg.rdCfg (genRd g)).strict = false := by rw [hd]; rfl
  have hpc : BetweenReads (c.pc (genRd g)) := by
    obtain ⟨-, k2, -⟩ := pc_in g b hd h0 c hv
    rw [k2 hg]; trivial
  have hall : (SB.init : SB K V I).Settled cfg (xs ++ ys) := by
    obtain ⟨k1, k2⟩ := hset.split h0
    exact (hxset k1).append hxs (hyset k2)
  obtain ⟨-, -, -, c', hv', hor⟩ := SB.drain_core hda b (genRd g) hpk hstr hyu hyl hxs ((SB.good hxs).log.closed b ok hcl) c hv hpc hys hall
  have h02 : (GSB.init : GSB K V I).exec cfg (as ++ bs) = some s' := by rw [exec_append, h0]; exact he
  obtain ⟨-, -, -, kover⟩ := pc_in g b hd h02 c' hv'
  have hr : received c (genRd g) = handed g s.res := by
    obtain ⟨c0, hv0, hr⟩ := handed_received g b hd h0 (by rw [hg]; rfl)
    rw [hv] at hv0; injection hv0 with hv0; subst hv0; exact hr
  have hr' : received c' (genRd g) = handed g s'.res := by
    obtain ⟨c0, hv0, hr⟩ := handed_received g b hd h02 (by rcases hyg with h | h | h <;> rw [h] <;> rfl)
    rw [hv'] at hv0; injection hv0 with hv0; subst hv0; exact hr
  rcases hor with ⟨hb, ⟨l, hl, hl'⟩, -⟩ | ⟨hb, ⟨l, hl, hl'⟩, -⟩ | ⟨l, hl, hl'⟩
  · refine .inr ⟨?_, l.flatMap CEvt.items, ⟨_, hl'⟩, ?_⟩
    · rcases hyg with h | h | h
      · exact .inl h
      · exact .inr h
      · rw [kover h] at hb; exact hb.elim
    · rw [← hr, ← hr', received, received, hl, List.flatMap_append]
  · refine .inr ⟨?_, l.flatMap CEvt.items, by rw [hl']; exact List.prefix_refl _, ?_⟩
    · rcases hyg with h | h | h
      · exact .inl h
      · exact .inr h
      · rw [kover h] at hb; cases hb
    · rw [← hr, ← hr', received, received, hl, List.flatMap_append]
  · left
    obtain ⟨vs', f', m', hfit'⟩ := fit g hd h02
    obtain ⟨c2, t, hv2, k1, k2, -⟩ := hfit'.sess b (by rcases hyg with h | h | h <;> rw [h] <;> rfl)
    rw [hv'] at hv2; injection hv2 with hv2; subst hv2
    have hnot : ∀ vs : List V, CEvt.loopDone ∉ vs.map (fun v => (CEvt.yielded (.one v) : CEvt V)) := by simp
    have hin : CEvt.loopDone ∈ c'.evtsOf (genRd g) := hl.subset (by simp)
    rw [k1] at hin hl
    rcases k2 with rfl | ⟨rfl, k3, k4⟩
    · simp at hin
    refine ⟨k3, ?_⟩
    obtain ⟨r, hr2⟩ := hl
    have hr0 : r = [] := by
      rcases List.eq_nil_or_concat r with h | ⟨r', x, h⟩
      · exact h
      · exfalso
        subst h
        rw [List.concat_eq_append, ← List.append_assoc] at hr2
        have := (List.append_inj' hr2 rfl).1
        exact hnot vs' (by rw [← this]; simp)
    subst hr0
    rw [List.append_nil] at hr2
    rw [← hr', received, k1, ← hr2, List.flatMap_append, List.flatMap_append, hl', ← hr, received]
    simp [CEvt.items]

omit [ReflBEq V] in
theorem go_some {c : Cons K V} {i : Nat} (h : c.pc i ≠ .idle) : ∃ c', c.go i = some c' := by
  unfold Cons.go
  cases hp : c.pc i <;> simp only
  · exact absurd hp h
  all_goals first
    | exact ⟨_, rfl⟩
    | (split <;> exact ⟨_, rfl⟩)

/-- **C152** and it is never stuck: a call of `next` can do its next statement at any time, but for the wait for a `start()` in progress at the first; an iterator at
its loop body can be asked for the next item. -/
theorem C152_never_stuck (g : Nat) (hd : cfg.rdCfg (genRd g) = Cfg.default) (h0 : (GSB.init : GSB K V I).exec cfg as = some s) :
    ((∃ b, s.gens g = .within b ∨ s.gens g = .got b) ∨ (s.gens g = .called ∧ s.sb.start = none) → ∃ s', s.step cfg (.go g) = some s') ∧
    (s.gens g ≠ .unborn → ∃ s', s.step cfg (.next g) = some s') := by
  obtain ⟨vs, f, m, hfit⟩ := fit g hd h0
  have rdgo : ∀ b c, s.sb.view b = some c → c.pc (genRd g) ≠ .idle → ∃ y, s.sb.step cfg (.rd b (.go (genRd g))) = some y := by
    intro b c hv hp
    obtain ⟨x, hx, hc⟩ := Option.map_eq_some_iff.1 hv
    obtain ⟨c', hc'⟩ := go_some hp
    refine ⟨s.sb.setBuf b { x with cons := c' }, ?_⟩
    simp only [SB.step, CAct.isReaders, if_true, hx, Cons.step]
    rw [hc, hc']
  constructor
  · rintro (⟨b, hg | hg⟩ | ⟨hg, hst⟩)
    · obtain ⟨c, t, hv, -, -, -, k, -⟩ := hfit.sess b (by rw [hg]; rfl)
      obtain ⟨y, hy⟩ := rdgo b c hv (by rcases k hg with h | h | h | h <;> rw [h] <;> simp)
      simp only [step, go, hg, hy, Option.map_some]
      exact ⟨_, rfl⟩
    · obtain ⟨c, t, hv, -, -, k, -⟩ := hfit.sess b (by rw [hg]; rfl)
      obtain ⟨x, hx, hc⟩ := Option.map_eq_some_iff.1 hv
      have hy : s.sb.step cfg (.rd b (.callIter (genRd g))) = some (s.sb.setBuf b { x with cons := c.goto (genRd g) .iterRead }) := by
        simp only [SB.step, CAct.isReaders, if_true, hx, Cons.step]
        rw [hc]
        have : x.cons.pc (genRd g) = .idle := by rw [← k hg, ← hc]
        simp [this]
      simp only [step, go, hg, hy, Option.map_some]
      exact ⟨_, rfl⟩
    · simp only [step, go, hg, SB.step, hst, if_true, Option.map_some]
      exact ⟨_, rfl⟩
  · intro hne
    cases hg : s.gens g with
    | unborn => exact absurd hg hne
    | «at» b =>
      obtain ⟨c, t, hv, -, -, -, -, k, -⟩ := hfit.sess b (by rw [hg]; rfl)
      obtain ⟨y, hy⟩ := rdgo b c hv (by rw [k hg]; simp)
      simp only [step, next, hg, hy, Option.map_some]
      exact ⟨_, rfl⟩
    | _ => simp only [step, next, hg]; exact ⟨_, rfl⟩

end GSB
end S2P
