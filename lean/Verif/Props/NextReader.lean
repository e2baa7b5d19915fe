import Verif.Proofs.NextReader
import Verif.Props.EndToEnd
/-
C114, C115: what `next(stream_buffer)` and `stream_buffer()` return.
-/
namespace S2P
open Spec
variable {K V I : Type}

/-- The items in what calls of `next(stream_buffer)` returned, in order. -/
def gotten (l : List (NEv V)) : List V :=
  l.flatMap fun
    | .got _ _ _ e => e.items
    | .failed _ _ => []

/-- Data, `None`, or `StopIteration`. -/
def NEv.proper : NEv V → Bool
  | .got _ _ _ (.next _) | .got _ _ _ .stopIteration => true
  | _ => false

/-- During the session only caller `c` calls `next(stream_buffer)`; nobody calls `start()` or `stop()`. -/
def Alone (c : Nat) : NAct K V I → Prop
  | .next c' | .go c' => c' = c
  | .sb .start | .sb .stop => False
  | _ => True

/-- Session `b` is the current one; no `start()`, `stop()` or `next(stream_buffer)` is in progress, and `next(stream_buffer)` was not called since
the last `stop()`. -/
structure Resting (s : NSB K V I) (b : Nat) : Prop where
  start : s.sb.start = none
  stopping : s.sb.stopping = 0
  cur : s.sb.sourceBuffer = some b
  noReader : s.sb.nextReader = none
  noCalls : ∀ c, s.sb.nexts c = .idle ∧ s.calls c = .out

namespace NSB
variable [LinearOrder K] [BEq V] [ReflBEq V] {cfg : SBCfg K V} {s s' : NSB K V I} {a : NAct K V I} {as : List (NAct K V I)}

omit [ReflBEq V] in
theorem exec_inv (he : (NSB.init : NSB K V I).exec cfg as = some s) : s.sb.Inv := by
  obtain ⟨bs, hb, -⟩ := exec_sb he
  exact (SB.good hb).inv

omit [ReflBEq V] in
theorem exec_snoc (he : s.exec cfg as = some s') {t : NSB K V I} (hs : s'.step cfg a = some t) : s.exec cfg (as ++ [a]) = some t := by
  rw [exec_append, he]; simp [exec, hs]

/-- A reader used by `next(stream_buffer)` answers properly. -/
theorem go_proper {c c' : Cons K V} {i : Nat} {key : V → K} {kn : Py (Option K)} {m : Option Nat} {rc : Nat → Cfg} (hr : c.Reach key kn m rc)
    (hst : (rc i).strict = false) (hp : PcOk (c.pc i)) (h : c.go i = some c') (e : CEvt V) (he : c'.evts = c.evts ++ [(i, e)]) :
    (∃ r, e = .next r) ∨ e = .stopIteration := by
  obtain ⟨e1, -⟩ := call_next hr i hst
  rcases hp with hp | hp | hp <;> simp only [Cons.go, hp] at h
  · cases h
  · split at h
    · rename_i hc; rw [hc] at e1; cases e1
    · rename_i hc; rw [Cons.call] at hc; injection hc with h1 h2; subst h1; injection h with h; subst h
      simp [Cons.goto] at he
    · rename_i hc; rw [Cons.call] at hc; injection hc with h1 h2; subst h1; injection h with h; subst h
      simp only [Cons.goto, Cons.emit, List.append_cancel_left_eq, List.cons.injEq, Prod.mk.injEq, true_and, and_true] at he
      exact .inl ⟨_, he.symm⟩
  · split at h <;> (injection h with h; subst h
                    simp only [Cons.goto, Cons.emit, List.append_cancel_left_eq, List.cons.injEq, Prod.mk.injEq, true_and, and_true] at he)
    · exact .inr he.symm
    · exact .inl ⟨_, he.symm⟩

/-- Numbers of readers are below the number of readers made. -/
structure Below (s : NSB K V I) : Prop where
  mine : ∀ c b, s.sb.nexts c = .store b → s.mine c < s.made
  cur : ∀ b, s.sb.nextReader = some b → s.cur < s.made
  calls : ∀ c b r, (s.calls c = .call b r ∨ s.calls c = .wait b r) → r < s.made
  res : ∀ c b r e, .got c b r e ∈ s.res → r < s.made
  buf : ∀ b, s.sb.nextReader = some b → (s.sb.buf b).isSome
  nbuf : ∀ c b, s.sb.nexts c = .store b → (s.sb.buf b).isSome
  idle : ∀ c, s.calls c ≠ .out → s.sb.nexts c = .idle

omit [BEq V] [ReflBEq V] in
/-- What a step of the stream buffer does to `next(stream_buffer)` calls. -/
theorem sb_nexts [BEq V] {x x' : SB K V I} {a : SBAct K V I} (hs : x.step cfg a = some x') (hp : a.isPlain = true) :
    x'.nexts = x.nexts ∧ (x'.nextReader = x.nextReader ∨ x'.nextReader = none) := by
  have hst := SB.step_to hs
  cases hst <;> first
    | exact ⟨rfl, .inl rfl⟩
    | exact ⟨rfl, .inr rfl⟩
    | (simp [SBAct.isPlain] at hp; done)

omit [ReflBEq V] in
theorem buf_stays {x x' : SB K V I} {a : SBAct K V I} (hi : x.Inv) (hs : x.step cfg a = some x') (b : Nat) (h : (x.buf b).isSome) : (x'.buf b).isSome := by
  obtain ⟨y, hy⟩ := Option.isSome_iff_exists.1 h
  obtain ⟨c, hc, -⟩ := SB.view_pc hi hs b 0 _ (show x.view b = some _ by simp only [SB.view, hy, Option.map_some]; rfl)
  obtain ⟨z, hz, -⟩ := Option.map_eq_some_iff.1 hc
  simp [hz]

omit [ReflBEq V] in
/-- The statements of `next(stream_buffer)` before the reader is used. -/
theorem next_act {x y : SB K V I} {c : Nat} (h : x.step cfg (.next c) = some y) :
    x.nexts c = .idle ∧ y = x.setNext c (if x.nextReader = none then .make else .use) := by
  simp only [SB.step] at h
  split at h
  · rename_i h0; injection h with h; exact ⟨h0, h.symm⟩
  · cases h

omit [ReflBEq V] in
theorem make_act {x y : SB K V I} {c : Nat} (hn : x.nexts c = .make) (h : x.step cfg (.nextGo c) = some y) :
    x.start = none ∧ ((x.sourceBuffer = none ∧ y = (x.setNext c .idle).say (.nextOn (.error .streamNotStarted))) ∨
      ∃ b, x.sourceBuffer = some b ∧ y = x.setNext c (.store b)) := by
  simp only [SB.step, hn] at h
  split at h
  · rename_i h0
    refine ⟨h0, ?_⟩
    cases hb : x.sourceBuffer <;> rw [hb] at h <;> injection h with h
    · exact .inl ⟨rfl, h.symm⟩
    · exact .inr ⟨_, rfl, h.symm⟩
  · cases h

omit [ReflBEq V] in
theorem store_act {x y : SB K V I} {c b : Nat} (hn : x.nexts c = .store b) (h : x.step cfg (.nextGo c) = some y) :
    y = { x.setNext c .use with nextReader := some b } := by
  simp only [SB.step, hn, Option.some.injEq] at h
  exact h.symm

omit [ReflBEq V] in
theorem use_act {x y : SB K V I} {c b : Nat} (hn : x.nexts c = .use) (hb : x.nextReader = some b) (h : x.step cfg (.nextGo c) = some y) :
    y = (x.setNext c .idle).say (.nextOn (.ok b)) := by
  simp only [SB.step, hn, hb, Option.some.injEq] at h
  exact h.symm

omit [ReflBEq V] in
theorem use_none {x y : SB K V I} {c : Nat} (hn : x.nexts c = .use) (hb : x.nextReader = none) (h : x.step cfg (.nextGo c) = some y) :
    y = (x.setNext c .idle).say (.nextOn (.error .typeError)) := by
  simp only [SB.step, hn, hb, Option.some.injEq] at h
  exact h.symm

omit [ReflBEq V] in
theorem rd_act {x y : SB K V I} {b : Nat} {a : CAct K V} (h : x.step cfg (.rd b a) = some y) :
    y.start = x.start ∧ y.stopping = x.stopping ∧ y.sourceBuffer = x.sourceBuffer ∧ y.nextReader = x.nextReader ∧ y.nexts = x.nexts ∧ y.log = x.log := by
  have hst := SB.step_to h
  cases hst
  exact ⟨rfl, rfl, rfl, rfl, rfl, rfl⟩

omit [ReflBEq V] in
theorem below_step (hi : s.sb.Inv) (h : Below s) (hs : s.step cfg a = some s') : Below s' := by
  obtain ⟨h1, h2, h3, h4, h5, h6, h7⟩ := h
  have hst := step_to hs
  have hkeep : ∀ b, (s.sb.buf b).isSome → (s'.sb.buf b).isSome := by
    obtain ⟨x, hx, -, -⟩ := step_act hs
    exact fun b => buf_stays hi hx b
  have hsrc := fun b hb => (hi.sb b hb).1
  clear hs
  cases hst with
  | sb a y hp h =>
    obtain ⟨e1, e2⟩ := sb_nexts h hp
    refine ⟨?_, ?_, h3, h4, ?_, ?_, ?_⟩ <;> simp only [e1] <;> first | exact h1 | exact h7 | skip
    · intro b hb; rcases e2 with e2 | e2 <;> rw [e2] at hb
      · exact h2 b hb
      · cases hb
    · intro b hb; rcases e2 with e2 | e2 <;> rw [e2] at hb
      · exact hkeep b (h5 b hb)
      · cases hb
    · exact fun c b hb => hkeep b (h6 c b hb)
  | next c y h0 h =>
    obtain ⟨-, rfl⟩ := next_act h
    refine ⟨?_, h2, h3, h4, h5, ?_, ?_⟩ <;> simp only [SB.setNext] <;> grind
  | call c b r y h0 h =>
    obtain ⟨-, -, -, e1, e2, -⟩ := rd_act h
    refine ⟨?_, ?_, ?_, h4, ?_, ?_, ?_⟩ <;> simp only [setCall, e1, e2] at hkeep ⊢ <;> grind
  | ans c b r y e h0 h _ _ =>
    obtain ⟨-, -, -, e1, e2, -⟩ := rd_act h
    have hr0 := h3 c b r (.inr h0)
    refine ⟨?_, ?_, ?_, ?_, ?_, ?_, ?_⟩ <;> simp only [setCall, e1, e2] at hkeep ⊢ <;> grind
  | busy c b r y h0 h _ =>
    obtain ⟨-, -, -, e1, e2, -⟩ := rd_act h
    refine ⟨?_, ?_, ?_, ?_, ?_, ?_, ?_⟩ <;> simp only [e1, e2] at hkeep ⊢ <;> grind
  | mk c y b h0 hn h hy =>
    obtain ⟨-, ⟨-, rfl⟩ | ⟨b', hb', rfl⟩⟩ := make_act hn h
    · simp [SB.say, SB.setNext] at hy
    · refine ⟨?_, ?_, ?_, ?_, ?_, ?_, ?_⟩ <;> simp only [SB.setNext] at hy hkeep ⊢ <;> grind
  | mkFail c y h0 hn h hy =>
    obtain ⟨-, ⟨-, rfl⟩ | ⟨b', hb', rfl⟩⟩ := make_act hn h
    · refine ⟨?_, ?_, ?_, ?_, ?_, ?_, ?_⟩ <;> simp only [SB.setNext, SB.say] at hy hkeep ⊢ <;> grind
    · simp [SB.setNext] at hy
  | store c y b h0 hn h =>
    have := store_act hn h
    subst this
    refine ⟨?_, ?_, ?_, ?_, ?_, ?_, ?_⟩ <;> simp only [SB.setNext] at hkeep ⊢ <;> grind
  | use c y b h0 hn h hb =>
    have := use_act hn hb h
    subst this
    refine ⟨?_, ?_, ?_, ?_, ?_, ?_, ?_⟩ <;> simp only [SB.setNext, SB.say, setCall] at hkeep ⊢ <;> grind
  | useFail c y h0 hn h hb =>
    have := use_none hn hb h
    subst this
    refine ⟨?_, ?_, ?_, ?_, ?_, ?_, ?_⟩ <;> simp only [SB.setNext, SB.say] at hkeep ⊢ <;> grind

omit [ReflBEq V] in
theorem below (he : (NSB.init : NSB K V I).exec cfg as = some s) : Below s := by
  have : s.sb.Inv ∧ Below s := by
    refine exec_ind (P := fun s => s.sb.Inv ∧ Below s) ?_ ⟨SB.Inv.init, ⟨by simp [init, SB.init], by simp [init, SB.init], by simp [init], by simp [init],
      by simp [init, SB.init], by simp [init, SB.init], by simp [init]⟩⟩ he
    rintro s a s' - ⟨h1, h2⟩ hs
    obtain ⟨x, hx, -, -⟩ := step_act hs
    exact ⟨h1.step hx, below_step h1 h2 hs⟩
  exact this.2

/-- Where a single caller is in the session. `l`: what it was answered. -/
structure Single (s : NSB K V I) (c b m : Nat) (l : List (NEv V)) : Prop where
  start : s.sb.start = none
  stopping : s.sb.stopping = 0
  cur : s.sb.sourceBuffer = some b
  others : ∀ c', c' ≠ c → s.sb.nexts c' = .idle ∧ s.calls c' = .out
  all : ∀ e ∈ l, ∃ v, e = .got c b m v
  ph : (s.made = m ∧ s.sb.nextReader = none ∧ (s.sb.nexts c = .idle ∨ s.sb.nexts c = .make) ∧ s.calls c = .out ∧ l = []) ∨
    (s.made = m + 1 ∧ s.mine c = m ∧ s.sb.nexts c = .store b ∧ s.sb.nextReader = none ∧ s.calls c = .out ∧ l = []) ∨
    (s.made = m + 1 ∧ s.sb.nextReader = some b ∧ s.cur = m ∧ (((s.sb.nexts c = .idle ∨ s.sb.nexts c = .use) ∧ s.calls c = .out) ∨
      (s.sb.nexts c = .idle ∧ (s.calls c = .call b m ∨ s.calls c = .wait b m))))

omit [ReflBEq V] in
/-- What a step that is not about `start()`, `stop()` and `next(stream_buffer)` leaves alone. -/
theorem plain_act {x y : SB K V I} {a : SBAct K V I} (hp : a.isPlain = true) (h1 : x.start = none) (h2 : x.stopping = 0) (ha : a ≠ .start) (ha' : a ≠ .stop)
    (h : x.step cfg a = some y) :
    y.start = none ∧ y.stopping = 0 ∧ y.sourceBuffer = x.sourceBuffer ∧ y.nextReader = x.nextReader ∧ y.nexts = x.nexts := by
  have hst := SB.step_to h
  cases hst <;> first
    | exact ⟨h1, h2, rfl, rfl, rfl⟩
    | exact absurd rfl ha
    | exact absurd rfl ha'
    | (simp [SBAct.isPlain] at hp; done)
    | (simp only [h1, reduceCtorEq] at *; done)
    | (exfalso; omega)

omit [ReflBEq V] in
theorem single_step {c b m : Nat} {l : List (NEv V)} (hc : Alone c a) (h : Single s c b m l) (hs : s.step cfg a = some s') :
    ∃ l', s'.res = s.res ++ l' ∧ Single s' c b m (l ++ l') := by
  obtain ⟨h1, h2, h3, h4, h5, h6⟩ := h
  have hst := step_to hs
  clear hs
  cases hst with
  | sb a y hp h =>
    have ha : a ≠ .start ∧ a ≠ .stop := by constructor <;> (rintro rfl; exact hc)
    obtain ⟨e1, e2, e3, e4, e5⟩ := plain_act hp h1 h2 ha.1 ha.2 h
    exact ⟨[], by simp, e1, e2, by rw [e3]; exact h3, by simpa only [e5] using h4, by simpa using h5, by simpa only [e4, e5, List.append_nil] using h6⟩
  | next c' y h0 h =>
    subst hc
    obtain ⟨e0, rfl⟩ := next_act h
    refine ⟨[], by simp, h1, h2, h3, ?_, by simpa using h5, ?_⟩ <;> simp only [SB.setNext] <;> grind
  | call c' b' r y h0 h =>
    subst hc
    obtain ⟨e1, e2, e3, e4, e5, -⟩ := rd_act h
    refine ⟨[], by simp [setCall], by rw [← h1]; exact e1, by rw [← h2]; exact e2, by rw [← h3]; exact e3, ?_, by simpa using h5, ?_⟩ <;>
      simp only [setCall, e4, e5] <;> grind
  | ans c' b' r y e h0 h _ _ =>
    subst hc
    obtain ⟨e1, e2, e3, e4, e5, -⟩ := rd_act h
    refine ⟨[.got c' b' r e], by simp [setCall], by rw [← h1]; exact e1, by rw [← h2]; exact e2, by rw [← h3]; exact e3, ?_, ?_, ?_⟩
    · simp only [setCall, e4, e5]; grind
    · intro f hf
      simp only [List.mem_append, List.mem_singleton] at hf
      rcases hf with hf | hf
      · exact h5 f hf
      · subst hf
        exact ⟨e, by grind⟩
    · simp only [setCall, e4, e5]; grind
  | busy c' b' r y h0 h _ =>
    subst hc
    obtain ⟨e1, e2, e3, e4, e5, -⟩ := rd_act h
    exact ⟨[], by simp, by rw [← h1]; exact e1, by rw [← h2]; exact e2, by rw [← h3]; exact e3, by simpa only [e5] using h4, by simpa using h5,
      by simpa only [e4, e5, List.append_nil] using h6⟩
  | mk c' y b' h0 hn h hy =>
    subst hc
    obtain ⟨-, ⟨-, rfl⟩ | ⟨b', hb', rfl⟩⟩ := make_act hn h
    · simp [SB.say, SB.setNext] at hy
    · refine ⟨[], by simp, h1, h2, h3, ?_, by simpa using h5, ?_⟩ <;> simp only [SB.setNext] at hy ⊢ <;> grind
  | mkFail c' y h0 hn h hy =>
    subst hc
    obtain ⟨-, ⟨hb', rfl⟩ | ⟨b', hb', rfl⟩⟩ := make_act hn h
    · rw [h3] at hb'; cases hb'
    · simp [SB.setNext] at hy
  | store c' y b' h0 hn h =>
    subst hc
    have := store_act hn h
    subst this
    refine ⟨[], by simp, h1, h2, h3, ?_, by simpa using h5, ?_⟩ <;> simp only [SB.setNext] <;> grind
  | use c' y b' h0 hn h hb =>
    subst hc
    have := use_act hn hb h
    subst this
    refine ⟨[], by simp [setCall], h1, h2, h3, ?_, by simpa using h5, ?_⟩ <;> simp only [SB.setNext, SB.say, setCall] <;> grind
  | useFail c' y h0 hn h hb =>
    subst hc
    exfalso
    grind

omit [ReflBEq V] in
theorem single {b c : Nat} {ys : List (NAct K V I)} (hrest : Resting s b) (hal : ∀ a ∈ ys, Alone c a) (he : s.exec cfg ys = some s') :
    ∃ l, s'.res = s.res ++ l ∧ Single s' c b s.made l := by
  refine exec_ind (P := fun t => ∃ l, t.res = s.res ++ l ∧ Single t c b s.made l) ?_
    ⟨[], by simp, hrest.start, hrest.stopping, hrest.cur, fun c' _ => hrest.noCalls c', by simp, .inl ⟨rfl, hrest.noReader, .inl (hrest.noCalls c).1, (hrest.noCalls c).2, rfl⟩⟩ he
  rintro t a t' ha ⟨l, hl, h⟩ hs
  obtain ⟨l', hl', h'⟩ := single_step (hal a ha) h hs
  exact ⟨l ++ l', by rw [hl', hl, List.append_assoc], h'⟩

theorem proper_res (hst : ∀ r, (cfg.rdCfg (nextRd r)).strict = false) (he : (NSB.init : NSB K V I).exec cfg as = some s) (c b r : Nat) (e : CEvt V)
    (h : NEv.got c b r e ∈ s.res) : (NEv.got c b r e).proper = true := by
  have key : (∃ as, (NSB.init : NSB K V I).exec cfg as = some s) ∧ ∀ c b r e, NEv.got c b r e ∈ s.res → (NEv.got c b r e).proper = true := by
    refine exec_ind (P := fun s => (∃ as, (NSB.init : NSB K V I).exec cfg as = some s) ∧
      ∀ c b r e, NEv.got c b r e ∈ s.res → (NEv.got c b r e).proper = true) ?_ ⟨⟨[], rfl⟩, by simp [init]⟩ he
    rintro s a s' - ⟨⟨xs, hxs⟩, ih⟩ hs
    refine ⟨⟨_, exec_snoc hxs hs⟩, ?_⟩
    have hst' := step_to hs
    clear hs
    cases hst' with
    | ans c b r y e h0 hx hrest he' =>
      intro c1 b1 r1 e1 hm
      simp only [List.mem_append, List.mem_singleton] at hm
      rcases hm with hm | hm
      · exact ih _ _ _ _ hm
      · injection hm with g1 g2 g3 g4
        subst g1 g2 g3 g4
        obtain ⟨bs, hb, -⟩ := exec_sb hxs
        have hi := (SB.good hb).inv
        cases hv : s.sb.view b1 with
        | none =>
          simp only [SB.step, CAct.isReaders, if_true] at hx
          cases hb : s.sb.buf b1 with
          | none => rw [hb] at hx; cases hx
          | some z => simp [SB.view, hb] at hv
        | some k =>
          obtain ⟨h1, -⟩ := (fits hxs b1 r1).pc k hv
          obtain ⟨k2, hk2, hor⟩ := SB.view_pc hi hx b1 (nextRd r1) k hv
          simp only [SB.isGo, decide_true, Bool.and_self, true_and, Bool.true_eq_false, false_and, or_false] at hor
          have hrest' : k2.pc (nextRd r1) = .idle := by
            obtain ⟨z, hz, rfl⟩ := Option.map_eq_some_iff.1 hk2
            simpa [atRest, hz] using hrest
          have hlast : (k2.evts.getLast?).map (·.2) = some e1 := by
            obtain ⟨z, hz, rfl⟩ := Option.map_eq_some_iff.1 hk2
            simpa [lastEvt, hz] using he'
          rcases go_next h1 hor with ⟨-, e', g1, -⟩ | ⟨g1, -⟩
          · have hp := go_proper (SB.view_reach hb b1 k hv) (hst r1) h1 hor e' g1
            rw [g1] at hlast
            simp only [List.getLast?_append, List.getLast?_singleton, Option.some_or, Option.map_some, Option.some.injEq] at hlast
            subst hlast
            rcases hp with ⟨r, rfl⟩ | rfl <;> rfl
          · rw [hrest'] at g1; cases g1
    | mkFail c y h0 hn h hy | useFail c y h0 hn h hy =>
      intro c1 b1 r1 e1 hm
      simp only [List.mem_append, List.mem_singleton, reduceCtorEq, or_false] at hm
      exact ih _ _ _ _ hm
    | _ => exact ih
  exact key.2 c b r e h

/-- Who is inside `next` of a reader made by `next(stream_buffer)`. -/
structure Waits (s : NSB K V I) : Prop where
  uniq : ∀ c c' b r, s.calls c = .wait b r → s.calls c' = .wait b r → c = c'
  buf : ∀ c b r, (s.calls c = .call b r ∨ s.calls c = .wait b r) → (s.sb.buf b).isSome
  pc : ∀ b r x, s.sb.buf b = some x → (x.cons.pc (nextRd r) ≠ .idle ↔ ∃ c, s.calls c = .wait b r)

omit [ReflBEq V] in
/-- A step of the stream buffer that is not about reader `i` of session `b` leaves it at rest or not. -/
theorem rest_keep {x x' : SB K V I} (hi : x.Inv) {a : SBAct K V I} (hs : x.step cfg a = some x') (b i : Nat)
    (hno : ∀ a', a = .rd b a' → a'.reader? ≠ some i) (hu : SB.OneUser b i a) {z' : Sess K V I} (hz' : x'.buf b = some z') :
    (x.buf b = none ∧ z'.cons.pc i = .idle) ∨ ∃ z, x.buf b = some z ∧ z'.cons.pc i = z.cons.pc i := by
  cases hz : x.buf b with
  | some z => exact .inr ⟨z, rfl, SB.pc_away hi hs b i hno hz hz'⟩
  | none =>
    refine .inl ⟨rfl, ?_⟩
    obtain ⟨c', hv', hc'⟩ : ∃ c', x'.view b = some c' ∧ c'.pc = z'.cons.pc :=
      ⟨{ z'.cons with stopped := x'.flag z'.evt }, by simp only [SB.view, hz', Option.map_some], rfl⟩
    have hv : x.view b = none := by simp only [SB.view, hz, Option.map_none]
    rw [← hc']
    cases SB.view_step' hi b i hu hs _ hv' with
    | same c h1 _ => rw [hv] at h1; cases h1
    | step c _ _ h1 _ _ _ _ => rw [hv] at h1; cases h1
    | new _ f _ => rfl

omit [ReflBEq V] in
theorem waits_step (hi : s.sb.Inv) (hf : ∀ b r, Fits s.sb s.res b r) (hB : Below s) (h : Waits s) (hs : s.step cfg a = some s') : Waits s' := by
  obtain ⟨h1, h2, h3⟩ := h
  have hst := step_to hs
  obtain ⟨x, hx, hu, -⟩ := step_act hs
  have hkeep : ∀ b, (s.sb.buf b).isSome → (s'.sb.buf b).isSome := fun b => buf_stays hi hx b
  have odd : ∀ (i r : Nat), (i % 2 == 0) = true → i ≠ nextRd r := by
    intro i r h; simp only [beq_iff_eq] at h; unfold nextRd; omega
  -- steps that are not about a reader of `next`, and leave the calls that wait
  have plain : ∀ (x : SBAct K V I) (y : SB K V I) (t : NSB K V I), s.sb.step cfg x = some y → (∀ b r a', x = .rd b a' → a'.reader? ≠ some (nextRd r)) →
      (∀ b r, SB.OneUser b (nextRd r) x) → t.sb = y →
      (∀ b r x', t.sb.buf b = some x' → (x'.cons.pc (nextRd r) ≠ .idle ↔ ∃ c, s.calls c = .wait b r)) := by
    intro x y t hx hno hu ht b r x' hx'
    rw [ht] at hx'
    rcases rest_keep hi hx b (nextRd r) (hno b r) (hu b r) hx' with ⟨hn, hp⟩ | ⟨z, hz, hp⟩
    · rw [hp]
      simp only [ne_eq, not_true_eq_false, false_iff, not_exists]
      intro c hc
      have := h2 c b r (.inr hc)
      rw [hn] at this; cases this
    · rw [hp]; exact h3 b r z hz
  clear hs
  cases hst with
  | sb a y hp h =>
    have hno : ∀ b r a', a = .rd b a' → a'.reader? ≠ some (nextRd r) := by
      rintro b r a' rfl hr
      simp only [SBAct.isPlain, hr] at hp
      exact odd _ r hp rfl
    refine ⟨h1, fun c b r hc => hkeep b (h2 c b r hc), plain a y _ h hno (fun b r => ?_) rfl⟩
    cases a with
    | rd b' a' =>
      intro _
      cases a' with
      | call op => cases op with
        | rd i o => exact odd i r hp
        | _ => trivial
      | callRead i n p st => intro hi; exact absurd hi (odd i r hp)
      | _ => trivial
    | attach b' i j => simp only [SBAct.isPlain, Bool.and_eq_true] at hp; exact odd j r hp.2
    | _ => trivial
  | next c y h0 h => exact ⟨h1, fun c b r hc => hkeep b (h2 c b r hc), plain _ y _ h (by simp) (fun _ _ => trivial) rfl⟩
  | mk c y b h0 hn h _ | store c y b h0 hn h =>
    exact ⟨h1, fun c b r hc => hkeep b (h2 c b r hc), plain _ y _ h (by simp) (fun _ _ => trivial) rfl⟩
  | mkFail c y h0 hn h _ | useFail c y h0 hn h _ =>
    exact ⟨h1, fun c b r hc => hkeep b (h2 c b r hc), plain _ y _ h (by simp) (fun _ _ => trivial) rfl⟩
  | use c y b h0 hn h hb =>
    have e := plain _ y (({ s with sb := y }).setCall c (.call b s.cur)) h (by simp) (fun _ _ => trivial) rfl
    have hbuf := hB.buf b hb
    refine ⟨?_, ?_, fun b r x' hx' => (e b r x' hx').trans ?_⟩ <;> simp only [setCall] at hkeep ⊢ <;> grind
  | call c b r y h0 h =>
    have hrd := h
    simp only [SB.step, CAct.isReaders, if_true] at hrd
    cases hb : s.sb.buf b with
    | none => rw [hb] at hrd; cases hrd
    | some z =>
      rw [hb] at hrd
      simp only [Cons.step] at hrd
      have hidle : z.cons.pc (nextRd r) = .idle := by
        by_contra hne
        rw [if_neg hne] at hrd; cases hrd
      rw [if_pos hidle] at hrd
      injection hrd with hrd
      have hnone : ∀ c, s.calls c ≠ .wait b r := fun c' hc' => ((h3 b r z hb).2 ⟨c', hc'⟩) hidle
      refine ⟨?_, ?_, ?_⟩
      · simp only [setCall]; grind
      · simp only [setCall] at hkeep ⊢; grind
      · intro b' r' x' hx'
        simp only [setCall] at hx' ⊢
        by_cases hbr : b' = b ∧ r' = r
        · obtain ⟨rfl, rfl⟩ := hbr
          rw [← hrd] at hx'
          simp only [SB.setBuf, if_true, Option.some.injEq] at hx'
          subst hx'
          simp only [Cons.goto, if_true, ne_eq, reduceCtorEq, not_false_eq_true, true_iff]
          exact ⟨c, by simp⟩
        · have : (x'.cons.pc (nextRd r') ≠ .idle ↔ ∃ c, s.calls c = .wait b' r') := by
            rcases rest_keep hi h b' (nextRd r') (by
              rintro a' ha hr
              injection ha with g1 g2
              subst g2
              simp only [CAct.reader?, Option.some.injEq] at hr
              exact hbr ⟨g1.symm, (nextRd_inj hr).symm⟩) (fun _ => trivial) hx' with ⟨hn, hp⟩ | ⟨z, hz, hp⟩
            · rw [hp]
              simp only [ne_eq, not_true_eq_false, false_iff, not_exists]
              intro c hc
              have := h2 c b' r' (.inr hc)
              rw [hn] at this; cases this
            · rw [hp]; exact h3 b' r' z hz
          rw [this]
          grind
  | ans c b r y e h0 h hrest _ =>
    refine ⟨?_, ?_, ?_⟩
    · simp only [setCall]; grind
    · simp only [setCall] at hkeep ⊢; grind
    · intro b' r' x' hx'
      simp only [setCall] at hx' ⊢
      by_cases hbr : b' = b ∧ r' = r
      · obtain ⟨rfl, rfl⟩ := hbr
        simp only [atRest, hx', decide_eq_true_eq] at hrest
        simp only [hrest, ne_eq, not_true_eq_false, false_iff, not_exists]
        grind
      · have : (x'.cons.pc (nextRd r') ≠ .idle ↔ ∃ c, s.calls c = .wait b' r') := by
          rcases rest_keep hi h b' (nextRd r') (by
            rintro a' ha hr
            injection ha with g1 g2
            subst g2
            simp only [CAct.reader?, Option.some.injEq] at hr
            exact hbr ⟨g1.symm, (nextRd_inj hr).symm⟩) (fun _ => trivial) hx' with ⟨hn, hp⟩ | ⟨z, hz, hp⟩
          · rw [hp]
            simp only [ne_eq, not_true_eq_false, false_iff, not_exists]
            intro c hc
            have := h2 c b' r' (.inr hc)
            rw [hn] at this; cases this
          · rw [hp]; exact h3 b' r' z hz
        rw [this]
        grind
  | busy c b r y h0 h hrest =>
    refine ⟨h1, fun c b r hc => hkeep b (h2 c b r hc), ?_⟩
    intro b' r' x' hx'
    by_cases hbr : b' = b ∧ r' = r
    · obtain ⟨rfl, rfl⟩ := hbr
      refine ⟨fun _ => ⟨c, h0⟩, fun _ hid => ?_⟩
      obtain ⟨z, hz⟩ := Option.isSome_iff_exists.1 (h2 c b' r' (.inr h0))
      have hv : s.sb.view b' = some { z.cons with stopped := s.sb.flag z.evt } := by simp only [SB.view, hz, Option.map_some]
      obtain ⟨g1, -⟩ := (hf b' r').pc _ hv
      obtain ⟨k2, hk2, hor⟩ := SB.view_pc hi h b' (nextRd r') _ hv
      simp only [SB.isGo, decide_true, Bool.and_self, true_and, Bool.true_eq_false, false_and, or_false] at hor
      simp only at hx'
      simp only [SB.view, hx', Option.map_some, Option.some.injEq] at hk2
      subst hk2
      rcases go_next g1 hor with ⟨-, e', w1, -⟩ | ⟨w1, -, -⟩
      · have := hrest (by simp [atRest, hx', hid])
        simp only at w1
        simp [lastEvt, hx', w1] at this
      · simp only at w1
        rw [hid] at w1; cases w1
    · rcases rest_keep hi h b' (nextRd r') (by
        rintro a' ha hr
        injection ha with g1 g2
        subst g2
        simp only [CAct.reader?, Option.some.injEq] at hr
        exact hbr ⟨g1.symm, (nextRd_inj hr).symm⟩) (fun _ => trivial) hx' with ⟨hn, hp⟩ | ⟨z, hz, hp⟩
      · rw [hp]
        simp only [ne_eq, not_true_eq_false, false_iff, not_exists]
        intro c hc
        have := h2 c b' r' (.inr hc)
        rw [hn] at this; cases this
      · rw [hp]; exact h3 b' r' z hz

omit [ReflBEq V] in
theorem waits (he : (NSB.init : NSB K V I).exec cfg as = some s) : Waits s := by
  have : (∃ as, (NSB.init : NSB K V I).exec cfg as = some s) ∧ Waits s := by
    refine exec_ind (P := fun s => (∃ as, (NSB.init : NSB K V I).exec cfg as = some s) ∧ Waits s) ?_
      ⟨⟨[], rfl⟩, ⟨by simp [init], by simp [init], by simp [init, SB.init]⟩⟩ he
    rintro s a s' - ⟨⟨xs, hxs⟩, h2⟩ hs
    exact ⟨⟨_, exec_snoc hxs hs⟩, waits_step (exec_inv hxs) (fits hxs) (below hxs) h2 hs⟩
  exact this.2

theorem gotten_via {l : List (NEv V)} {c b m : Nat} (h : ∀ e ∈ l, ∃ v, e = .got c b m v) : gotten l = (via b m l).flatMap CEvt.items := by
  induction l with
  | nil => rfl
  | cons e l ih =>
    obtain ⟨v, rfl⟩ := h e (by simp)
    have := ih (fun e he => h e (by simp [he]))
    simp only [gotten, via, List.flatMap_cons, List.filterMap_cons, and_self, if_true] at this ⊢
    rw [this]

/-- **C115** every execution, any number of callers: what the callers of `next(stream_buffer)` were given by one of the readers made for it, and what
that reader can still read, is in order a part of what was stored in its session, nothing twice. -/
theorem C115_part_of_stored (hpk : ∀ r, (cfg.rdCfg (nextRd r)).peek = false) (he : (NSB.init : NSB K V I).exec cfg as = some s) (b r : Nat)
    (k : Cons K V) (hv : s.sb.view b = some k) :
    ((via b r s.res).flatMap CEvt.items ++ unreadOf k.ch (nextRd r)).Sublist (storedIn b s.sb.log) := by
  obtain ⟨bs, hb, hu⟩ := exec_sb he
  rw [← ((fits he b r).pc k hv).2]
  exact SB.C63_part_of_stored b (nextRd r) (hpk r) (fun a ha => hu a ha b r) hb k hv

/-- **C115** one caller, from a moment when `next(stream_buffer)` was not called since the last `stop()`, until the next `start()` or `stop()`: every
call returns data or `None` or raises `StopIteration`, nothing else, and all of them are answered by the same reader of the current session. -/
theorem C115_one_reader {b c : Nat} {ys : List (NAct K V I)} (hst : ∀ r, (cfg.rdCfg (nextRd r)).strict = false)
    (he : (NSB.init : NSB K V I).exec cfg as = some s) (hrest : Resting s b) (hal : ∀ a ∈ ys, Alone c a) (he' : s.exec cfg ys = some s') :
    ∃ l, s'.res = s.res ++ l ∧ ∀ e ∈ l, e.proper = true ∧ ∃ v, e = .got c b s.made v := by
  obtain ⟨l, hl, hS⟩ := single hrest hal he'
  refine ⟨l, hl, fun e hel => ?_⟩
  obtain ⟨v, rfl⟩ := hS.all e hel
  refine ⟨proper_res hst (as := as ++ ys) (by rw [exec_append, he]; exact he') c b s.made v (by rw [hl]; simp [hel]), v, rfl⟩

/-- What the single caller got is what its reader handed out. -/
theorem gotten_received {b c : Nat} {ys : List (NAct K V I)} (he : (NSB.init : NSB K V I).exec cfg as = some s) (hrest : Resting s b)
    (hal : ∀ a ∈ ys, Alone c a) (he' : s.exec cfg ys = some s') {l : List (NEv V)} (hl : s'.res = s.res ++ l) (k : Cons K V) (hv : s'.sb.view b = some k) :
    gotten l = received k (nextRd s.made) := by
  obtain ⟨l', hl', hS⟩ := single hrest hal he'
  have : l' = l := by rw [hl] at hl'; exact (List.append_cancel_left hl').symm
  subst this
  have he2 : (NSB.init : NSB K V I).exec cfg (as ++ ys) = some s' := by rw [exec_append, he]; exact he'
  rw [received, ((fits he2 b s.made).pc k hv).2, hl, via_append, gotten_via hS.all]
  have : via b s.made s.res = [] := by
    simp only [via, List.filterMap_eq_nil_iff]
    intro e hm
    cases e with
    | failed => rfl
    | got c' b' r' e =>
      have := (below he).res c' b' r' e hm
      simp only [ite_eq_right_iff, reduceCtorEq, imp_false, not_and]
      omega
  rw [this, List.nil_append]

/-- **C115** and with an unbounded buffer (`maxlen=None`, `auto_drop=True`) nothing is missing: what the calls returned, and what can still be read, is
exactly what was stored in the session. -/
theorem C115_nothing_missing {b c : Nat} {ys : List (NAct K V I)} (hm : cfg.maxlen = none) (hd : cfg.autoDrop = true)
    (hpk : ∀ r, (cfg.rdCfg (nextRd r)).peek = false) (he : (NSB.init : NSB K V I).exec cfg as = some s) (hrest : Resting s b)
    (hal : ∀ a ∈ ys, Alone c a) (he' : s.exec cfg ys = some s') :
    ∃ l k, s'.res = s.res ++ l ∧ s'.sb.view b = some k ∧ gotten l ++ unreadOf k.ch (nextRd s.made) = storedIn b s'.sb.log := by
  obtain ⟨l, hl, hS⟩ := single hrest hal he'
  have he2 : (NSB.init : NSB K V I).exec cfg (as ++ ys) = some s' := by rw [exec_append, he]; exact he'
  obtain ⟨bs, hb, hu⟩ := exec_sb he2
  obtain ⟨z, hz⟩ := Option.isSome_iff_exists.1 ((exec_inv he2).sb b hS.cur).1
  have hv : s'.sb.view b = some { z.cons with stopped := s'.sb.flag z.evt } := by simp only [SB.view, hz, Option.map_some]
  refine ⟨l, _, hl, hv, ?_⟩
  rw [gotten_received he hrest hal he' hl _ hv]
  exact SB.C63_unbounded hm hd b (nextRd s.made) (hpk s.made) (fun a ha => hu a ha b s.made) hb _ hv

/-- How many statements a caller has left in its call of `next(stream_buffer)`, at most. -/
def leftOf (s : NSB K V I) (c : Nat) : Nat :=
  match s.calls c with
  | .call _ _ => 3
  | .wait b r => match s.sb.buf b with
    | some x => if x.cons.pc (nextRd r) = .nextCheck then 1 else 2
    | none => 2
  | .out => match s.sb.nexts c with | .idle => 0 | .make => 6 | .store _ => 5 | .use => 4

/-- **C115** every execution, any number of callers: a call of `next(stream_buffer)` takes at most six statements, and can do its next one unless
`start()` is in progress or another caller is inside `next` of the same reader. -/
theorem C115_returns (he : (NSB.init : NSB K V I).exec cfg as = some s) (c : Nat) (hin : s.calls c ≠ .out ∨ s.sb.nexts c ≠ .idle)
    (hstart : s.sb.start = none) (hother : ∀ c' b r, s.calls c = .call b r → s.calls c' ≠ .wait b r) :
    leftOf s c ≤ 6 ∧ ∃ s2, s.step cfg (.go c) = some s2 ∧ leftOf s2 c < leftOf s c := by
  have hw := waits he
  have hi := exec_inv he
  have hB := below he
  refine ⟨?_, ?_⟩
  · unfold leftOf
    split
    · omega
    · split <;> [split <;> omega; omega]
    · split <;> omega
  simp only [step, go]
  cases hc : s.calls c with
  | call b r =>
    obtain ⟨z, hz⟩ := Option.isSome_iff_exists.1 (hw.buf c b r (.inl hc))
    have hidle : z.cons.pc (nextRd r) = .idle := by
      by_contra hne
      obtain ⟨c', hc'⟩ := (hw.pc b r z hz).1 hne
      exact hother c' b r hc hc'
    refine ⟨_, by simp only [SB.step, CAct.isReaders, if_true, hz, Cons.step, hidle, Option.map_some]; rfl, ?_⟩
    simp only [leftOf, hc, setCall, if_true, SB.setBuf]
    simp [Cons.goto]
  | wait b r =>
    obtain ⟨z, hz⟩ := Option.isSome_iff_exists.1 (hw.buf c b r (.inr hc))
    have hne := (hw.pc b r z hz).2 ⟨c, hc⟩
    have hv : s.sb.view b = some { z.cons with stopped := s.sb.flag z.evt } := by simp only [SB.view, hz, Option.map_some]
    obtain ⟨g1, -⟩ := (fits he b r).pc _ hv
    simp only at g1
    obtain ⟨k', hk'⟩ := C25_never_blocked (cfg := cfg.rdCfg) (s := { z.cons with stopped := s.sb.flag z.evt }) (nextRd r) hne
    have hgo : ({ z.cons with stopped := s.sb.flag z.evt } : Cons K V).go (nextRd r) = some k' := by simpa only [Cons.step] using hk'
    have hy : s.sb.step cfg (.rd b (.go (nextRd r))) = some (s.sb.setBuf b { z with cons := k' }) := by
      simp only [SB.step, CAct.isReaders, if_true, hz, hk']
    simp only [hy]
    have hyb : (s.sb.setBuf b { z with cons := k' }).buf b = some { z with cons := k' } := by simp [SB.setBuf]
    rcases go_next (show PcOk (({ z.cons with stopped := s.sb.flag z.evt } : Cons K V).pc (nextRd r)) from g1) hgo with ⟨w0, e, w1, -⟩ | ⟨w1, -, w2⟩
    · have h1 : atRest (s.sb.setBuf b { z with cons := k' }) b (nextRd r) = true := by simp [atRest, hyb, w0]
      have h2 : lastEvt (s.sb.setBuf b { z with cons := k' }) b = some e := by simp [lastEvt, hyb, w1]
      refine ⟨_, by simp only [h1, h2]; rfl, ?_⟩
      have hn : s.sb.nexts c = .idle := hB.idle c (by rw [hc]; simp)
      simp only [leftOf, hc, setCall, if_true, SB.setBuf, hz, hn]
      split <;> omega
    · have h1 : atRest (s.sb.setBuf b { z with cons := k' }) b (nextRd r) = false := by simp [atRest, hyb, w1]
      refine ⟨_, by simp only [h1]; rfl, ?_⟩
      simp only at w2
      simp only [leftOf, hc, hyb, hz, w1, w2]
      simp
  | out =>
    have hn : s.sb.nexts c ≠ .idle := by rw [hc] at hin; simpa using hin
    cases hp : s.sb.nexts c with
    | idle => exact absurd hp hn
    | make =>
      cases hb : s.sb.sourceBuffer with
      | none =>
        have hy : s.sb.step cfg (.nextGo c) = some ((s.sb.setNext c .idle).say (.nextOn (.error .streamNotStarted))) := by
          simp only [SB.step, hp, hstart, if_true, hb]
        simp only [hy]
        refine ⟨_, by simp only [SB.setNext, SB.say, if_true]; rfl, ?_⟩
        simp [leftOf, hc, hp]
      | some b =>
        have hy : s.sb.step cfg (.nextGo c) = some (s.sb.setNext c (.store b)) := by simp only [SB.step, hp, hstart, if_true, hb]
        simp only [hy]
        refine ⟨_, by simp only [SB.setNext, if_true]; rfl, ?_⟩
        simp [leftOf, hc, hp]
    | store b =>
      have hy : s.sb.step cfg (.nextGo c) = some { s.sb.setNext c .use with nextReader := some b } := by simp only [SB.step, hp]
      simp only [hy]
      refine ⟨_, rfl, ?_⟩
      simp [leftOf, hc, hp, SB.setNext]
    | use =>
      cases hb : s.sb.nextReader with
      | none =>
        have hy : s.sb.step cfg (.nextGo c) = some ((s.sb.setNext c .idle).say (.nextOn (.error .typeError))) := by simp only [SB.step, hp, hb]
        simp only [hy]
        refine ⟨_, rfl, ?_⟩
        simp [leftOf, hc, hp, SB.setNext, SB.say]
      | some b =>
        have hy : s.sb.step cfg (.nextGo c) = some ((s.sb.setNext c .idle).say (.nextOn (.ok b))) := by simp only [SB.step, hp, hb]
        simp only [hy]
        refine ⟨_, rfl, ?_⟩
        simp [leftOf, hc, hp, setCall]

omit [ReflBEq V] in
/-- **C133**, for the whole of `next(stream_buffer)`: besides what the reader of the session answers, a call raises `StreamNotStartedError` exactly when it
finds no session, and `TypeError` when `stop()` took the reader away between the two statements of the call; nothing else. -/
theorem C133_next_raises {c : Nat} {e : PyErr} (hs : s.step cfg (.go c) = some s') (hr : s'.res = s.res ++ [.failed c e]) :
    (e = .streamNotStarted ∧ s.sb.start = none ∧ s.sb.sourceBuffer = none) ∨ (e = .typeError ∧ s.sb.nextReader = none) := by
  have hst := step_to hs
  clear hs
  cases hst with
  | call _ b r y h0 h => simp [setCall] at hr
  | ans _ b r y ev h0 h h1 h2 => simp at hr
  | busy _ b r y h0 h h1 => simp at hr
  | mk _ y b h0 hn h hy => simp at hr
  | mkFail _ y h0 hn h hy =>
    simp only [List.append_cancel_left_eq, List.cons.injEq, NEv.failed.injEq, true_and, and_true] at hr
    subst hr
    simp only [SB.step, hn] at h
    split at h
    · rename_i hstart
      cases hb : s.sb.sourceBuffer with
      | none => exact .inl ⟨rfl, hstart, rfl⟩
      | some b =>
        rw [hb] at h
        simp only [Option.some.injEq] at h
        subst h
        exact absurd (by simp [SB.setNext]) (hy b)
    · cases h
  | store _ y b h0 hn h => simp at hr
  | use _ y b h0 hn h hb => simp [setCall] at hr
  | useFail _ y h0 hn h hb =>
    simp only [List.append_cancel_left_eq, List.cons.injEq, NEv.failed.injEq, true_and, and_true] at hr
    exact .inr ⟨hr.symm, hb⟩

end NSB
end S2P
