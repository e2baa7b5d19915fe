import Verif.Props.SourceThreads
/- Concrete executions for C69: threads opening and closing readers of one StreamSource at the same time. -/
namespace S2P.MSrcW
open MSrc Spec
open Src (wcfg live)

abbrev A := MAct Nat Nat Nat
abbrev S := MSrc Nat Nat Nat

def gos (t n : Nat) : List A := List.replicate n (.go t)

/-- `start()` of stream buffer `b` runs to its end; the same when it has a live session to stop first. -/
def starts (b : Nat) : List A := List.replicate 5 (.bg b .startGo) ++ [.bg b .openOk, .bg b (.bufOk 7), .bg b .startGo]
def restarts (b : Nat) : List A := List.replicate 7 (.bg b .startGo) ++ [.bg b .openOk, .bg b (.bufOk 7), .bg b .startGo]

/-- A first `open_reader()` by thread `t`, and a further one. -/
def first (t : Nat) : List A := .call t .openReader :: gos t 4 ++ starts 0 ++ gos t 5
def more (t : Nat) : List A := .call t .openReader :: gos t 6

/-- `close()` of reader `r` by thread `t`, if others are open / if it is the last one. -/
def close (t r : Nat) : List A := .call t (.close r) :: gos t 3
def closeLast (t r : Nat) : List A := .call t (.close r) :: gos t 5

/-- Calls are made one after the other. -/
def seq : List (HEv MCall Unit) → Bool
  | [] => true
  | .inv a _ :: .ret b _ :: l => a == b && seq l
  | _ => false

theorem seq_sound (h : List (HEv MCall Unit)) (hs : seq h = true) : NonOverlapping (fun _ => True) h := by
  intro h1
  induction h using seq.induct generalizing h1 with
  | case1 => intro h2 h3 a c b c' e; simp at e
  | case2 a0 c0 b0 r0 l ih =>
    simp only [seq, Bool.and_eq_true, beq_iff_eq] at hs
    obtain ⟨rfl, hs⟩ := hs
    intro h2 h3 a c b c' e _ _
    match h1 with
    | [] =>
      simp only [List.nil_append, List.cons_append, List.cons.injEq, HEv.inv.injEq] at e
      obtain ⟨⟨rfl, rfl⟩, e⟩ := e
      cases h2 with
      | nil => simp at e
      | cons y h2 =>
        simp only [List.cons_append, List.cons.injEq] at e
        exact ⟨r0, by simp [e.1]⟩
    | [_] => simp at e
    | _ :: _ :: h1 =>
      simp only [List.cons_append, List.cons.injEq] at e
      exact ih hs h1 h2 h3 a c b c' e.2.2 trivial trivial
  | case3 h k1 k2 => unfold seq at hs; split at hs; exacts [(k1 rfl).elim, (k2 _ _ _ _ _ rfl).elim, by cases hs]

/-- The hypotheses of the C69 theorems on calls that do not overlap are met: threads 0 and 1 open a reader each, thread 1 closes that of thread 0 and
thread 0 the other one, on which the stream is stopped. -/
theorem C69_example : ∃ s : S, MSrc.init.exec wcfg (first 0 ++ more 1 ++ close 1 0 ++ closeLast 0 1) = some s ∧
    NonOverlapping (fun _ => True) s.hist ∧ closedOnce s.log ∧
    s.log = [.bufferMade (some 100, true), .opened 0 0 true, .opened 1 0 true, .closed 0 (.ok ()), .closed 1 (.ok ()), .stopped] := by
  have h : ∃ s : S, MSrc.init.exec wcfg (first 0 ++ more 1 ++ close 1 0 ++ closeLast 0 1) = some s ∧
    seq s.hist = true ∧
    s.log = [.bufferMade (some 100, true), .opened 0 0 true, .opened 1 0 true, .closed 0 (.ok ()), .closed 1 (.ok ()), .stopped] := ⟨_, rfl, rfl, rfl⟩
  obtain ⟨s, h1, h2, h3⟩ := h
  exact ⟨s, h1, seq_sound _ h2, by simp [h3, closedOnce]; grind, h3⟩

/-- The hypotheses of `C69_first_alone_partial` are met: thread 0 opens a reader, then threads 1 and 2 open readers at the same time while thread 0
closes its own. -/
theorem C69_first_alone_example : ∃ s1 s2 : S, MSrc.init.exec wcfg (first 0) = some s1 ∧ NonOverlapping (fun _ => True) s1.hist ∧
    (∀ id c, HEv.inv id c ∈ s1.hist → HEv.ret id () ∈ s1.hist) ∧ SrcEv.opened 0 0 true ∈ s1.log ∧
    s1.exec wcfg ([.call 1 .openReader, .go 1, .call 2 .openReader, .call 0 (.close 0), .go 2, .go 1, .go 2] ++ gos 1 4 ++ gos 2 4 ++ gos 0 3) = some s2 ∧
    s2.log = s1.log ++ [.opened 1 0 true, .opened 2 0 true, .closed 0 (.ok ())] := by
  have h : ∃ s1 s2 : S, MSrc.init.exec wcfg (first 0) = some s1 ∧ seq s1.hist = true ∧
    s1.hist = [.inv 0 .openReader, .ret 0 ()] ∧ s1.log = [.bufferMade (some 100, true), .opened 0 0 true] ∧
    s1.exec wcfg ([.call 1 .openReader, .go 1, .call 2 .openReader, .call 0 (.close 0), .go 2, .go 1, .go 2] ++ gos 1 4 ++ gos 2 4 ++ gos 0 3) = some s2 ∧
    s2.log = s1.log ++ [.opened 1 0 true, .opened 2 0 true, .closed 0 (.ok ())] := ⟨_, _, rfl, rfl, rfl, rfl, rfl, rfl⟩
  obtain ⟨s1, s2, h1, h2, h3, h4, h5, h6⟩ := h
  exact ⟨s1, s2, h1, seq_sound _ h2, by simp [h3], by simp [h4], h5, h6⟩

/-- C69 is false: two threads open a reader at the same time, both find no stream buffer, make one each and open the source twice; both readers
read the second one. When both are closed, the first stream buffer still runs, with nobody to stop it. -/
theorem C69_refuted_two_buffers : ∃ (as : List A) (s : S) (c c' : Option Nat × Bool) (x x' : SB Nat Nat Nat), MSrc.init.exec wcfg as = some s ∧
    s.bufs 0 = some (c, x) ∧ s.bufs 1 = some (c', x') ∧ x.log.countP isOpen = 1 ∧ x'.log.countP isOpen = 1 ∧
    closedOnce s.log ∧ fromSource s.log 0 ∧ fromSource s.log 1 ∧ (∀ r, ¬ isOpenReader s.log r) ∧ (∀ id c, HEv.inv id c ∈ s.hist → HEv.ret id () ∈ s.hist) ∧
    s.slot = some 1 ∧ live x' 0 = false ∧ live x 0 = true ∧ x.thr 0 = .check := by
  have h : ∃ (s : S) (c c' : Option Nat × Bool) (x x' : SB Nat Nat Nat), MSrc.init.exec wcfg ([.call 0 .openReader, .go 0, .call 1 .openReader, .go 1] ++
      gos 0 3 ++ gos 1 3 ++ starts 0 ++ starts 1 ++ gos 0 5 ++ gos 1 5 ++ close 0 0 ++ closeLast 1 1) = some s ∧
    s.bufs 0 = some (c, x) ∧ s.bufs 1 = some (c', x') ∧ x.log.countP isOpen = 1 ∧ x'.log.countP isOpen = 1 ∧
    s.log = [.bufferMade (some 100, true), .bufferMade (some 100, true), .opened 0 0 true, .opened 1 0 true, .closed 0 (.ok ()), .closed 1 (.ok ()), .stopped] ∧
    s.hist = [.inv 0 .openReader, .inv 1 .openReader, .ret 0 (), .ret 1 (), .inv 2 (.close 0), .ret 2 (), .inv 3 (.close 1), .ret 3 ()] ∧
    s.slot = some 1 ∧ live x' 0 = false ∧ live x 0 = true ∧ x.thr 0 = .check :=
    ⟨_, _, _, _, _, rfl, rfl, rfl, rfl, rfl, rfl, rfl, rfl, rfl, rfl, rfl⟩
  obtain ⟨s, c, c', x, x', h1, h2, h3, h4, h5, h6, h7, h8⟩ := h
  refine ⟨_, s, c, c', x, x', h1, h2, h3, h4, h5, ?_, ?_, ?_, ?_, ?_, h8⟩
  · simp [h6, closedOnce]; grind
  · simp [h6, fromSource]
  · simp [h6, fromSource]
  · rintro r ⟨⟨b, lv, h⟩, hc⟩
    have := hc (.ok ())
    simp [h6] at h this; omega
  · simp [h7]; grind

/-- C69 is false: both threads call `start()` on the stream buffer made last; the second call ends the session of the first reader, which is open. -/
theorem C69_refuted_session_ended : ∃ (as : List A) (s : S) (c : Option Nat × Bool) (x : SB Nat Nat Nat), MSrc.init.exec wcfg as = some s ∧
    s.slot = some 1 ∧ s.bufs 1 = some (c, x) ∧ s.home 0 = (1, 0) ∧ isOpenReader s.log 0 ∧ SrcEv.opened 0 0 true ∈ s.log ∧ SrcEv.stopped ∉ s.log ∧
    x.log.any isDeath = false ∧ live x 0 = false ∧ x.log.countP isOpen = 2 := by
  have h : ∃ (s : S) (c : Option Nat × Bool) (x : SB Nat Nat Nat), MSrc.init.exec wcfg ([.call 0 .openReader, .go 0, .call 1 .openReader, .go 1] ++
      gos 0 1 ++ gos 1 1 ++ gos 0 2 ++ starts 1 ++ gos 0 5 ++ gos 1 2 ++ restarts 1 ++ gos 1 5) = some s ∧
    s.slot = some 1 ∧ s.bufs 1 = some (c, x) ∧ s.home 0 = (1, 0) ∧
    s.log = [.bufferMade (some 100, true), .bufferMade (some 100, true), .opened 0 0 true, .opened 1 1 true] ∧
    x.log.any isDeath = false ∧ live x 0 = false ∧ x.log.countP isOpen = 2 :=
    ⟨_, _, _, rfl, rfl, rfl, rfl, rfl, rfl, rfl, rfl⟩
  obtain ⟨s, c, x, h1, h2, h3, h4, h5, h6⟩ := h
  exact ⟨_, s, c, x, h1, h2, h3, h4, by simp [h5, isOpenReader, fromSource], by simp [h5], by simp [h5], h6⟩

/-- C69 is false: `open_reader()` raises StreamNotStartedError because another thread has made the stream buffer and not yet started it, although the
source can be opened. -/
theorem C69_refuted_not_started : ∃ (as : List A) (s : S), MSrc.init.exec wcfg as = some s ∧
    s.log = [.bufferMade (some 100, true), .openError .streamNotStarted, .opened 0 0 true] :=
  ⟨[.call 0 .openReader, .go 0, .go 0] ++ [.call 1 .openReader] ++ gos 1 3 ++ gos 0 2 ++ starts 0 ++ gos 0 5, _, rfl, rfl⟩

/-- C69 is false: two of three `open_reader()` overlap and one count is lost; closing two readers stops the stream of the third. -/
theorem C69_refuted_lost_open : ∃ (as : List A) (s : S) (c : Option Nat × Bool) (x : SB Nat Nat Nat), MSrc.init.exec wcfg as = some s ∧
    s.slot = some 0 ∧ s.bufs 0 = some (c, x) ∧ closedOnce s.log ∧ isOpenReader s.log 2 ∧ SrcEv.opened 2 0 true ∈ s.log ∧ SrcEv.stopped ∈ s.log ∧
    x.log.any isDeath = false ∧ live x 0 = false := by
  have h : ∃ (s : S) (c : Option Nat × Bool) (x : SB Nat Nat Nat), MSrc.init.exec wcfg (first 0 ++ [.call 1 .openReader] ++ gos 1 4 ++
      [.call 2 .openReader] ++ gos 2 4 ++ gos 1 2 ++ gos 2 2 ++ close 0 0 ++ closeLast 1 1) = some s ∧
    s.slot = some 0 ∧ s.bufs 0 = some (c, x) ∧
    s.log = [.bufferMade (some 100, true), .opened 0 0 true, .opened 1 0 true, .opened 2 0 true, .closed 0 (.ok ()), .closed 1 (.ok ()), .stopped] ∧
    x.log.any isDeath = false ∧ live x 0 = false :=
    ⟨_, _, _, rfl, rfl, rfl, rfl, rfl, rfl⟩
  obtain ⟨s, c, x, h1, h2, h3, h5, h6⟩ := h
  exact ⟨_, s, c, x, h1, h2, h3, by simp [h5, closedOnce]; grind, by simp [h5, isOpenReader, fromSource], by simp [h5], by simp [h5], h6⟩

/-- C69 is false: two `close()` overlap and one count is lost; all readers are closed and the stream runs on. -/
theorem C69_refuted_lost_close : ∃ (as : List A) (s : S) (c : Option Nat × Bool) (x : SB Nat Nat Nat), MSrc.init.exec wcfg as = some s ∧
    s.slot = some 0 ∧ s.bufs 0 = some (c, x) ∧ closedOnce s.log ∧ fromSource s.log 0 ∧ fromSource s.log 1 ∧ (∀ r, ¬ isOpenReader s.log r) ∧
    (∀ id c, HEv.inv id c ∈ s.hist → HEv.ret id () ∈ s.hist) ∧ live x 0 = true ∧ x.thr 0 = .check := by
  have h : ∃ (s : S) (c : Option Nat × Bool) (x : SB Nat Nat Nat), MSrc.init.exec wcfg (first 0 ++ more 1 ++ [.call 0 (.close 0), .go 0, .call 1 (.close 1), .go 1] ++
      gos 0 2 ++ gos 1 2) = some s ∧
    s.slot = some 0 ∧ s.bufs 0 = some (c, x) ∧
    s.log = [.bufferMade (some 100, true), .opened 0 0 true, .opened 1 0 true, .closed 0 (.ok ()), .closed 1 (.ok ())] ∧
    s.hist = [.inv 0 .openReader, .ret 0 (), .inv 1 .openReader, .ret 1 (), .inv 2 (.close 0), .inv 3 (.close 1), .ret 2 (), .ret 3 ()] ∧
    live x 0 = true ∧ x.thr 0 = .check :=
    ⟨_, _, _, rfl, rfl, rfl, rfl, rfl, rfl, rfl⟩
  obtain ⟨s, c, x, h1, h2, h3, h5, h6, h7⟩ := h
  exact ⟨_, s, c, x, h1, h2, h3, by simp [h5, closedOnce]; grind, by simp [h5, fromSource], by simp [h5, fromSource], fun r hr => by
    obtain ⟨⟨b, lv, h⟩, hc⟩ := hr
    have := hc (.ok ())
    simp [h5] at h this; omega, by simp [h6]; grind, h7⟩

/-- C69 is false: `close()` of a reader raises AttributeError because another thread has just put a stream buffer that is not started into the place
of the running one. -/
theorem C69_refuted_close_raises : ∃ (as : List A) (s : S), MSrc.init.exec wcfg as = some s ∧
    s.log = [.bufferMade (some 100, true), .opened 0 0 true, .bufferMade (some 100, true), .closed 0 (.error .attributeError)] :=
  ⟨[.call 0 .openReader, .go 0] ++ first 1 ++ gos 0 1 ++ [.call 1 (.close 0)] ++ gos 1 4, _, rfl, rfl⟩

end S2P.MSrcW
