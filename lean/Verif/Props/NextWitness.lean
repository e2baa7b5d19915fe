import Verif.Props.ShortSession
import Verif.Props.LoopWitness
/-
Concrete executions for C114-C117.
-/
namespace S2P
open Spec
namespace NSB

abbrev NS := NSB Nat Nat Nat

/-- Steps that are not `next(stream_buffer)`. -/
def plain (l : List SB.A) : List (NAct Nat Nat Nat) := l.map .sb
/-- Caller `c` calls `next(stream_buffer)`: with a reader to be made first / with the reader there. -/
def firstNext (c : Nat) : List (NAct Nat Nat Nat) := [.next c, .go c, .go c, .go c, .go c, .go c]
def laterNext (c : Nat) : List (NAct Nat Nat Nat) := [.next c, .go c, .go c, .go c]

/-- **C114** fails after `stop()`: it forgets the reader (line 151), so the next call makes a new one, which starts at the oldest item retained.
One caller, one session, one item: it is returned twice. -/
theorem C114_refuted : ∃ s : NS, NSB.init.exec (SB.mkCfg (some 9) true)
      (plain (SB.wStart 7 ++ SB.wItem 0 1) ++ firstNext 0 ++ plain (SB.wStop 0) ++ firstNext 0) = some s ∧
    gotten s.res = [1, 1] ∧ storedIn 0 s.sb.log = [1] ∧ s.sb.sourceBuffer = some 0 :=
  ⟨_, rfl, rfl, rfl, rfl⟩

/-- **C114** fails when two threads share the stream buffer: both find no reader and make one each (line 161 against line 162). Nobody calls
`stop()`. -/
theorem C114_refuted_two : ∃ s : NS, NSB.init.exec (SB.mkCfg (some 9) true)
      (plain (SB.wStart 7 ++ SB.wItem 0 1) ++ [.next 0, .next 1, .go 0, .go 0, .go 0, .go 0, .go 0] ++ [.go 1, .go 1, .go 1, .go 1, .go 1]) = some s ∧
    s.res = [.got 0 0 0 (.next (.one 1)), .got 1 0 1 (.next (.one 1))] ∧ storedIn 0 s.sb.log = [1] :=
  ⟨_, rfl, rfl, rfl⟩

/-- One caller: an item, an item, nothing new, an item; then `read()` raises and the thread ends. -/
def wOwn : List (NAct Nat Nat Nat) := firstNext 0 ++ plain (SB.wItem 1 2) ++ laterNext 0 ++ laterNext 0 ++ [.go 0] ++ plain (SB.wItem 1 3) ++
  laterNext 0 ++ plain (SB.wItem 1 4 ++ [.thr 1, .thr 1, .readRaise 1 .runtimeError, .thr 1, .thr 1, .close 1 true]) ++ laterNext 0 ++ laterNext 0 ++ [.go 0]

theorem alone_of_check {c : Nat} {l : List (NAct Nat Nat Nat)}
    (h : l.all (fun | .next c' | .go c' => c' == c | .sb .start | .sb .stop => false | _ => true) = true) : ∀ a ∈ l, Alone c a := by
  intro a ha
  have := List.all_eq_true.1 h a ha
  unfold Alone
  split <;> simp_all

/-- An earlier session was read and stopped; a new one was started and has an item. -/
def wBefore : List (NAct Nat Nat Nat) := plain (SB.wStart 7 ++ SB.wItem 0 5) ++ firstNext 3 ++ plain (SB.wStop 0 ++ SB.wStart 8 ++ SB.wItem 1 1)

/-- Meets C115, C117: a resting state; then one caller, who after the thread ended is handed the item left in the buffer, then `StopIteration`. -/
theorem C115_meets (m : Option Nat) (hm : m = none ∨ m = some 4) : ∃ (s s' : NS), NSB.init.exec (SB.mkCfg m true) wBefore = some s ∧ Resting s 1 ∧
    s.made = 1 ∧ (∀ a ∈ wOwn, Alone 0 a) ∧ s.exec (SB.mkCfg m true) wOwn = some s' ∧ storedIn 1 s'.sb.log = [1, 2, 3, 4] ∧
    s'.res = s.res ++ [.got 0 1 1 (.next (.one 1)), .got 0 1 1 (.next (.one 2)), .got 0 1 1 (.next .none), .got 0 1 1 (.next (.one 3)),
      .got 0 1 1 (.next (.one 4)), .got 0 1 1 .stopIteration] := by
  rcases hm with rfl | rfl
  all_goals
    exact ⟨_, _, rfl, ⟨rfl, rfl, rfl, rfl, fun c => by match c with | 0 | 1 | 2 | 3 => exact ⟨rfl, rfl⟩ | c + 4 => exact ⟨rfl, rfl⟩⟩, rfl, alone_of_check rfl,
      rfl, rfl, rfl⟩

/-- Meets C115 (returns): caller 0 is in the middle of its first call. -/
example : ∃ s : NS, NSB.init.exec (SB.mkCfg none true) (plain (SB.wStart 7 ++ SB.wItem 0 1) ++ [.next 0, .go 0, .go 0]) = some s ∧
    s.sb.nexts 0 ≠ .idle ∧ s.sb.start = none ∧ (∀ c' b r, s.calls 0 = .call b r → s.calls c' ≠ .wait b r) :=
  ⟨_, rfl, by decide, rfl, fun _ _ _ h => by cases h⟩

end NSB

namespace SB

/-- Reader 0 of session 0 is asked `next` when nothing is stored yet; then two items come; then it is asked again. -/
def wRecord : List A := wStart 7 ++ [.rd 0 (.callNext 0), .rd 0 (.go 0), .rd 0 (.go 0)] ++ wItem 0 1 ++ [.rd 0 (.callNext 0), .rd 0 (.go 0)] ++ wItem 0 2

/-- **C116** fails: the recording loop calls `next(buffer_reader)` as many times as `maxlen` (here 2), while the stream runs; the first call finds
nothing and returns `None`, the loop ends with item 2 stored and not handed out. -/
theorem C116_refuted : ∃ (s : S) (c : Cons Nat Nat), SB.init.exec (mkCfg (some 2) true) wRecord = some s ∧ s.view 0 = some c ∧
    c.stopped = false ∧ storedIn 0 s.log = [1, 2] ∧ c.evts = [(0, .next .none), (0, .next (.one 1))] :=
  ⟨_, _, rfl, rfl, rfl, rfl, rfl⟩

/-- Meets C117: the same execution: what was received, then what can still be read, is what was stored. -/
theorem C117_meets : ∃ (s : S) (c : Cons Nat Nat), SB.init.exec (mkCfg (some 2) true) wRecord = some s ∧ s.view 0 = some c ∧
    (SB.init : S).Settled (mkCfg (some 2) true) wRecord ∧ (∀ a ∈ wRecord, OneUser 0 0 a) ∧ (storedIn 0 s.log).length ≤ 2 ∧ (dataRead 0 s.log).length ≤ 2 ∧
    received c 0 = [1] ∧ unreadOf c.ch 0 = [2] :=
  ⟨_, _, rfl, rfl, settled_of_check rfl, oneUser_of_check rfl, by decide +kernel, by decide +kernel, rfl, rfl⟩

/-- **C117** needs the bound: with room for one item only, the first of two is evicted before it is read. -/
theorem C117_bound_needed : ∃ (s : S) (c : Cons Nat Nat), SB.init.exec (mkCfg (some 1) true) (wStart 7 ++ wItem 0 1 ++ wItem 0 2 ++
      [.rd 0 (.callNext 0), .rd 0 (.go 0)]) = some s ∧ s.view 0 = some c ∧ storedIn 0 s.log = [1, 2] ∧ received c 0 = [2] ∧ unreadOf c.ch 0 = [] :=
  ⟨_, _, rfl, rfl, rfl, rfl, rfl⟩

end SB
end S2P
