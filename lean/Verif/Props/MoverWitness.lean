import Verif.Props.Mover
import Verif.Props.EndToEndWitness
/-
Concrete cases that meet C168 and C169, and what happens between the two assignments of `attach_reader`.
-/
namespace S2P
open Spec
namespace MSB

abbrev T := MSB Nat Nat Nat
abbrev B := MvAct Nat Nat Nat

def lift (as : List (SBAct Nat Nat Nat)) : List B := as.map .sb
def gos (n : Nat) : List B := List.replicate n (.go 0)

/-- Session 0 holds 1; reader 0 is made and a loop over it started, which gets 1, finds nothing more and sleeps. The session is stopped and session 1 started; 1 and 5 are
stored there. -/
def w0 : List B := lift (SB.wStart 7 ++ SB.wItem 0 1) ++ [.make 0, .loop 0] ++ gos 2 ++ gos 5 ++ lift (SB.wStop 0 ++ SB.wStart 8 ++ SB.wItem 1 1 ++ SB.wItem 1 5)

/-- The loop asleep in the stopped session is moved and goes on in session 1. -/
theorem C168_meets : ∃ (s1 s2 : T) (m1 m2 : Mover Nat Nat), MSB.init.exec (SB.mkCfg none true) (w0 ++ [.attach 0, .attachGo]) = some s1 ∧ s1.rds 0 = some m1 ∧ m1.buf = 1 ∧
    m1.pc = .sleep ∧ m1.rd.lastItem = some 1 ∧ s1.attaching = none ∧ Ev.eventSet 0 ∈ s1.sb.log ∧
    s1.exec (SB.mkCfg none true) (gos 4 ++ lift (SB.wItem 1 6) ++ gos 2 ++ lift (SB.wItem 1 7) ++ lift [.stop] ++ gos 6) = some s2 ∧ s2.rds 0 = some m2 ∧
    gotBy 0 s1.evs = [(0, 1)] ∧ gotBy 0 s2.evs = [(0, 1), (1, 5), (1, 6), (1, 7)] ∧ m2.pc = .check true ∧
    (s2.step (SB.mkCfg none true) (.go 0)).map (·.evs.getLast?) = some (some (0, .loopDone)) :=
  ⟨_, _, _, _, rfl, rfl, rfl, rfl, rfl, rfl, by decide +kernel, rfl, rfl, rfl, rfl, rfl, rfl⟩

/-- Session 1 has stopped with 5, 6 and 7 unread; the loop moved there gets them and ends. -/
theorem C168_meets_ends : ∃ (s1 s2 : T) (m1 : Mover Nat Nat), MSB.init.exec (SB.mkCfg none true) (w0 ++ lift (SB.wItem 1 6 ++ SB.wItem 1 7 ++ SB.wStop 1) ++ [.attach 0, .attachGo]) = some s1 ∧
    s1.rds 0 = some m1 ∧ s1.attaching = none ∧ m1.pc.looping = true ∧ m1.buf = 1 ∧ Ev.eventSet 1 ∈ s1.sb.log ∧ unread id (s1.sb.items 1) m1.rd.lastItem = [5, 6, 7] ∧
    s1.exec (SB.mkCfg none true) (gos 13) = some s2 ∧ storedIn 1 s2.sb.log = storedIn 1 s1.sb.log ∧ goes 0 (gos 13) = 13 ∧
    s2.evs = s1.evs ++ [(0, .item 1 (.one 5)), (0, .item 1 (.one 6)), (0, .item 1 (.one 7)), (0, .loopDone)] :=
  ⟨_, _, _, rfl, rfl, rfl, rfl, rfl, by decide +kernel, rfl, rfl, rfl, rfl, rfl⟩

/-- **C169** is false of the code: a loop that has found the buffer of a stopped session empty looks at `is_stopped` between the two assignments of `attach_reader`: it ends, although the reader
has been given the buffer of the running session 1 and has an item to read there. -/
theorem C169_refuted : ∃ (s1 s2 s3 : T) (m : Mover Nat Nat), MSB.init.exec (SB.mkCfg none true)
      (lift (SB.wStart 7 ++ SB.wItem 0 1) ++ [.make 0, .loop 0] ++ gos 2 ++ gos 3 ++ lift (SB.wStop 0 ++ SB.wStart 8 ++ SB.wItem 1 5) ++ [.attach 0]) = some s1 ∧
    s1.step (SB.mkCfg none true) (.go 0) = some s2 ∧ s2.evs = s1.evs ++ [(0, .loopDone)] ∧ s2.rds 0 = some m ∧ m.buf = 1 ∧
    Ev.eventSet 1 ∉ s2.sb.log ∧ s2.sb.running = true ∧ unread id (s2.sb.items m.buf) m.rd.lastItem = [5] ∧
    s2.step (SB.mkCfg none true) .attachGo = some s3 ∧ s3.evs = s2.evs ++ [(0, .attached 1)] :=
  ⟨_, _, _, _, rfl, rfl, rfl, rfl, rfl, by decide +kernel, rfl, rfl, rfl, rfl⟩

/-- **C168** a call of `next` that has looked up the buffer of session 0 when the reader is moved reads from there: after `attach_reader` has returned the consumer is handed
an item of session 0, and then those of session 1 with higher keys. -/
theorem C168_late_item : ∃ s : T, MSB.init.exec (SB.mkCfg none true)
      (lift (SB.wStart 7 ++ SB.wItem 0 3) ++ [.make 0, .next 0, .go 0] ++ lift (SB.wStop 0 ++ SB.wStart 8 ++ SB.wItem 1 1 ++ SB.wItem 1 4) ++
        [.attach 0, .attachGo, .go 0, .next 0, .go 0, .go 0]) = some s ∧
    s.evs = [(0, .attached 1), (0, .item 0 (.one 3)), (0, .item 1 (.one 4))] := ⟨_, rfl, rfl⟩

/-- Meets `C169_ends_with_its_session_partial`: the loop moved to session 1 ends there. -/
theorem C169_meets : ∃ (s s' : T) (m : Mover Nat Nat), MSB.init.exec (SB.mkCfg none true) (w0 ++ lift (SB.wStop 1) ++ [.attach 0, .attachGo] ++ gos 6) = some s ∧
    s.rds 0 = some m ∧ m.buf = 1 ∧ s.attaching = none ∧ s.step (SB.mkCfg none true) (.go 0) = some s' ∧ s'.evs = s.evs ++ [(0, .loopDone)] :=
  ⟨_, _, _, rfl, rfl, rfl, rfl, rfl, rfl⟩

end MSB
end S2P
