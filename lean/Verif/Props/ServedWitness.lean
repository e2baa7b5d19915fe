import Verif.Props.KeepUp
import Verif.Props.LoopWitness
/- Cases for Props/Served.lean and Props/KeepUp.lean. -/
namespace S2P
open Spec
namespace SB

/-- Meets C94: `maxlen=1`; thread 0 outlives the restart, both threads store in the buffer of session 1. -/
theorem C94_meets : ∃ s : S, SB.init.exec (mkCfg (some 1) true) (wStart 7 ++ [.thr 0, .thr 0] ++ wRestart 8 ++ [.readOk 0 (some 5), .thr 0, .thr 0] ++
      wItem 1 6 ++ wItem 0 7) = some s ∧ storedIn 1 s.log = [5, 6, 7] ∧ s.items 1 = [7] ∧ Ev.stored 0 1 7 ∈ s.log ∧ Ev.stored 1 1 6 ∈ s.log :=
  ⟨_, rfl, rfl, rfl, by decide +kernel, by decide +kernel⟩

/-- A blocking read that found nothing, then 1 is stored (`maxlen=1`). -/
def wBlk : List A := wStart 7 ++ [.rd 0 (.callRead 0 none none none), .rd 0 (.go 0)] ++ wItem 0 1

/-- It looks at the stop event, sleeps; 2 replaces 1; it reads. -/
def wBlk2 : List A := [.rd 0 (.go 0)] ++ wItem 0 2 ++ [.rd 0 (.go 0), .rd 0 (.go 0)]

/-- Meets C95: the item that was unread has been evicted, the read returns the newer one. -/
theorem C95_meets : ∃ (s s' : S) (c c' : Cons Nat Nat), SB.init.exec (mkCfg (some 1) true) wBlk = some s ∧ s.view 0 = some c ∧
    s.exec (mkCfg (some 1) true) wBlk2 = some s' ∧ (∀ a ∈ wBlk2, OneUser 0 0 a) ∧ (∀ a ∈ wBlk2, isLeave 0 0 a = false) ∧ Waits (c.pc 0) ∧ left (c.pc 0) = 3 ∧ unreadOf c.ch 0 = [1] ∧
    wBlk2.countP (isGo 0 0) = 3 ∧ s'.view 0 = some c' ∧ c'.stopped = false ∧ c'.evtsOf 0 = [.readRet (.one 2)] :=
  ⟨_, _, _, _, rfl, rfl, rfl, oneUser_of_check rfl, stay_of_check rfl, .inl rfl, rfl, rfl, rfl, rfl, rfl, rfl⟩

/-- A loop on the same stream that has just begun. -/
theorem C95_meets_loop : ∃ (s s' : S) (c c' : Cons Nat Nat), SB.init.exec (mkCfg (some 1) true) (wStart 7 ++ wItem 0 1 ++ [.rd 0 (.callIter 0)]) = some s ∧
    s.view 0 = some c ∧ s.exec (mkCfg (some 1) true) [.rd 0 (.go 0)] = some s' ∧ Waits (c.pc 0) ∧ Looks (c.pc 0) = false ∧
    left (c.pc 0) = 1 ∧ unreadOf c.ch 0 = [1] ∧ s'.view 0 = some c' ∧ c'.evtsOf 0 = [.yielded (.one 1)] :=
  ⟨_, _, _, _, rfl, rfl, rfl, trivial, rfl, rfl, rfl, rfl, rfl⟩

/-- Check that something holds at every moment. -/
def alwaysOk (cfg : SBCfg Nat Nat) (P : S → Bool) (s : S) : List A → Bool
  | [] => P s
  | a :: as => P s && match s.step cfg a with
    | some s' => alwaysOk cfg P s' as
    | none => true

theorem always_of_check {cfg : SBCfg Nat Nat} {P : S → Bool} (as : List A) : ∀ s : S, alwaysOk cfg P s as = true →
    ∀ as1 as2 s1, as = as1 ++ as2 → s.exec cfg as1 = some s1 → P s1 = true := by
  induction as with
  | nil =>
    intro s h as1 as2 s1 e he
    have : as1 = [] := by simp at e; exact e.1
    subst this
    simp only [SB.exec, Option.some.injEq] at he; subst he
    exact h
  | cons a as ih =>
    intro s h as1 as2 s1 e he
    simp only [alwaysOk, Bool.and_eq_true] at h
    cases as1 with
    | nil => simp only [SB.exec, Option.some.injEq] at he; subst he; exact h.1
    | cons a' as1 =>
      simp only [List.cons_append, List.cons.injEq] at e
      obtain ⟨rfl, e⟩ := e
      simp only [SB.exec] at he
      split at he
      · rename_i s2 hs
        have h2 := h.2
        rw [hs] at h2
        exact ih s2 h2 as1 as2 s1 e he
      · simp at he

/-- Never more than `m` behind. -/
def near (b i m : Nat) (s : S) : Bool := match s.view b with
  | some c => decide ((storedIn b s.log).length ≤ (received c i).length + m)
  | none => true

/-- `maxlen=2`; a loop gets 1 and 2 when 3 is stored and 1 is gone, then 4 is stored. -/
def wNear : List A := wStart 7 ++ [.rd 0 (.callIter 0)] ++ wItem 0 1 ++ wItem 0 2 ++ [.rd 0 (.go 0), .rd 0 (.go 0)] ++ wItem 0 3 ++ [.rd 0 (.go 0)] ++ wItem 0 4

/-- Four steps of it. -/
def wNear2 : List A := List.replicate 4 (.rd 0 (.go 0))

/-- Meets C96: the buffer has room for two, four items went through. -/
theorem C96_meets : ∃ (s s' : S) (c c' : Cons Nat Nat), SB.init.exec (mkCfg (some 2) true) wNear = some s ∧ s.view 0 = some c ∧
    s.exec (mkCfg (some 2) true) wNear2 = some s' ∧ (∀ a ∈ wNear ++ wNear2, OneUser 0 0 a) ∧ (∀ a ∈ wNear2, isLeave 0 0 a = false) ∧
    (∀ as1 as2 s1 c1, wNear ++ wNear2 = as1 ++ as2 → SB.init.exec (mkCfg (some 2) true) as1 = some s1 → s1.view 0 = some c1 →
      (storedIn 0 s1.log).length ≤ (received c1 0).length + 2) ∧ BetweenReads (c.pc 0) ∧ received c 0 = [1, 2] ∧ unreadOf c.ch 0 = [3, 4] ∧
    s.items 0 = [3, 4] ∧ wNear2.countP (isGo 0 0) = 4 ∧ s'.view 0 = some c' ∧ received c' 0 = [1, 2, 3, 4] := by
  refine ⟨_, _, _, _, rfl, rfl, rfl, oneUser_of_check rfl, stay_of_check rfl, fun as1 as2 s1 c1 e h1 h2 => ?_, trivial, rfl, rfl, rfl, rfl, rfl, rfl⟩
  have := always_of_check (P := near 0 0 2) _ SB.init rfl as1 as2 s1 e h1
  simpa [near, h2] using this

/-- Meets C97: `maxlen=2`; 1 was received, 2 was evicted unread, 3 and 4 can be read. -/
theorem C97_meets : ∃ (s : S) (c : Cons Nat Nat), SB.init.exec (mkCfg (some 2) true)
      (wStart 7 ++ wItem 0 1 ++ [.rd 0 (.callNext 0), .rd 0 (.go 0)] ++ wItem 0 2 ++ wItem 0 3 ++ wItem 0 4) = some s ∧ s.view 0 = some c ∧
    storedIn 0 s.log = [1, 2, 3, 4] ∧ received c 0 = [1] ∧ unreadOf c.ch 0 = [3, 4] := ⟨_, _, rfl, rfl, rfl, rfl, rfl⟩

end SB
end S2P
