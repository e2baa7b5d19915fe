import Mathlib.Order.Nat
import Mathlib.Tactic.IntervalCases
import Verif.Props.AgedReader
/-
C171, C172: witnesses.
-/
namespace S2P.AgedCh
open Spec

/-- Items are objects 1, 2, 3, ... whose key is at first their number. -/
def arKey : Nat → Nat := fun v => v

/-- Object `o` has been changed and now has key `k`. -/
def arKey' (o k : Nat) : Nat → Nat := fun v => if v = o then k else v

/-- Readers with the default settings. -/
def arCfg : Nat → Cfg := fun _ => Cfg.default

def arEq : Nat → Nat → Bool := fun a b => a == b

/-- Objects 1, 2, 3, 4 are stored. -/
def arStored : List (Happening Nat Nat) := [.call (.append 1), .call (.append 2), .call (.append 3), .call (.append 4)]

def arRead (i : Nat) (n : Int) : Happening Nat Nat := .call (.rd i (.read (some n) none none none))

/-- What reader `i` is handed in a history. -/
def arGot (i : Nat) (hs : List (Happening Nat Nat)) : List Nat :=
  delivered arCfg i (callsOf hs) ((init arKey arEq (.ok none) none arCfg).run hs).2

/-- Reader 0 reads 1, and its consumer gives object 1 the key 9; then it reads 2 and 3 and gives object 3 the key 0; then 5 is stored, and it reads on.
Between, reader 1 reads. -/
def arLife : List (Happening Nat Nat) :=
  arStored ++ [arRead 0 1, .change (arKey' 1 9) arEq, arRead 0 2, .change (fun v => if v = 1 then 9 else if v = 3 then 0 else v) arEq, arRead 1 1,
    .call (.append 5), arRead 0 3]

theorem arLife_kept : UnreadKept 0 arKey none arCfg arLife := by
  intro hs1 op hs2 h
  have hl : hs1.length < 11 := by have := congrArg List.length h; simp [arLife, arStored] at this; omega
  have e1 : hs1 = arLife.take hs1.length := by rw [h]; simp
  have e2 : arLife[hs1.length]? = some (.call (.rd 0 op)) := by rw [h]; simp
  generalize hs1.length = k at hl e1 e2
  subst e1
  have : ∀ k < 11, ∀ op, arLife[k]? = some (.call (.rd 0 op)) →
      ∀ n ∈ unread (fun n : Nat × Nat => n.1) (notesAfter 0 arKey none arCfg (arLife.take k)).items ((notesAfter 0 arKey none arCfg (arLife.take k)).cur 0),
        keyAfter arKey (arLife.take k) n.2 = n.1 := by
    intro k hk op hop
    have hcases : k = 4 ∨ k = 6 ∨ k = 10 := by
      interval_cases k <;> simp [arLife, arStored, arRead] at hop <;> omega
    rcases hcases with rfl | rfl | rfl <;> decide +kernel
  exact this k hl op e2

/-- **C171** meets: objects 1 and 3 change after reader 0 has read them, to a larger and to a smaller key; it is handed 1, 2, 3, 4, 5. -/
theorem C171_meets : UnreadKept 0 arKey none arCfg arLife ∧ (∀ op, .call (.rd 0 op) ∈ arLife → (asNoted op).isSome = true) ∧
    (∀ k e, Happening.change k e ∈ arLife → ∀ v, e v v = true) ∧ arGot 0 arLife = [1, 2, 3, 4, 5] := by
  refine ⟨arLife_kept, ?_, ?_, by decide +kernel⟩
  · intro op h
    simp only [arLife, arStored, arRead, List.cons_append, List.nil_append, List.mem_cons, Happening.call.injEq, ChOp.rd.injEq, reduceCtorEq, false_or, or_false,
      List.not_mem_nil] at h
    rcases h with ⟨-, rfl⟩ | ⟨-, rfl⟩ | ⟨-, rfl⟩ | ⟨-, rfl⟩ <;> rfl
  · intro k e h v
    simp only [arLife, arStored, arRead, List.cons_append, List.nil_append, List.mem_cons, Happening.change.injEq, reduceCtorEq, false_or, or_false,
      List.not_mem_nil] at h
    rcases h with ⟨-, rfl⟩ | ⟨-, rfl⟩ <;> simp [arEq]

/-- **C172** refuted: reader 1's consumer gives the object it got, 1, the key 3, and reader 0, which reads it later, never gets 2 and 3 although nothing
dropped them. -/
theorem C172_refuted_skipped :
    let hs := arStored ++ [arRead 1 1, .change (arKey' 1 3) arEq, arRead 0 1, arRead 0 1]
    arGot 0 hs = [1, 4] ∧ ((init arKey arEq (.ok none) none arCfg).run hs).1.ch.buf.items = [1, 2, 3, 4] := by
  decide +kernel

/-- **C172** refuted: reader 1's consumer gives object 2 the key 0, and reader 0 is handed 1 and 2 again and again. -/
theorem C172_refuted_twice :
    arGot 0 (arStored ++ [arRead 1 2, .change (arKey' 2 0) arEq, arRead 0 1, arRead 0 1, arRead 0 1, arRead 0 1, arRead 0 1]) = [1, 2, 1, 2, 1] := by
  decide +kernel

/-- **C172** refuted: reader 1's consumer gives object 1 the key 9, and `read(2)` of reader 0 raises `ValueError` however often it is called, with four unread
items in the buffer. -/
theorem C172_refuted_stuck :
    restrictOuts (· == 0) (callsOf (arStored ++ [arRead 1 1, .change (arKey' 1 9) arEq, arRead 0 2, arRead 0 2, arRead 0 2]))
      ((init arKey arEq (.ok none) none arCfg).run (arStored ++ [arRead 1 1, .change (arKey' 1 9) arEq, arRead 0 2, arRead 0 2, arRead 0 2])).2 =
      [.ok .none, .ok .none, .ok .none, .ok .none, .error .valueError, .error .valueError, .error .valueError] := by
  rfl

/-- **C172** the reference semantics the other way: it says what happens in these histories. -/
theorem C172_meets :
    (AgedWin.run 0 none (arCfg 0) ⟨[], arKey, arEq, none⟩ (arStored ++ [arRead 1 1, .change (arKey' 1 3) arEq, arRead 0 1, arRead 0 1])).2.map plain =
      [.ok .none, .ok .none, .ok .none, .ok .none, .ok (.one 1), .ok (.one 4)] := by
  rfl

end S2P.AgedCh
