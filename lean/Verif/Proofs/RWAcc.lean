import Verif.Model.RWLock
import Mathlib.Tactic.Common
/- The accounting invariant of the reader-writer lock, as pure arithmetic. -/
namespace S2P.RW

/-- Reader program counters. -/
def PC.reading : PC → Bool
  | .r1 | .r2 | .r3 | .r4 | .r5 | .r6 | .r7 | .r8 | .rCS | .x1 | .x2 | .x3 | .x4 => true
  | _ => false

/-- The accounting invariant: every lock and counter equals a count of threads. `c q` threads are at `q`, `o` surrounding reader
sections exist. -/
structure Acc (c : PC → Nat) (o : Nat) (l : Lk) : Prop where
  rq : l.rq.toNat = c .r2 + c .r3 + c .r4 + c .r5 + c .r6 + c .r7 + c .r8
  rm : l.rm.toNat = c .r4 + c .r5 + c .r6 + c .x2 + c .x3 + c .x4
  wm : l.wm.toNat = c .w2 + c .w3 + c .w4 + c .y2 + c .y3 + c .y4
  rc : l.rc = c .r5 + c .r6 + c .r7 + c .r8 + c .rCS + c .x1 + c .x2 + o
  wc : l.wc = c .w3 + c .w4 + c .w5 + c .wCS + c .y0 + c .y1 + c .y2
  nwOn : l.rc > c .r5 ∨ c .x3 > 0 → l.nw.toNat = 1 + c .wCS + c .y0
  nwOff : l.rc ≤ c .r5 ∧ c .x3 = 0 → l.nw.toNat = c .wCS + c .y0
  nrOn : l.wc > c .w3 ∨ c .y3 > 0 → l.nr.toNat = 1 + c .r3 + c .r4 + c .r5 + c .r6 + c .r7
  nrOff : l.wc ≤ c .w3 ∧ c .y3 = 0 → l.nr.toNat = c .r3 + c .r4 + c .r5 + c .r6 + c .r7

/-- 1 if equal. -/
def PC.is (p q : PC) : Nat := if p = q then 1 else 0

set_option maxHeartbeats 4000000 in
/-- A lock statement keeps the accounting. -/
theorem Acc.stmt {c c' : PC → Nat} {o : Nat} {l l' : Lk} {pc pc' : PC} (h : Acc c o l) (hs : l.stmt pc = some (l', pc'))
    (hq : ∀ q, c' q + pc.is q = c q + pc'.is q) : Acc c' o l' := by
  obtain ⟨g1, g2, g3, g4, g5, g6, g7, g8, g9⟩ := h
  obtain ⟨rq, nr, nw, rm, wm, rc, wc⟩ := l
  have hidle := hq .idle
  have hr1 := hq .r1
  have hr2 := hq .r2
  have hr3 := hq .r3
  have hr4 := hq .r4
  have hr5 := hq .r5
  have hr6 := hq .r6
  have hr7 := hq .r7
  have hr8 := hq .r8
  have hrCS := hq .rCS
  have hx1 := hq .x1
  have hx2 := hq .x2
  have hx3 := hq .x3
  have hx4 := hq .x4
  have hw1 := hq .w1
  have hw2 := hq .w2
  have hw3 := hq .w3
  have hw4 := hq .w4
  have hw5 := hq .w5
  have hwCS := hq .wCS
  have hy0 := hq .y0
  have hy1 := hq .y1
  have hy2 := hq .y2
  have hy3 := hq .y3
  have hy4 := hq .y4
  clear hq
  have b1 := Bool.toNat_le rq
  have b2 := Bool.toNat_le nr
  have b3 := Bool.toNat_le nw
  have b4 := Bool.toNat_le rm
  have b5 := Bool.toNat_le wm
  cases pc <;> simp only [Lk.stmt] at hs <;> (repeat' split at hs) <;>
    simp only [Option.some.injEq, Prod.mk.injEq, reduceCtorEq] at hs
  all_goals
    obtain ⟨rfl, rfl⟩ := hs
    simp only [PC.is, reduceCtorEq, if_true, if_false, Nat.add_zero] at hidle hr1 hr2 hr3 hr4 hr5 hr6 hr7 hr8 hrCS hx1 hx2 hx3 hx4 hw1 hw2 hw3 hw4 hw5 hwCS hy0 hy1 hy2 hy3 hy4
    try (rename_i hb; first | subst hb | (simp only [Bool.not_eq_true] at hb; subst hb))
    dsimp only [Bool.toNat_true, Bool.toNat_false] at *
    constructor <;> dsimp only [Bool.toNat_true, Bool.toNat_false] <;> omega

/-- The outermost statement of a nested release: back into the surrounding section. -/
theorem Acc.unnest {c c' : PC → Nat} {o o' : Nat} {l : Lk} (h : Acc c o l) (ho : o' + 1 = o)
    (hq : ∀ q, c' q + PC.x4.is q = c q + PC.rCS.is q) : Acc c' o' { l with rm := false } := by
  obtain ⟨g1, g2, g3, g4, g5, g6, g7, g8, g9⟩ := h
  have hr2 := hq .r2
  have hr3 := hq .r3
  have hr4 := hq .r4
  have hr5 := hq .r5
  have hr6 := hq .r6
  have hr7 := hq .r7
  have hr8 := hq .r8
  have hrCS := hq .rCS
  have hx1 := hq .x1
  have hx2 := hq .x2
  have hx3 := hq .x3
  have hx4 := hq .x4
  have hw2 := hq .w2
  have hw3 := hq .w3
  have hw4 := hq .w4
  have hw5 := hq .w5
  have hwCS := hq .wCS
  have hy0 := hq .y0
  have hy1 := hq .y1
  have hy2 := hq .y2
  have hy3 := hq .y3
  have hy4 := hq .y4
  clear hq
  have b4 := Bool.toNat_le l.rm
  simp only [PC.is, reduceCtorEq, if_true, if_false, Nat.add_zero] at *
  constructor <;> dsimp only [Bool.toNat_false] <;> omega

/-- Asking for the lock from outside changes no accounted count. -/
theorem Acc.begin {c c' : PC → Nat} {o : Nat} {l : Lk} {p : PC} (h : Acc c o l) (hp : p = .r1 ∨ p = .w1)
    (hq : ∀ q, c' q + PC.idle.is q = c q + p.is q) : Acc c' o l := by
  obtain ⟨g1, g2, g3, g4, g5, g6, g7, g8, g9⟩ := h
  have hr2 := hq .r2
  have hr3 := hq .r3
  have hr4 := hq .r4
  have hr5 := hq .r5
  have hr6 := hq .r6
  have hr7 := hq .r7
  have hr8 := hq .r8
  have hrCS := hq .rCS
  have hx1 := hq .x1
  have hx2 := hq .x2
  have hx3 := hq .x3
  have hx4 := hq .x4
  have hw2 := hq .w2
  have hw3 := hq .w3
  have hw4 := hq .w4
  have hw5 := hq .w5
  have hwCS := hq .wCS
  have hy0 := hq .y0
  have hy1 := hq .y1
  have hy2 := hq .y2
  have hy3 := hq .y3
  have hy4 := hq .y4
  clear hq
  rcases hp with rfl | rfl <;>
  · simp only [PC.is, reduceCtorEq, if_false, Nat.add_zero] at *
    constructor <;> omega

/-- Asking for the lock from inside a reader section. -/
theorem Acc.nest {c c' : PC → Nat} {o o' : Nat} {l : Lk} (h : Acc c o l) (ho : o' = o + 1)
    (hq : ∀ q, c' q + PC.rCS.is q = c q + PC.r1.is q) : Acc c' o' l := by
  obtain ⟨g1, g2, g3, g4, g5, g6, g7, g8, g9⟩ := h
  have hr2 := hq .r2
  have hr3 := hq .r3
  have hr4 := hq .r4
  have hr5 := hq .r5
  have hr6 := hq .r6
  have hr7 := hq .r7
  have hr8 := hq .r8
  have hrCS := hq .rCS
  have hx1 := hq .x1
  have hx2 := hq .x2
  have hx3 := hq .x3
  have hx4 := hq .x4
  have hw2 := hq .w2
  have hw3 := hq .w3
  have hw4 := hq .w4
  have hw5 := hq .w5
  have hwCS := hq .wCS
  have hy0 := hq .y0
  have hy1 := hq .y1
  have hy2 := hq .y2
  have hy3 := hq .y3
  have hy4 := hq .y4
  clear hq
  simp only [PC.is, reduceCtorEq, if_true, if_false, Nat.add_zero] at *
  constructor <;> omega

/-- A writer inside excludes everybody else. -/
theorem Acc.exclusive {c : PC → Nat} {o : Nat} {l : Lk} (h : Acc c o l) (hw : 0 < c .wCS) :
    c .wCS = 1 ∧ c .y0 = 0 ∧ c .rCS = 0 ∧ o = 0 ∧ c .r6 = 0 ∧ c .r7 = 0 ∧ c .r8 = 0 ∧ c .x1 = 0 ∧ c .x2 = 0 := by
  obtain ⟨g1, g2, g3, g4, g5, g6, g7, g8, g9⟩ := h
  have b3 := Bool.toNat_le l.nw
  omega

/-- A writer waiting for the readers inside (or already in): the gate is closed. -/
theorem Acc.priority {c : PC → Nat} {o : Nat} {l : Lk} (h : Acc c o l) (hw : 0 < c .w5 + c .wCS + c .y0) :
    l.nr = true ∧ c .r3 = 0 ∧ c .r4 = 0 ∧ c .r5 = 0 ∧ c .r6 = 0 ∧ c .r7 = 0 := by
  obtain ⟨g1, g2, g3, g4, g5, g6, g7, g8, g9⟩ := h
  have b3 := Bool.toNat_le l.nr
  have : l.nr.toNat = 1 := by omega
  refine ⟨by cases hn : l.nr <;> simp_all, ?_⟩
  omega

/-- Nobody uses the lock: it is as new. -/
theorem Acc.quiet {c : PC → Nat} {l : Lk} (h : Acc c 0 l) (hz : ∀ q, q ≠ .idle → c q = 0) : l = .fresh := by
  obtain ⟨g1, g2, g3, g4, g5, g6, g7, g8, g9⟩ := h
  obtain ⟨rq, nr, nw, rm, wm, rc, wc⟩ := l
  have hr2 := hz .r2 (by decide)
  have hr3 := hz .r3 (by decide)
  have hr4 := hz .r4 (by decide)
  have hr5 := hz .r5 (by decide)
  have hr6 := hz .r6 (by decide)
  have hr7 := hz .r7 (by decide)
  have hr8 := hz .r8 (by decide)
  have hrCS := hz .rCS (by decide)
  have hx1 := hz .x1 (by decide)
  have hx2 := hz .x2 (by decide)
  have hx3 := hz .x3 (by decide)
  have hx4 := hz .x4 (by decide)
  have hw2 := hz .w2 (by decide)
  have hw3 := hz .w3 (by decide)
  have hw4 := hz .w4 (by decide)
  have hw5 := hz .w5 (by decide)
  have hwCS := hz .wCS (by decide)
  have hy0 := hz .y0 (by decide)
  have hy1 := hz .y1 (by decide)
  have hy2 := hz .y2 (by decide)
  have hy3 := hz .y3 (by decide)
  have hy4 := hz .y4 (by decide)
  clear hz
  dsimp only at *
  have e1 : rq.toNat = 0 := by omega
  have e2 : nr.toNat = 0 := by omega
  have e3 : nw.toNat = 0 := by omega
  have e4 : rm.toNat = 0 := by omega
  have e5 : wm.toNat = 0 := by omega
  have e6 : rc = 0 := by omega
  have e7 : wc = 0 := by omega
  rw [Bool.toNat_eq_zero] at e1 e2 e3 e4 e5
  subst e1 e2 e3 e4 e5 e6 e7
  rfl

/-- The program counters at which a thread can be made to wait. -/
def PC.waits : PC → Bool
  | .r1 | .r2 | .r3 | .r5 | .x1 | .w1 | .w3 | .w5 | .y1 => true
  | _ => false

/-- At any other program counter the statement can be executed: in particular no lock is released that is not held. -/
theorem Acc.noWait {c : PC → Nat} {o : Nat} {l : Lk} (h : Acc c o l) {p : PC} (hp : 0 < c p) (hi : p ≠ .idle)
    (hw : p.waits = false) : (l.stmt p).isSome = true := by
  obtain ⟨g1, g2, g3, g4, g5, g6, g7, g8, g9⟩ := h
  have t0 : ∀ b : Bool, 0 < b.toNat → b = true := by decide
  cases p <;> simp [PC.waits] at hw <;> simp only [Lk.stmt]
  case idle => exact absurd rfl hi
  case r6 => rw [t0 l.rm (by omega)]; rfl
  case r7 => rw [t0 l.nr (by omega)]; rfl
  case r8 => rw [t0 l.rq (by omega)]; rfl
  case x3 => rw [t0 l.nw (by omega)]; split <;> rfl
  case x4 => rw [t0 l.rm (by omega)]; rfl
  case w4 => rw [t0 l.wm (by omega)]; rfl
  case y0 => rw [t0 l.nw (by omega)]; rfl
  case y3 => rw [t0 l.nr (by omega)]; split <;> rfl
  case y4 => rw [t0 l.wm (by omega)]; rfl
  all_goals rfl

theorem stmt_wait (l : Lk) :
    ((l.stmt .r1).isSome = true ↔ l.rq.toNat = 0) ∧ ((l.stmt .r2).isSome = true ↔ l.nr.toNat = 0) ∧
    ((l.stmt .r3).isSome = true ↔ l.rm.toNat = 0) ∧ ((l.stmt .r5).isSome = true ↔ l.rc ≠ 1 ∨ l.nw.toNat = 0) ∧
    ((l.stmt .x1).isSome = true ↔ l.rm.toNat = 0) ∧ ((l.stmt .w1).isSome = true ↔ l.wm.toNat = 0) ∧
    ((l.stmt .w3).isSome = true ↔ l.wc ≠ 1 ∨ l.nr.toNat = 0) ∧ ((l.stmt .w5).isSome = true ↔ l.nw.toNat = 0) ∧
    ((l.stmt .y1).isSome = true ↔ l.wm.toNat = 0) := by
  obtain ⟨rq, nr, nw, rm, wm, rc, wc⟩ := l
  simp only [Lk.stmt]
  refine ⟨?_, ?_, ?_, ?_, ?_, ?_, ?_, ?_, ?_⟩
  · cases rq <;> simp
  · cases nr <;> simp
  · cases rm <;> simp
  · cases nw <;> by_cases h : rc = 1 <;> simp [h]
  · cases rm <;> simp
  · cases wm <;> simp
  · cases nr <;> by_cases h : wc = 1 <;> simp [h]
  · cases nw <;> simp
  · cases wm <;> simp

/-- No deadlock: if nobody is inside a surrounding section while asking again, some thread has an executable statement. -/
theorem Acc.progress {c : PC → Nat} {l : Lk} (h : Acc c 0 l) (hb : ∃ p, p ≠ .idle ∧ 0 < c p) :
    ∃ p, p ≠ .idle ∧ 0 < c p ∧ (l.stmt p).isSome = true := by
  by_contra hc
  have hno : ∀ p, p ≠ .idle → 0 < c p → ¬ (l.stmt p).isSome = true := fun p h1 h2 h3 => hc ⟨p, h1, h2, h3⟩
  have hz : ∀ p, p ≠ .idle → p.waits = false → c p = 0 := by
    intro p h1 h2
    by_contra h3
    exact hno p h1 (by omega) (h.noWait (by omega) h1 h2)
  obtain ⟨s1, s2, s3, s4, s5, s6, s7, s8, s9⟩ := stmt_wait l
  obtain ⟨g1, g2, g3, g4, g5, g6, g7, g8, g9⟩ := h
  have k1 := hno .r1 (by decide); rw [s1] at k1
  have k2 := hno .r2 (by decide); rw [s2] at k2
  have k3 := hno .r3 (by decide); rw [s3] at k3
  have k4 := hno .r5 (by decide); rw [s4] at k4
  have k5 := hno .x1 (by decide); rw [s5] at k5
  have k6 := hno .w1 (by decide); rw [s6] at k6
  have k7 := hno .w3 (by decide); rw [s7] at k7
  have k8 := hno .w5 (by decide); rw [s8] at k8
  have k9 := hno .y1 (by decide); rw [s9] at k9
  have z1 := hz .r4 (by decide) rfl
  have z2 := hz .r6 (by decide) rfl
  have z3 := hz .r7 (by decide) rfl
  have z4 := hz .r8 (by decide) rfl
  have z5 := hz .rCS (by decide) rfl
  have z6 := hz .x2 (by decide) rfl
  have z7 := hz .x3 (by decide) rfl
  have z8 := hz .x4 (by decide) rfl
  have z9 := hz .w2 (by decide) rfl
  have z10 := hz .w4 (by decide) rfl
  have z11 := hz .wCS (by decide) rfl
  have z12 := hz .y0 (by decide) rfl
  have z13 := hz .y2 (by decide) rfl
  have z14 := hz .y3 (by decide) rfl
  have z15 := hz .y4 (by decide) rfl
  have a1 : c .r5 = 0 := by clear g1 g3 g5 g8 g9 k1 k2 k3 k5 k6 k7 k8 k9; omega
  have a2 : c .x1 = 0 := by clear g1 g3 g4 g5 g6 g7 g8 g9 k1 k2 k3 k4 k6 k7 k8 k9; omega
  have a3 : c .r3 = 0 := by clear g1 g3 g4 g5 g6 g7 g8 g9 k1 k2 k4 k5 k6 k7 k8 k9; omega
  have a4 : c .w5 = 0 := by clear g1 g2 g3 g5 g6 g8 g9 k1 k2 k3 k4 k5 k6 k7 k9; omega
  have a5 : c .w3 = 0 := by clear g1 g2 g4 g6 g7 k1 k2 k3 k4 k5 k6 k8 k9; omega
  have a6 : c .w1 = 0 := by clear g1 g2 g4 g5 g6 g7 g8 g9 k1 k2 k3 k4 k5 k7 k8 k9; omega
  have a7 : c .y1 = 0 := by clear g1 g2 g4 g5 g6 g7 g8 g9 k1 k2 k3 k4 k5 k6 k7 k8; omega
  have a8 : c .r2 = 0 := by clear g1 g2 g3 g4 g6 g7 g8 k1 k3 k4 k5 k6 k7 k8 k9; omega
  have a9 : c .r1 = 0 := by clear g2 g3 g4 g5 g6 g7 g8 g9 k2 k3 k4 k5 k6 k7 k8 k9; omega
  obtain ⟨p, h1, h2⟩ := hb
  cases p <;> first | exact h1 rfl | omega

/-- Without writers around, entering and leaving readers never wait for the readers inside. -/
theorem Acc.readersShare {c : PC → Nat} {o : Nat} {l : Lk} (h : Acc c o l) (hw : ∀ p, p.reading = false → p ≠ .idle → c p = 0)
    (hb : ∃ p, p ≠ .idle ∧ p ≠ .rCS ∧ 0 < c p) :
    ∃ p, p ≠ .idle ∧ p ≠ .rCS ∧ 0 < c p ∧ (l.stmt p).isSome = true := by
  by_contra hc
  have hno : ∀ p, p ≠ .idle → p ≠ .rCS → 0 < c p → ¬ (l.stmt p).isSome = true := fun p h1 h2 h3 h4 => hc ⟨p, h1, h2, h3, h4⟩
  have hz : ∀ p, p ≠ .idle → p ≠ .rCS → p.waits = false → c p = 0 := by
    intro p h1 h2 h2'
    by_contra h3
    exact hno p h1 h2 (by omega) (h.noWait (by omega) h1 h2')
  obtain ⟨s1, s2, s3, s4, s5, s6, s7, s8, s9⟩ := stmt_wait l
  obtain ⟨g1, g2, g3, g4, g5, g6, g7, g8, g9⟩ := h
  have k1 := hno .r1 (by decide) (by decide); rw [s1] at k1
  have k2 := hno .r2 (by decide) (by decide); rw [s2] at k2
  have k3 := hno .r3 (by decide) (by decide); rw [s3] at k3
  have k4 := hno .r5 (by decide) (by decide); rw [s4] at k4
  have k5 := hno .x1 (by decide) (by decide); rw [s5] at k5
  have z1 := hz .r4 (by decide) (by decide) rfl
  have z2 := hz .r6 (by decide) (by decide) rfl
  have z3 := hz .r7 (by decide) (by decide) rfl
  have z4 := hz .r8 (by decide) (by decide) rfl
  have z6 := hz .x2 (by decide) (by decide) rfl
  have z7 := hz .x3 (by decide) (by decide) rfl
  have z8 := hz .x4 (by decide) (by decide) rfl
  have w1 := hw .w1 rfl (by decide)
  have w2 := hw .w2 rfl (by decide)
  have w3 := hw .w3 rfl (by decide)
  have w4 := hw .w4 rfl (by decide)
  have w5 := hw .w5 rfl (by decide)
  have w6 := hw .wCS rfl (by decide)
  have w7 := hw .y0 rfl (by decide)
  have w8 := hw .y1 rfl (by decide)
  have w9 := hw .y2 rfl (by decide)
  have w10 := hw .y3 rfl (by decide)
  have w11 := hw .y4 rfl (by decide)
  have a1 : c .r5 = 0 := by clear g1 g3 g5 g8 g9 k1 k2 k3 k5; omega
  have a2 : c .x1 = 0 := by clear g1 g3 g4 g5 g6 g7 g8 g9 k1 k2 k3 k4; omega
  have a3 : c .r3 = 0 := by clear g1 g3 g4 g5 g6 g7 g8 g9 k1 k2 k4 k5; omega
  have a8 : c .r2 = 0 := by clear g1 g2 g3 g4 g6 g7 g8 k1 k3 k4 k5; omega
  have a9 : c .r1 = 0 := by clear g2 g3 g4 g5 g6 g7 g8 g9 k2 k3 k4 k5; omega
  obtain ⟨p, h1, h2, h3⟩ := hb
  cases p <;> first | exact h1 rfl | exact h2 rfl | omega

end S2P.RW
