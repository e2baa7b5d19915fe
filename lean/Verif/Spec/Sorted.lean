import Verif.Py
/-
Reference semantics of a key-sorted sequence: plain linear scans over a list of items, oldest first.
Imports no model file.
-/
namespace S2P.Spec
variable {K V : Type}

/-- The first item satisfying `p`, scanning from the left; `ValueError` if there is none. -/
def first (p : V → Bool) : List V → Py V
  | [] => .error .valueError
  | v :: vs => if p v then .ok v else first p vs

/-- The last item satisfying `p`; `ValueError` if there is none. -/
def last (p : V → Bool) (l : List V) : Py V := first p l.reverse

/-- Position of the first item equal to `x`; `ValueError` if there is none. -/
def position [BEq V] (x : V) : List V → Py Nat
  | [] => .error .valueError
  | v :: vs => if v == x then .ok 0 else (position x vs).map (· + 1)

/-- Every `step`-th item: the items at positions `0, step, 2*step, ...` as far as they exist. -/
def stride (step : Nat) (l : List V) : List V :=
  (List.range l.length).filterMap (fun k => l[k * step]?)

/-- Items whose key lies in the closed interval `[lo, hi]`. -/
def between [LE K] [DecidableLE K] (key : V → K) (lo hi : K) (l : List V) : List V :=
  l.filter (fun v => decide (lo ≤ key v) && decide (key v ≤ hi))

/-- The last `m` items of a list (all of them for `none`). -/
def newest (m : Option Nat) (l : List V) : List V :=
  match m with
  | none => l
  | some m => l.drop (l.length - m)

/-- May `v` be appended to the retained items `l`? Only if there are none or its key is above the last one's. -/
def mayAppend [LT K] [DecidableLT K] (key : V → K) (l : List V) (v : V) : Bool :=
  match l.getLast? with
  | none => true
  | some w => decide (key w < key v)

/-- The items a guard "key strictly above the newest retained key" lets through, when the retained items are the newest
`m` accepted ones. `acc` are the items accepted so far, oldest first. -/
def accepted [LT K] [DecidableLT K] (key : V → K) (m : Option Nat) : List V → List V → List V
  | acc, [] => acc
  | acc, v :: vs =>
    if mayAppend key (newest m acc) v then accepted key m (acc ++ [v]) vs else accepted key m acc vs

end S2P.Spec
