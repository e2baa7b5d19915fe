import Verif.Api
/-
Specification vocabulary for C54-C56: numbers among Python values, calls that a signature admits, HTTP requests. Imports no model file.
-/
namespace S2P

/-- A Python value given as a sleep time. `F`: floats. -/
inductive PyNum (F : Type) where
  | none
  | bool (b : Bool)
  | int (i : Int)
  | float (x : F)
  /-- anything else -/
  | other (id : Nat)
  deriving DecidableEq, Repr

/-- Kinds of parameters of a Python signature, and whether there is a default. -/
inductive PKind where
  | posOnly (dflt : Bool)
  | posOrKw (dflt : Bool)
  | varPos
  | kwOnly (dflt : Bool)
  | varKw
  deriving DecidableEq, Repr

/-- Strings of characters. -/
abbrev Str := List Char

/-- What is sent to the server. -/
structure Req where
  url : Str
  method : Str
  headers : List (Str × Str)
  body : Option Str
  deriving DecidableEq, Repr

namespace Spec

/-- `'GET'` -/
def GET : Str := ['G', 'E', 'T']

/-- A number: `0`, negative numbers and booleans (instances of `int`) included. -/
def isNum {F : Type} : PyNum F → Bool
  | .bool _ | .int _ | .float _ => true
  | _ => false

/-- The value that must be used: the first number of the two, else the default. -/
def firstNum {F : Type} (l : List (PyNum F)) (dflt : PyNum F) : PyNum F := (l.find? isNum).getD dflt

def takesPos : PKind → Bool
  | .posOnly _ | .posOrKw _ => true
  | _ => false

def needed : PKind → Bool
  | .posOnly d | .posOrKw d => !d
  | _ => false

def neededKw : PKind → Bool
  | .kwOnly d => !d
  | _ => false

/-- A function with parameters `ps` can be called with `n` positional arguments: there is room for them, they cover the positional parameters without
default, and no keyword-only parameter lacks a default. -/
def canTake (ps : List PKind) (n : Nat) : Prop :=
  (n ≤ (ps.filter takesPos).length ∨ .varPos ∈ ps) ∧ (ps.filter needed).length ≤ n ∧ ∀ p ∈ ps, neededKw p = false

instance (ps : List PKind) (n : Nat) : Decidable (canTake ps n) := by unfold canTake; infer_instance

end Spec
end S2P
