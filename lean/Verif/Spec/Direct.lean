import Verif.Spec.Trace
/-
What a caller saw who used a source reader directly, calling `open()`, `read()` and `close()` in any order. Imports no model file.
-/
namespace S2P

/-- A call on a source reader, and what it returned or raised. -/
inductive Did (V : Type) where
  | opened (r : Py Unit)
  | read (r : Py (Option V))
  | closed (r : Py Unit)

namespace Spec
variable {V : Type}

/-- An `open()` that did not raise. -/
def Did.isOpenOk : Did V → Bool
  | .opened (.ok _) => true
  | _ => false

def Did.isOpen : Did V → Bool
  | .opened _ => true
  | _ => false

def Did.isRead : Did V → Bool
  | .read _ => true
  | _ => false

/-- A `read()` that did not raise. -/
def Did.isReadOk : Did V → Bool
  | .read (.ok _) => true
  | _ => false

def Did.isClose : Did V → Bool
  | .closed _ => true
  | _ => false

/-- How many calls of `open()`, of `read()`, and of `read()` that did not raise there are. -/
def opens (l : List (Did V)) : Nat := l.countP Did.isOpen
def reads (l : List (Did V)) : Nat := l.countP Did.isRead
def readOks (l : List (Did V)) : Nat := l.countP Did.isReadOk

/-- The calls after the last `open()` (all of them, if there is none). -/
def sinceOpen (l : List (Did V)) : List (Did V) := (l.reverse.takeWhile fun d => !Did.isOpen d).reverse

/-- No `open()` succeeded among these calls. -/
def NoOpenOk (l : List (Did V)) : Prop := ∀ d ∈ l, Did.isOpenOk d = false
def NoClose (l : List (Did V)) : Prop := ∀ d ∈ l, Did.isClose d = false

end Spec
end S2P
