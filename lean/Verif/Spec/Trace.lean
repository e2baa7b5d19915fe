import Verif.Api
import Verif.Spec.Sorted
/-
What can be observed of a StreamBuffer from outside: calls on the source, events set, items stored or refused, answers of API calls.
Sessions are numbered by the `start()` calls in order; thread `t` and stop event `t` are those made by the `t`-th `start()`, buffer `b` the one
made after the `b`-th successful open. Imports no model file.
-/
namespace S2P

/-- One observation. `I` is the type of the source's `info`. -/
inductive Ev (V I : Type) where
  /-- `source.open()` returned / raised, during the `k`-th `start()` -/
  | opened (k : Nat)
  | openRaised (k : Nat)
  /-- `source.info` or `source.key` raised after the open of the `k`-th `start()` -/
  | infoRaised (k : Nat)
  /-- the buffer of the `k`-th `start()` exists, the source having reported `info` -/
  | bufferMade (k : Nat) (info : I)
  /-- the thread of the `k`-th `start()` was started, `start()` returns -/
  | launched (k : Nat)
  /-- `stop()` was called; an exception if there never was a `start()` -/
  | stopCalled (r : Py Unit)
  /-- stop event `e` is set -/
  | eventSet (e : Nat)
  /-- thread `t` called `source.read()`, which returned / raised -/
  | read (t : Nat) (r : Option V)
  | readRaised (t : Nat) (e : PyErr)
  /-- thread `t` appended `v` to buffer `b` / the append raised -/
  | stored (t b : Nat) (v : V)
  | refused (t b : Nat) (v : V) (e : PyErr)
  /-- thread `t` raised in its loop outside of `read` and `append` -/
  | crashed (t : Nat) (e : PyErr)
  /-- thread `t` called `source.close()`, which returned or raised -/
  | closed (t : Nat) (ok : Bool)
  /-- `drop(n)` took `vs` out of buffer `b` -/
  | dropped (b : Nat) (vs : List V)
  /-- the answer of `drop(n)` -/
  | dropCalled (n : Int) (r : Py Unit)
  /-- the answer of `mk_reader()`: a reader of buffer `b` -/
  | madeReader (r : Py Nat)
  /-- the answer of `attach_reader(reader)`: now a reader of buffer `b` -/
  | attached (r : Py Nat)
  /-- the value of `is_running` -/
  | isRunning (r : Bool)
  /-- the value of `source_reader_info`, or the exception it raised -/
  | info (r : Py (Option I))
  /-- `next(stream_buffer)` reads from buffer `b`, or raises before reading -/
  | nextOn (r : Py Nat)
  deriving Repr

namespace Spec
variable {V I : Type}

/-- The items stored in buffer `b`, in order, whoever stored them. -/
def storedIn (b : Nat) (log : List (Ev V I)) : List V :=
  log.filterMap fun | .stored _ b' v => if b' = b then some v else none | _ => none

/-- The items manually dropped from buffer `b`, in order. -/
def droppedFrom (b : Nat) (log : List (Ev V I)) : List V :=
  log.flatMap fun | .dropped b' vs => if b' = b then vs else [] | _ => []

/-- The data (not `None`) that the source handed to thread `t`, in order. -/
def dataRead (t : Nat) (log : List (Ev V I)) : List V :=
  log.filterMap fun | .read t' (some v) => if t' = t then some v else none | _ => none

/-- The items of thread `t` whose append raised, in order. -/
def refusedBy (t : Nat) (log : List (Ev V I)) : List V :=
  log.filterMap fun | .refused t' _ v _ => if t' = t then some v else none | _ => none

/-- Calls of `source.read()` by thread `t`. -/
def isReadBy (t : Nat) : Ev V I → Bool
  | .read t' _ => t' = t
  | .readRaised t' _ => t' = t
  | _ => false

/-- Stores by thread `t`. -/
def isStoreBy (t : Nat) : Ev V I → Bool
  | .stored t' _ _ => t' = t
  | _ => false

/-- Calls of `source.close()` by thread `t`. -/
def isCloseBy (t : Nat) : Ev V I → Bool
  | .closed t' _ => t' = t
  | _ => false

/-- The session that the latest `start()` to have called `source.open()` set up; `none` if there was no such `start()` or it failed. -/
def current (log : List (Ev V I)) : Option Nat :=
  log.foldl (fun c e => match e with | .bufferMade k _ => some k | .openRaised _ => none | .infoRaised _ => none | _ => c) none

/-- The calls on the source obey its protocol: `open` only when closed, `read` and `close` only when open. -/
def protocolOk : Bool → List (Ev V I) → Prop
  | _, [] => True
  | o, .opened _ :: l => o = false ∧ protocolOk true l
  | o, .read _ _ :: l => o = true ∧ protocolOk o l
  | o, .readRaised _ _ :: l => o = true ∧ protocolOk o l
  | o, .closed _ _ :: l => o = true ∧ protocolOk false l
  | o, _ :: l => protocolOk o l

/-- Everything thread `t` does with the source and its buffer. -/
def byThread (t : Nat) : Ev V I → Bool
  | .read t' _ | .readRaised t' _ | .stored t' _ _ | .refused t' _ _ _ | .crashed t' _ | .closed t' _ => t' = t
  | _ => false

/-- Successful calls of `source.open()`. -/
def isOpen : Ev V I → Bool
  | .opened _ => true
  | _ => false

/-- Calls of `source.close()`. -/
def isClose : Ev V I → Bool
  | .closed _ _ => true
  | _ => false

/-- An exception left the reading loop of a thread. -/
def isDeath : Ev V I → Bool
  | .readRaised _ _ | .refused _ _ _ _ | .crashed _ _ => true
  | _ => false

/-- Every event satisfying `p` comes after `e`. -/
def After (p : Ev V I → Prop) (e : Ev V I) (log : List (Ev V I)) : Prop :=
  ∀ pre x post, log = pre ++ x :: post → p x → e ∈ pre

/-- The accepted items when a sequence of items is appended until the first one whose key is not above the last: `acc` were accepted before. -/
def acceptUntil {K : Type} [LT K] [DecidableLT K] (key : V → K) (acc : List V) : List V → List V
  | [] => acc
  | v :: vs => if mayAppend key acc v then acceptUntil key (acc ++ [v]) vs else acc

end Spec
end S2P
