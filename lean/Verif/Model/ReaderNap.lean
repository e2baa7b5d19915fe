import Verif.Model.Consumer
/-
buffer_reader.py 125, 156, 176-181, 390: the sleep time of a reader, `set_sleep_time_on_iter_none(sleep_time_s)`, is not checked; the loop of `__iter__`
and `read(blocking=True)` hand it to `time.sleep`, which raises for a negative one or NaN (`ValueError`), for one that is too large (`OverflowError`) and for
what is no number (`TypeError`). The consumers of Model/Consumer.lean, and for each reader what `time.sleep` raises with its present sleep time.
-/
namespace S2P

/-- One session seen by its consumers; `bad i`: what `time.sleep` raises with the sleep time of reader `i` (`none`: it sleeps). -/
structure NCons (K V : Type) where
  c : Cons K V
  bad : Nat → Option PyErr

inductive ZAct (K V : Type) where
  /-- a step of Model/Consumer.lean -/
  | act (a : CAct K V)
  /-- 181: reader `i` gets another sleep time, one with which `time.sleep` raises `o`, or sleeps; any thread may do so at any moment -/
  | setSleep (i : Nat) (o : Option PyErr)

namespace NCons
variable {K V : Type} [LT K] [DecidableLT K] [BEq V]

/-- 125: a fresh reader sleeps a tenth of a second. -/
def init (key : V → K) (keyNone : Py (Option K)) (maxlen : Option Nat) (cfg : Nat → Cfg) : NCons K V :=
  { c := Cons.init key keyNone maxlen cfg, bad := fun _ => none }

/-- One step. At a sleep (156, 390) an exception leaves the generator or the call; other than that nothing differs. -/
def step (cfg : Nat → Cfg) (s : NCons K V) : ZAct K V → Option (NCons K V)
  | .setSleep i o => some { s with bad := fun j => if j = i then o else s.bad j }
  | .act (.go i) => match s.c.pc i, s.bad i with
    | .iterSleep, some e | .blkSleep _ _ _, some e => some { s with c := (s.c.emit i (.raised e)).goto i .idle }
    | _, _ => (s.c.step cfg (.go i)).map fun c => { s with c := c }
  | .act a => (s.c.step cfg a).map fun c => { s with c := c }

/-- An execution. -/
def exec (cfg : Nat → Cfg) : NCons K V → List (ZAct K V) → Option (NCons K V)
  | s, [] => some s
  | s, a :: as => match s.step cfg a with
    | some s' => s'.exec cfg as
    | none => none

end NCons
end S2P
