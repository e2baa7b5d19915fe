import Verif.Api
/-
What can be observed of a StreamSource and its readers from outside, and which readers are open. Imports no model file.
-/
namespace S2P

/-- One observation. Readers are numbered in the order in which they are made. A buffer setting is `(maxlen, auto_drop)`. -/
inductive SrcEv where
  /-- `configure_buffer(maxlen, auto_drop)` and its outcome -/
  | configured (c : Option Nat × Bool) (r : Py Unit)
  /-- the stream buffer was made with these settings -/
  | bufferMade (c : Option Nat × Bool)
  /-- `open_reader()` returned reader `r`, which reads session `b`; `live`: its `is_stopped` is false / `open_reader()` raised -/
  | opened (r b : Nat) (live : Bool)
  | openError (e : PyErr)
  /-- `mk_reader()` of the stream buffer returned reader `r` / raised -/
  | made (r : Nat)
  | makeError (e : PyErr)
  /-- the user assigned the attribute `onclose` of reader `r`: a function, or `None` -/
  | assigned (r : Nat) (f : Bool)
  /-- that function was called -/
  | ran (r : Nat)
  /-- `close()` of reader `r` (also called by leaving a `with` block) and the outcome -/
  | closed (r : Nat) (out : Py Unit)
  /-- the source itself called `stop()` on the stream buffer -/
  | stopped

/-- What the attribute `onclose` of a reader can be: absent (buffer_reader.py 83 declares it without a value), `None`, the source's handler, or a
function assigned by the user. -/
inductive OnClose where
  | missing
  | none
  | handler
  | user
  deriving DecidableEq, Repr

namespace Spec

/-- Reader `r` was returned by `open_reader()`. -/
def fromSource (log : List SrcEv) (r : Nat) : Prop := ∃ b live, .opened r b live ∈ log

/-- Reader `r` was returned by `open_reader()` and not closed since. -/
def isOpenReader (log : List SrcEv) (r : Nat) : Prop := fromSource log r ∧ ∀ out, .closed r out ∉ log

/-- No reader is closed twice. -/
def closedOnce (log : List SrcEv) : Prop :=
  log.Pairwise fun e e' => ∀ r o o', e = .closed r o → e' ≠ .closed r o'

/-- The last settings accepted by `configure_buffer`; `(100, True)` if there are none. -/
def settings (log : List SrcEv) : Option Nat × Bool :=
  log.foldl (fun c e => match e with | .configured c' (.ok _) => c' | _ => c) (some 100, true)

/-- What `onclose` of reader `r` is, from the history: readers of `open_reader()` get the handler of the source, readers of `mk_reader()` get
nothing, and the user may assign something. -/
def callback (log : List SrcEv) (r : Nat) : OnClose :=
  log.foldl (fun o e => match e with
    | .opened r' _ _ => if r' = r then .handler else o
    | .assigned r' f => if r' = r then (if f then .user else .none) else o
    | _ => o) .missing

end Spec
end S2P
