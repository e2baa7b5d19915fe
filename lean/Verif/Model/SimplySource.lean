import Verif.Model.SourceObj
import Verif.Model.Simply
import Verif.Spec.Instances
/-
The source reader that `mk_stream_buffer` makes (stream2py/simply.py 85-121), with the user's functions `open_stream`, `read_stream`, `close_stream`, `info`
and `key`, as the source object of a stream buffer (Model/SourceObj.lean). What the user's functions return, raise and do depends on the world, on
which they act.
-/
namespace S2P
namespace SimplySrc

/-- simply.py 38-49: the functions given by the user. `W`: the world. `X`: open instances. `open_stream`, `close_stream`, `info` may be `None`; then
`open_instance` stays `None` (86). `descr`: the dict of 112-115; it does not depend on the clock here. -/
structure Fns (W X D K I : Type) where
  openStream : Option (W → Py X × W)
  readStream : Option X → W → Py (Option D) × W
  closeStream : Option (Option X → W → Py Unit × W)
  info : Option (Option X → W → Py I)
  descr : Option X → I
  key : SItem D → Py K
  enumerate : Bool

/-- The object: `open_instance` (86), `read_idx` (89), the world; and (ghost) the calls of `open`, `read` and `close`, with the instance given to the user's
function. -/
structure St (W X : Type) where
  inst : Option X
  readIdx : Nat
  world : W
  uses : List (Use X)

variable {W X D K I : Type}

/-- simply.py 85-89: a new object. -/
def new (w : W) : St W X := { inst := none, readIdx := 0, world := w, uses := [] }

/-- simply.py 91-95. `get_timestamp` (95) does not raise. -/
def open' (f : Fns W X D K I) (s : St W X) : Py Unit × St W X :=
  match f.openStream with
  | none => (.ok (), { s with readIdx := 0, uses := s.uses ++ [.opened s.inst] })
  | some g => match g s.world with
    | (.ok x, w) => (.ok (), { inst := some x, readIdx := 0, world := w, uses := s.uses ++ [.opened (some x)] })
    | (.error e, w) => (.error e, { s with readIdx := 0, world := w, uses := s.uses ++ [.openRaised] })

/-- simply.py 97-103. -/
def read (f : Fns W X D K I) (s : St W X) : Py (Option (SItem D)) × St W X :=
  match f.readStream s.inst s.world with
  | (.ok d, w) => (.ok (simpRead f.enumerate s.readIdx d), { s with readIdx := s.readIdx + 1, world := w, uses := s.uses ++ [.read s.inst] })
  | (.error e, w) => (.error e, { s with world := w, uses := s.uses ++ [.read s.inst] })

/-- simply.py 105-107. -/
def close (f : Fns W X D K I) (s : St W X) : Py Unit × St W X :=
  match f.closeStream with
  | none => (.ok (), { s with uses := s.uses ++ [.closed s.inst] })
  | some g => match g s.inst s.world with
    | (r, w) => (r, { s with world := w, uses := s.uses ++ [.closed s.inst] })

/-- simply.py 109-115. -/
def info (f : Fns W X D K I) (s : St W X) : Py I :=
  match f.info with
  | some g => g s.inst s.world
  | none => .ok (f.descr s.inst)

/-- simply.py 85-121. `key` (117-120): the user's, or the item itself. -/
def simply (f : Fns W X D K I) : SrcObj (St W X) K (SItem D) I where
  open' := open' f
  read := read f
  close := close f
  info := info f
  key := f.key

/-! The example of simply.py 57-70 (and stream2py/__init__.py 160-172): a file read line by line. -/

/-- Open files: how many were opened, and where in the file each one that is not closed is (lines given so far; reading beyond the end counts too, which
makes no difference). -/
structure Files where
  opened : Nat
  pos : Nat → Option Nat

/-- simply.py 58-61, for a file that exists, has these lines and does not change: `open(FILE, 'rt')`, `next(open_inst, None)`, `open_inst.close()`, and the key
`read_data[0]`. No `info` is given, `enumerate_data` is left at its default. `descr`: there is one string for each file object. -/
def lines (ls : List D) : Fns Files Nat D Nat (Option Nat) where
  openStream := some fun w => (.ok w.opened, { opened := w.opened + 1, pos := fun h => if h = w.opened then some 0 else w.pos h })
  readStream x w := match x with
    | none => (.error .typeError, w)
    | some h => match w.pos h with
      | none => (.error .valueError, w) -- I/O operation on closed file
      | some p => (.ok ls[p]?, { w with pos := fun h' => if h' = h then some (p + 1) else w.pos h' })
  closeStream := some fun x w => match x with
    | none => (.error .attributeError, w)
    | some h => (.ok (), { w with pos := fun h' => if h' = h then none else w.pos h' })
  info := none
  descr := id
  key v := match v with | .pair i _ => .ok i | .raw _ => .error .typeError
  enumerate := true

/-- No file has been opened. -/
def Files.none : Files := { opened := 0, pos := fun _ => Option.none }

end SimplySrc
end S2P
