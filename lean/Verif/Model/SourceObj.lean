import Verif.Model.StreamBuffer
/-
A stream buffer (Model/StreamBuffer.lean) together with the source object it was made for: the answers of `open`, `read`, `close` and `info` are no
longer the environment's choice, they come from the object's methods and its state. The state may contain the future of the outside world (data still
to arrive, clock readings), so nothing is lost by methods being functions of it.
Simplification: each method call is one step. In settled executions (Proofs/StreamBuffer.lean) calls on the source never overlap, so this loses nothing
there.
-/
namespace S2P

/-- stream2py/source_reader.py 15-97: the methods of a `SourceReader`, as functions of the object's state. -/
structure SrcObj (σ K V I : Type) where
  open' : σ → Py Unit × σ
  read : σ → Py (Option V) × σ
  close : σ → Py Unit × σ
  info : σ → Py I
  key : V → Py K

/-- The object's state, the stream buffer, and (ghost) the state the object was in just after the `open()` of the `k`-th `start()`. -/
structure ObjSB (σ K V I : Type) where
  st : σ
  sb : SB K V I
  opened : Nat → Option σ

/-- Choices left to scheduler and users. -/
inductive ObjAct (K V I : Type) where
  /-- the `start()` in progress calls `source.open()` / reads `source.info` and makes the buffer (stream_buffer.py 286 / 287-295) -/
  | open'
  | buf
  /-- thread `t` calls `source.read()` / `source.close()` (257 / 269) -/
  | read (t : Nat)
  | close (t : Nat)
  /-- thread `t` appends, calling `source.key(data)` first (60-62, sorted_deque.py 92-109) -/
  | store (t : Nat)
  /-- anything else -/
  | other (a : SBAct K V I)

/-- Calls on the source go through `ObjAct`. -/
def SBAct.notSource {K V I : Type} : SBAct K V I → Bool
  | .openOk | .openRaise | .bufOk _ | .bufRaise | .readOk _ _ | .readRaise _ _ | .keyRaise _ _ | .close _ _ => false
  | _ => true

/-- This step is an append. -/
def SB.stores {K V I : Type} (sb : SB K V I) : SBAct K V I → Bool
  | .thr t => match sb.thr t with | .storing _ _ => true | _ => false
  | _ => false

/-- The key function of the object, for the buffer made for it. A value stands for the key of data on which `key` raises; such data are never stored. -/
def SrcObj.keyOr {σ K V I : Type} (o : SrcObj σ K V I) (dflt : K) (v : V) : K := match o.key v with | .ok k => k | .error _ => dflt

namespace ObjSB
variable {σ K V I : Type} [LT K] [DecidableLT K] [BEq V]

/-- A stream buffer made for an object in state `st`. -/
def init (st : σ) : ObjSB σ K V I := { st := st, sb := SB.init, opened := fun _ => none }

/-- What the stream buffer sees, and the object's new state. -/
def act (o : SrcObj σ K V I) (sb : SB K V I) (st : σ) : ObjAct K V I → Option (SBAct K V I × σ)
  | .open' => match o.open' st with
    | (.ok _, st') => some (.openOk, st')
    | (.error _, st') => some (.openRaise, st')
  | .buf => match o.info st with
    | .ok i => some (.bufOk i, st)
    | .error _ => some (.bufRaise, st)
  | .read t => match o.read st with
    | (.ok r, st') => some (.readOk t r, st')
    | (.error e, st') => some (.readRaise t e, st')
  | .close t => match o.close st with
    | (.ok _, st') => some (.close t true, st')
    | (.error _, st') => some (.close t false, st')
  | .store t => match sb.thr t with
    | .storing _ v => match o.key v with
      | .ok _ => some (.thr t, st)
      | .error e => some (.keyRaise t e, st)
    | _ => none
  | .other a => if a.notSource && !sb.stores a then some (a, st) else none

/-- One step. -/
def step (o : SrcObj σ K V I) (cfg : SBCfg K V) (s : ObjSB σ K V I) (x : ObjAct K V I) : Option (ObjSB σ K V I) :=
  match act o s.sb s.st x with
  | none => none
  | some (a, st) => (s.sb.step cfg a).map fun y =>
    { st := st, sb := y,
      opened := match a with
        | .openOk => fun k => if k + 1 = s.sb.n then some st else s.opened k
        | _ => s.opened }

/-- An execution. -/
def exec (o : SrcObj σ K V I) (cfg : SBCfg K V) : ObjSB σ K V I → List (ObjAct K V I) → Option (ObjSB σ K V I)
  | s, [] => some s
  | s, x :: xs => match s.step o cfg x with
    | some s' => s'.exec o cfg xs
    | none => none

/-- As for the stream buffer alone: whenever a `start()` gets past its stop phase, every earlier thread has ended. -/
def SettledAt (s : ObjSB σ K V I) (x : ObjAct K V I) : Prop :=
  ∀ a, x = .other a → a = .startGo → s.sb.start = some .wipe → ∀ t, s.sb.thr t = .unborn ∨ s.sb.thr t = .fresh ∨ s.sb.thr t = .done

def Settled (o : SrcObj σ K V I) (cfg : SBCfg K V) : ObjSB σ K V I → List (ObjAct K V I) → Prop
  | _, [] => True
  | s, x :: xs => s.SettledAt x ∧ ∀ s', s.step o cfg x = some s' → s'.Settled o cfg xs

end ObjSB
end S2P
