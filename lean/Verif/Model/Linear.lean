import Verif.Model.RWLock
import Verif.Model.Channel
import Verif.Spec.Linear
/-
The methods of buffer and readers executed access by access, under the reader-writer lock of Model/RWLock.lean, by any number of threads: what
really runs, as opposed to Model/Channel.lean, where each call is one step. C67 shows that the two cannot be told apart.

`Prog D α`: a piece of Python that looks at the shared data (of type `D`) any number of times, and takes and gives back the reader lock in between.
Exceptions are `ExceptT PyErr`.
-/
namespace S2P

/-- A computation that reads shared data. -/
inductive Prog (D α : Type) where
  | ret (a : α)
  /-- one access to the data -/
  | look (k : D → Prog D α)
  /-- `reader_lock()` entered once more / left again -/
  | lock (k : Prog D α)
  | unlock (k : Prog D α)

namespace Prog
variable {D α β : Type}

/-- Sequential composition. -/
def bind : Prog D α → (α → Prog D β) → Prog D β
  | ret a, f => f a
  | look k, f => look fun d => (k d).bind f
  | lock k, f => lock (k.bind f)
  | unlock k, f => unlock (k.bind f)

instance : Monad (Prog D) where
  pure := ret
  bind := bind

end Prog

/-- Python code reading the buffer. -/
abbrev PM (K V : Type) := ExceptT PyErr (Prog (SD K V))

namespace PM
variable {K V α : Type}

/-- One access. -/
def ask (f : SD K V → Py α) : PM K V α := ExceptT.mk (.look fun d => .ret (f d))

/-- A value or exception computed without access to the buffer. -/
def ofPy (x : Py α) : PM K V α := ExceptT.mk (.ret x)

/-- locked_sorted_deque.py 40-46: `with reader_lock()` inside a section; the lock is given back in `finally`. -/
def locked (p : PM K V α) : PM K V α := ExceptT.mk (.lock (Prog.bind (ExceptT.run p) fun x => .unlock (.ret x)))

/-- `try: … except …`. -/
def except (p : PM K V α) (h : PyErr → PM K V α) : PM K V α :=
  ExceptT.mk (Prog.bind (ExceptT.run p) fun x => match x with
    | .ok a => .ret (.ok a)
    | .error e => ExceptT.run (h e))

variable [LT K] [DecidableLT K]

/-- The loop of `bisect`, one access per iteration. -/
def bisectLoop (goRight : K → Py Bool) : Nat → Nat → Nat → PM K V Nat
  | 0, lo, _ => pure lo
  | fuel + 1, lo, hi =>
    if lo < hi then do
      let m ← ask fun s => dqGet s.keys ((lo + hi) / 2)
      let b ← ofPy (goRight m)
      if b then bisectLoop goRight fuel ((lo + hi) / 2 + 1) hi else bisectLoop goRight fuel lo ((lo + hi) / 2)
    else pure lo

/-- `bisect_left(self._keys, k)`. -/
def bisectLeft (k : Option K) : PM K V Nat := do
  let n ← ask fun s => .ok s.keys.length
  bisectLoop (fun m => ltPy (some m) k) n 0 n

/-- `bisect_right(self._keys, k)`. -/
def bisectRight (k : Option K) : PM K V Nat := do
  let n ← ask fun s => .ok s.keys.length
  bisectLoop (fun m => (ltPy k (some m)).map (! ·)) n 0 n

omit [LT K] [DecidableLT K] in
/-- sorted_collection.py 105-106 `__len__`. -/
def len : PM K V Nat := ask fun s => .ok s.items.length

omit [LT K] [DecidableLT K] in
/-- `self._key(item)`. -/
def keyOf (v : V) : PM K V K := ask fun s => .ok (s.key v)

omit [LT K] [DecidableLT K] in
/-- sorted_collection.py 108-109 `__getitem__`. -/
def getItem (i : Int) : PM K V V := ask fun s => dqGetInt s.items i

/-- sorted_collection.py 195-200 `find_gt`. -/
def findGt (k : Option K) : PM K V V := do
  let i ← bisectRight k
  let n ← len
  if i ≠ n then ask fun s => dqGet s.items i else throw .valueError

/-- sorted_collection.py 188-193 `find_ge`. -/
def findGe (k : Option K) : PM K V V := do
  let i ← bisectLeft k
  let n ← len
  if i ≠ n then ask fun s => dqGet s.items i else throw .valueError

/-- sorted_collection.py 174-179 `find_le`. -/
def findLe (k : Option K) : PM K V V := do
  let i ← bisectRight k
  if i ≠ 0 then ask fun s => dqGet s.items (i - 1) else throw .valueError

/-- sorted_deque.py 133-142 `find_last_gt`: accesses at 137, 138, 140. -/
def findLastGt (k : Option K) : PM K V V := do
  let found ← except
    (do
      let l ← ask fun s => dqLast s.keys
      let b ← ofPy (ltPy k (some l))
      if b then (do let v ← ask fun s => dqLast s.items; pure (some v)) else pure none)
    fun e => match e with
      | .indexError => do
        let n ← ask fun s => .ok s.keys.length
        if n ≠ 0 then throw .indexError else pure none
      | e => throw e
  match found with
  | some v => pure v
  | none => throw .valueError

/-- sorted_deque.py 78-83 `index`. -/
def index [BEq V] (item : V) : PM K V Nat := do
  let k ← keyOf item
  let i ← bisectLeft (some k)
  let j ← bisectRight (some k)
  ask fun s => dqIndex s.items item i j

omit [LT K] [DecidableLT K] in
/-- sorted_deque.py 123-131 `range_by_index`. -/
def rangeByIndex (i j : Nat) (step : Option Int) : PM K V (List V) := ask fun s => islice s.items i j step

/-- sorted_deque.py 111-121 `range`. -/
def range (start stop : Option K) (step : Option Int) : PM K V (List V) := do
  let i ← bisectLeft start
  let j ← bisectRight stop
  rangeByIndex i j step

end PM

namespace Reader
variable {K V : Type} [LT K] [DecidableLT K]

omit [LT K] [DecidableLT K] in
/-- buffer_reader.py 214-216 `self.last_item = item`. -/
def setLastP (r : Reader K V) (item : V) : PM K V (Reader K V) := do
  let k ← PM.keyOf item
  pure { r with lastKey := some k, lastItem := some item }

/-- buffer_reader.py 392-405: the item after the cursor; `none`: `return None` at 398. -/
def nextP (r : Reader K V) (ignore : Bool) : PM K V (Option V) :=
  PM.except (do let v ← PM.findGt r.lastKey; pure (some v)) fun e => match e with
    | .valueError => if ignore then pure none else throw .valueError
    | .typeError => if r.lastItem.isNone then (do let v ← PM.getItem 0; pure (some v)) else throw .typeError
    | e => throw e

/-- buffer_reader.py 391-420: the section of `read`, the defaults already filled in. -/
def readP [BEq V] (r : Reader K V) (n : Int) (peek ignore strict : Bool) : PM K V (Ret V × Reader K V) := do
  let next ← r.nextP ignore
  match next with
  | none => pure (.none, r)
  | some item =>
    if n > 1 then do
      let i ← PM.index item
      if strict then do
        let len ← PM.len
        if (i : Int) + n ≥ len then throw .valueError
      let l ← PM.rangeByIndex i ((i : Int) + n).toNat none
      if !peek then do
        let last ← PM.ofPy (dqLast l)
        let r' ← r.setLastP last
        pure (.many l, r')
      else pure (.many l, r)
    else if !peek then do
      let r' ← r.setLastP item
      pure (.one item, r')
    else pure (.one item, r)

/-- buffer_reader.py 267-271: the key of the next item; `none`: `return None` at 270. -/
def nextKeyP (ignore : Bool) (next : Ret V) : PM K V (Option (Option K)) :=
  PM.except
    (do let k ← PM.ask (fun s => match next with
          | .none => s.keyNone
          | .one v => .ok (some (s.key v))
          | .many _ => .error .typeError)
        pure (some k))
    fun e => match e with
      | .typeError => if ignore then pure none else throw .typeError
      | e => throw e

/-- buffer_reader.py 263-274: where to start, with the nested `read`; `none`: `return None`. -/
def rangeStartP [BEq V] (r : Reader K V) (start : K) (ignore onlyNew : Bool) : PM K V (Option K) :=
  if onlyNew && r.lastKey.isSome then do
    let next ← PM.locked (r.readP 1 true ignore r.cfg.strict)
    let nk ← nextKeyP ignore next.1
    match nk with
    | none => pure none
    | some nk => do
      let b ← PM.ofPy (ltPy nk (some start))
      pure (if b then some start else nk)
  else pure (some start)

/-- buffer_reader.py 275-279: `start_le`. -/
def roundStartP (start : K) (startLe : Bool) : PM K V K :=
  if startLe then PM.except (do let v ← PM.findLe (some start); PM.keyOf v) fun e => match e with
    | .valueError => pure start
    | e => throw e
  else pure start

/-- buffer_reader.py 280-286: `stop_ge`; `none`: `return None` at 285. -/
def roundStopP (stop : K) (ignore stopGe : Bool) : PM K V (Option K) :=
  if stopGe then PM.except (do let v ← PM.findGe (some stop); let k ← PM.keyOf v; pure (some k)) fun e => match e with
    | .valueError => if ignore then pure none else throw .valueError
    | e => throw e
  else pure (some stop)

/-- buffer_reader.py 289-297: the cursor after `range`. -/
def rangeEndP (r : Reader K V) (peek ignore : Bool) (items : List V) : PM K V (Ret V × Reader K V) :=
  if peek then pure (.many items, r) else
    match dqLast items with
    | .ok v => do
      let r' ← r.setLastP v
      pure (.many items, r')
    | .error e => if ignore then pure (.none, r) else throw e

/-- buffer_reader.py 262-297: the section of `range` and what follows it. -/
def rangeP [BEq V] (r : Reader K V) (start stop : K) (step : Option Int) (peek ignore onlyNew startLe stopGe : Bool) :
    PM K V (Ret V × Reader K V) := do
  let start ← r.rangeStartP start ignore onlyNew
  match start with
  | none => pure (.none, r)
  | some start => do
    let start ← roundStartP start startLe
    let stop ← roundStopP stop ignore stopGe
    match stop with
    | none => pure (.none, r)
    | some stop => do
      let items ← PM.range (some start) (some stop) step
      r.rangeEndP peek ignore items

/-- buffer_reader.py 311-329: the item `tail` finds; `none`: `return None`. -/
def tailItemP (r : Reader K V) (ignore onlyNew : Bool) : PM K V (Option V) :=
  if onlyNew then PM.except (do let v ← PM.findLastGt r.lastKey; pure (some v)) fun e => match e with
    | .valueError => if ignore then pure none else throw .valueError
    | .typeError => if r.lastItem.isNone then (do let v ← PM.getItem (-1); pure (some v)) else throw .typeError
    | e => throw e
  else PM.except (do let v ← PM.getItem (-1); pure (some v)) fun e => if ignore then pure none else throw e

/-- buffer_reader.py 310-332: the section of `tail` and what follows it. -/
def tailP (r : Reader K V) (peek ignore onlyNew : Bool) : PM K V (Ret V × Reader K V) := do
  let item ← r.tailItemP ignore onlyNew
  match item with
  | none => pure (.none, r)
  | some v =>
    if !peek then do
      let r' ← r.setLastP v
      pure (.one v, r')
    else pure (.one v, r)

/-- buffer_reader.py 334-339 `head`. -/
def headP (r : Reader K V) (peek : Bool) : PM K V (Ret V × Reader K V) := do
  let v ← PM.getItem 0
  if !peek then do
    let r' ← r.setLastP v
    pure (.one v, r')
  else pure (.one v, r)

omit [LT K] [DecidableLT K] in
/-- A call with its outcome; when it raises, the reader is as before. -/
def finish (r : Reader K V) (p : PM K V (Ret V × Reader K V)) : Prog (SD K V) (Py (Ret V) × Reader K V) :=
  Prog.bind (ExceptT.run p) fun x => .ret (match x with
    | .ok (a, r') => (.ok a, r')
    | .error e => (.error e, r))

/-- The body of a reader call, access by access. -/
def prog [BEq V] (r : Reader K V) : RdOp K V → Prog (SD K V) (Py (Ret V) × Reader K V)
  | .read n p i st => r.finish (r.readP (n.getD r.cfg.n) (p.getD false) (i.getD r.cfg.ignore) (st.getD r.cfg.strict))
  | .nextMethod n p i st => r.finish (r.readP n p i st)
  | .readForNext => r.finish (r.readP r.cfg.n r.cfg.peek true r.cfg.strict)
  | .range a b st p i o le ge => r.finish (r.rangeP a b st p (i.getD r.cfg.ignore) o le ge)
  | .tail p i o => r.finish (r.tailP p i o)
  | .head p => r.finish (r.headP p)
  | .setLast v => r.finish (do let r' ← r.setLastP v; pure (.none, r'))
  | .delLast => .ret (.ok .none, { r with lastItem := none, lastKey := none })

end Reader

/-! ### The machine -/

/-- A call in progress: its number, what remains of the reader's body, the outcome once it is fixed; ghost: it has taken effect. -/
structure Pend (K V : Type) where
  id : Nat
  call : ChOp K V
  rest : Prog (SD K V) (Py (Ret V) × Reader K V)
  out : Option (Py (Ret V))
  eff : Bool

/-- The lock and the buffer with the threads using them, the calls in progress, the reader objects. Ghost: number of the next call, the history of
invocations and returns, and the order in which calls took effect. -/
structure LM (K V : Type) where
  m : RW.M (SD K V) (RW.WOp V)
  pend : Nat → Option (Pend K V)
  readers : Nat → Reader K V
  next : Nat
  hist : List (Spec.HEv (ChOp K V) (Py (Ret V)))
  lin : List (Nat × ChOp K V × Py (Ret V))

/-- Scheduler choices: thread `i` makes call `c`; thread `i` executes its next statement. -/
inductive LAct (K V : Type) where
  | call (i : Nat) (c : ChOp K V)
  | go (i : Nat)

namespace LM
variable {K V : Type} [LT K] [DecidableLT K] [BEq V]

omit [LT K] [DecidableLT K] [BEq V] in
def init (n : Nat) (key : V → K) (keyNone : Py (Option K)) (maxlen : Option Nat) (cfg : Nat → Cfg) : LM K V :=
  { m := RW.init n (SD.empty key keyNone maxlen), pend := fun _ => none, readers := fun i => Reader.init (cfg i), next := 0, hist := [], lin := [] }

omit [LT K] [DecidableLT K] [BEq V] in
def setPend (s : LM K V) (i : Nat) (p : Option (Pend K V)) : LM K V := { s with pend := fun j => if j = i then p else s.pend j }

omit [LT K] [DecidableLT K] [BEq V] in
/-- The call begins. -/
def invoke (s : LM K V) (i : Nat) (c : ChOp K V) (rest : Prog (SD K V) (Py (Ret V) × Reader K V)) (m : RW.M (SD K V) (RW.WOp V)) : LM K V :=
  { s.setPend i (some ⟨s.next, c, rest, none, false⟩) with m := m, next := s.next + 1, hist := s.hist ++ [.inv s.next c] }

omit [LT K] [DecidableLT K] [BEq V] in
/-- The thread is where `m` says; if it has left the lock, the call returns. -/
def arrive (s : LM K V) (i : Nat) (p : Pend K V) (m : RW.M (SD K V) (RW.WOp V)) : LM K V :=
  match m.th[i]?, p.out with
  | some t, some o => if t.pc = .idle then { s.setPend i none with m := m, hist := s.hist ++ [.ret p.id o] } else { s with m := m }
  | _, _ => { s with m := m }

/-- What a writer call comes to (stream_buffer.py 60-66; sorted_deque.py 92-109, 144-152), on the buffer found. -/
def wout (s : SD K V) : RW.WOp V → Py (Ret V)
  | .append v => (s.append v).2.map fun _ => .none
  | .drop n => (s.drop n).2.map fun _ => .none

omit [LT K] [DecidableLT K] [BEq V] in
/-- Writer calls. -/
def asW : ChOp K V → Option (RW.WOp V)
  | .append v => some (.append v)
  | .drop n => some (.drop n)
  | .rd _ _ => none

/-- A statement of a writer call: on entering the section the outcome is determined by the buffer found there (exceptions of 99-107, `drop`
of too many), on leaving it the call has taken effect. -/
def goW (s : LM K V) (i : Nat) (p : Pend K V) (op : RW.WOp V) (t : RW.Th (SD K V) (RW.WOp V)) : Option (LM K V) :=
  match s.m.step RW.bufBody (.go i) with
  | none => none
  | some m' =>
    if t.pc = .w5 then
      some { s.setPend i (some { p with out := some (wout s.m.data op) }) with m := m' }
    else if t.pc = .wCS ∧ t.prog = [] then
      match p.out with
      | some o => some { s.setPend i (some { p with eff := true }) with m := m', lin := s.lin ++ [(p.id, p.call, o)] }
      | none => none
    else some (s.arrive i p m')

/-- A statement of a reader call: inside the section the body goes on. -/
def goR (s : LM K V) (i : Nat) (p : Pend K V) (r : Nat) (t : RW.Th (SD K V) (RW.WOp V)) : Option (LM K V) :=
  if t.pc = .rCS then
    match p.rest with
    | .look k => (s.m.step RW.bufBody (.look i)).map fun m' => { s.setPend i (some { p with rest := k s.m.data }) with m := m' }
    | .lock k => (s.m.step RW.bufBody (.nest i)).map fun m' => { s.setPend i (some { p with rest := k }) with m := m' }
    | .unlock k => if 0 < t.outer then
        (s.m.step RW.bufBody (.go i)).map fun m' => { s.setPend i (some { p with rest := k }) with m := m' } else none
    | .ret x => if t.outer = 0 then
        (s.m.step RW.bufBody (.go i)).map fun m' => { s.setPend i (some { p with out := some x.1, eff := true }) with
          m := m', readers := (fun j => if j = r then x.2 else s.readers j), lin := s.lin ++ [(p.id, p.call, x.1)] } else none
  else (s.m.step RW.bufBody (.go i)).map fun m' => s.arrive i p m'

/-- One step. Simplified: a call works with the cursor its reader had when the call began and moves it when it takes effect, which is exact as long
as calls on one reader do not overlap. `last_item` is assigned and deleted without the lock (buffer_reader.py 214-222). -/
def step (s : LM K V) : LAct K V → Option (LM K V)
  | .call i c => if (s.pend i).isSome then none else
    match c with
    | .append v => (s.m.step RW.bufBody (.beginWrite i (.append v))).map fun m' => s.invoke i c (.ret (.ok .none, Reader.init Cfg.default)) m'
    | .drop n => (s.m.step RW.bufBody (.beginWrite i (.drop n))).map fun m' => s.invoke i c (.ret (.ok .none, Reader.init Cfg.default)) m'
    | .rd r op => match op with
      | .setLast v => some { s with
          readers := (fun j => if j = r then { s.readers r with lastKey := some (s.m.data.key v), lastItem := some v } else s.readers j)
          next := s.next + 1
          hist := s.hist ++ [.inv s.next c, .ret s.next (.ok .none)]
          lin := s.lin ++ [(s.next, c, .ok .none)] }
      | .delLast => some { s with
          readers := (fun j => if j = r then { s.readers r with lastKey := none, lastItem := none } else s.readers j)
          next := s.next + 1
          hist := s.hist ++ [.inv s.next c, .ret s.next (.ok .none)]
          lin := s.lin ++ [(s.next, c, .ok .none)] }
      | op => (s.m.step RW.bufBody (.beginRead i)).map fun m' => s.invoke i c ((s.readers r).prog op) m'
  | .go i => match s.pend i, s.m.th[i]? with
    | some p, some t => match p.call with
      | .append v => s.goW i p (.append v) t
      | .drop n => s.goW i p (.drop n) t
      | .rd r _ => s.goR i p r t
    | _, _ => none

omit [LT K] [DecidableLT K] [BEq V] in
/-- Calls on reader `r`. -/
def onReader (r : Nat) : ChOp K V → Prop
  | .rd r' _ => r' = r
  | _ => False

/-- An execution. -/
def exec : LM K V → List (LAct K V) → Option (LM K V)
  | s, [] => some s
  | s, a :: as => match s.step a with
    | some s' => s'.exec as
    | none => none

end LM
end S2P
