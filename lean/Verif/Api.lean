import Verif.Py
/-
Vocabulary shared by the model and the specification: the calls of the public API and the shape of their results.
No behaviour is defined here.
-/
namespace S2P

/-- Reader settings given to `mk_reader` (buffer_reader.py 86-141). -/
structure Cfg where
  n : Int
  peek : Bool
  ignore : Bool
  strict : Bool
  deriving DecidableEq, Repr

/-- buffer_reader.py 92-95: the defaults of `__init__`. -/
def Cfg.default : Cfg := { n := 1, peek := false, ignore := false, strict := false }

/-- A value returned by a reader method: `None`, one item, or a list of items. -/
inductive Ret (V : Type) where
  | none
  | one (v : V)
  | many (vs : List V)
  deriving DecidableEq, Repr

/-- The items contained in a returned value. -/
def Ret.items {V : Type} : Ret V → List V
  | .none => []
  | .one v => [v]
  | .many vs => vs

/-- Calls on one reader; `Option` arguments may be left unspecified (`None`). -/
inductive RdOp (K V : Type) where
  /-- `read(n, peek=, ignore_no_item_found=, strict_n=)` -/
  | read (n : Option Int) (peek ignore strict : Option Bool)
  /-- the deprecated `next(...)` method, arguments after its own defaulting -/
  | nextMethod (n : Int) (peek ignore strict : Bool)
  /-- the read done by `next(reader)` -/
  | readForNext
  /-- `range(...)` -/
  | range (start stop : K) (step : Option Int) (peek : Bool) (ignore : Option Bool) (onlyNew startLe stopGe : Bool)
  | tail (peek ignore onlyNew : Bool)
  | head (peek : Bool)
  /-- `reader.last_item = item` -/
  | setLast (item : V)
  /-- `del reader.last_item` -/
  | delLast

/-- Calls on the buffer or on reader `i`. -/
inductive ChOp (K V : Type) where
  | append (v : V)
  | drop (n : Int)
  | rd (i : Nat) (op : RdOp K V)

end S2P
