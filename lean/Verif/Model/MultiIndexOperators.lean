import Verif.Model.MultiIndex
/-!
# Model of the operators `x ** a`, `x + a`, `x - a` with a multi-index `a` on the right (algebra/multiindex.py 148-200)

Python first asks the type of the left operand. Lists and tuples have no operator for a multi-index, so the reflected methods `__rpow__`, `__radd__`,
`__rsub__` of `MultiIndex` run. Numpy arrays handle the operation themselves: `MultiIndex` has `__len__` and `__getitem__` and declares no
`__array_ufunc__` or `__array_priority__`, so numpy converts it to an array of integers and computes entry by entry, with broadcasting of operands of length
one and ValueError for other lengths. Arrays have one axis and their entries are exact numbers.
-/

namespace Verif.MI
open Verif

/-- A left operand: a list or tuple, or a numpy array with one axis. -/
inductive LeftOperand (K : Type) where
  | seq (l : List K)
  | array (l : List K)

/-- The result of an operator: a number, a multi-index or a numpy array. -/
inductive OpResult (K : Type) where
  | number (v : K)
  | index (a : List Nat)
  | array (l : List K)
deriving DecidableEq

/-- Numpy's entry by entry operation with broadcasting for arrays with one axis. -/
def broadcastWith {α β γ : Type} (f : α → β → γ) (x : List α) (y : List β) : Py (List γ) :=
  if x.length = y.length then .ok (List.zipWith f x y)
  else match x, y with
    | [u], _ => .ok (y.map (f u))
    | _, [v] => .ok (x.map (fun u => f u v))
    | _, _ => .error .value

/-- `x ** a`: `__rpow__` (192-200) for lists and tuples. -/
def leftPow {K : Type} [Monoid K] (x : LeftOperand K) (a : List Nat) : Py (OpResult K) :=
  match x with
  | .seq l => do
    let v ← power l a
    return .number v
  | .array l => do
    let v ← broadcastWith (fun (u : K) (k : Nat) => u ^ k) l a
    return .array v

/-- `x + a`: `__radd__` (148-160) for lists and tuples. -/
def leftAdd (x : LeftOperand Int) (a : List Nat) : Py (OpResult Int) :=
  match x with
  | .seq l => do
    let v ← add a l
    return .index v
  | .array l => do
    let v ← broadcastWith (fun (u : Int) (k : Nat) => u + (k : Int)) l a
    return .array v

/-- `x - a`: `__rsub__` (178-190) for lists and tuples. -/
def leftSub (x : LeftOperand Int) (a : List Nat) : Py (OpResult Int) :=
  match x with
  | .seq l => do
    let v ← rsub a l
    return .index v
  | .array l => do
    let v ← broadcastWith (fun (u : Int) (k : Nat) => u - (k : Int)) l a
    return .array v

end Verif.MI
