import Mathlib.Algebra.Module.Basic
import Mathlib.Algebra.Field.Basic
import Mathlib.Algebra.Order.Floor.Ring
import Mathlib.Algebra.Order.Field.Basic
import Verif.Py
/-!
# Model of `calculus/finite_difference.py`: numpy arrays and their memory

`Verif/Model/FiniteDifference.lean` models the point as a list of numbers and the function as a pure function. Here the two facts about numpy arrays
which that model leaves out are added for the differences that change the caller's array in place:

* the assignment `x[i] = v` converts `v` to the type of the entries of `x` (`store`): nothing happens in an array of floats, in an array of integers
  the number is truncated towards zero;
* the function can return an array which shares its memory with its argument (the argument itself, a slice of it, ...). The entries of such a result
  are read when the difference is computed, that is after the argument has been changed back.
-/

namespace Verif.FinDiff
open Verif

/-- What the call `f(x)` returns: a new object with value `v`, or a view of the argument, whose value is computed from the entries that the argument has
when the value is used. -/
inductive Returned (K V : Type) where
  | fresh (v : V)
  | view (g : List K → V)

/-- The value of a result of `f(x)` when the argument has the entries `x`. -/
def Returned.value {K V : Type} : Returned K V → List K → V
  | .fresh v, _ => v
  | .view g, x => g x

/-- The conversion of a number that is assigned to an entry of an array of integers: truncation towards zero. -/
def truncate {K : Type} [Field K] [LinearOrder K] [FloorRing K] (v : K) : K := if 0 ≤ v then (⌊v⌋ : K) else (⌈v⌉ : K)

variable {K V : Type} [Field K] [AddCommGroup V] [Module K V]

/-- The loop of `forward_difference` (32-37) and `forward_difference_jacobian` (74-79) over the remaining coordinates. The assignments to `x[i]` are in the lines
34, 36 (76, 78), the difference `f1 - f0` is computed in line 37 (79). -/
def forwardLoopA (store : K → K) (f : List K → Py (Returned K V)) (h : K) (f0 : Returned K V) : List Nat → List K → Py (List V) × List K
  | [], x => (.ok [], x)
  | i :: is, x =>
    match x[i]? with
    | none => (.error .index, x)
    | some x0 =>
      let x1 := x.set i (store (x0 + h))
      match f x1 with
      | .error e => (.error e, x1)
      | .ok f1 =>
        let x2 := x1.set i (store x0)
        match forwardLoopA store f h f0 is x2 with
        | (.error e, y) => (.error e, y)
        | (.ok g, y) => (.ok ((1 / h) • (f1.value x2 - f0.value x2) :: g), y)

/-- `forward_difference` (30-38) and `forward_difference_jacobian` (72-80; the list of the columns) for an array `x`. -/
def forwardDifferenceA (store : K → K) (f : List K → Py (Returned K V)) (x : List K) (h : K) : Py (List V) × List K :=
  match f x with
  | .error e => (.error e, x)
  | .ok f0 => forwardLoopA store f h f0 (List.range x.length) x

/-- The loop of `central_difference` (122-129) and `central_difference_jacobian` (165-172). -/
def centralLoopA (store : K → K) (f : List K → Py (Returned K V)) (h : K) : List Nat → List K → Py (List V) × List K
  | [], x => (.ok [], x)
  | i :: is, x =>
    match x[i]? with
    | none => (.error .index, x)
    | some x0 =>
      let x1 := x.set i (store (x0 + 1 / 2 * h))
      match f x1 with
      | .error e => (.error e, x1)
      | .ok fp =>
        let x2 := x1.set i (store (x0 - 1 / 2 * h))
        match f x2 with
        | .error e => (.error e, x2)
        | .ok fm =>
          let x3 := x2.set i (store x0)
          match centralLoopA store f h is x3 with
          | (.error e, y) => (.error e, y)
          | (.ok g, y) => (.ok ((1 / h) • (fp.value x3 - fm.value x3) :: g), y)

/-- `central_difference` (120-130) and `central_difference_jacobian` (163-173; the list of the columns) for an array `x`. -/
def centralDifferenceA (store : K → K) (f : List K → Py (Returned K V)) (x : List K) (h : K) : Py (List V) × List K :=
  centralLoopA store f h (List.range x.length) x

end Verif.FinDiff
