import Mathlib.Algebra.Module.Basic
import Mathlib.Algebra.Field.Basic
import Mathlib.Logic.Function.Basic
import Verif.Py
/-!
# Model of `calculus/finite_difference.py`

Numbers are elements of a field. The function to be differentiated is a parameter: a pure function that may raise an exception, with values in
a vector space `V` (scalars for gradients, vectors for the columns of Jacobian matrices). The differences of multivariate functions perturb the
caller's array in place; the model returns the result together with the array after the call, also when an exception is raised. Entries are floats and the
function returns new objects; arrays of integers and views are in `Verif/Model/FiniteDifferenceArray.lean`.
-/

namespace Verif.FinDiff
open Verif

variable {K V : Type} [Field K] [AddCommGroup V] [Module K V]

/-- `forward_difference` (6-28) for a univariate function, `V = K`; `forward_difference_jacobian` (62-70): the only column. -/
def forward1 (f : K → Py V) (x h : K) : Py V := do
  let a ← f (x + h)
  let b ← f x
  return (1 / h) • (a - b)

/-- The loop of `forward_difference` (32-37) and `forward_difference_jacobian` (74-79) over the remaining coordinates. -/
def forwardLoop (f : List K → Py V) (h : K) (f0 : V) : List Nat → List K → Py (List V) × List K
  | [], x => (.ok [], x)
  | i :: is, x =>
    match x[i]? with
    | none => (.error .index, x)
    | some x0 =>
      let x1 := x.set i (x0 + h)
      match f x1 with
      | .error e => (.error e, x1)
      | .ok f1 =>
        let x2 := x1.set i x0
        match forwardLoop f h f0 is x2 with
        | (.error e, y) => (.error e, y)
        | (.ok g, y) => (.ok ((1 / h) • (f1 - f0) :: g), y)

/-- `forward_difference` (6-38, multivariate) and `forward_difference_jacobian` (41-80; the list of the columns). -/
def forwardDifference (f : List K → Py V) (x : List K) (h : K) : Py (List V) × List K :=
  match f x with
  | .error e => (.error e, x)
  | .ok f0 => forwardLoop f h f0 (List.range x.length) x

/-- `discrete_forward_difference` (83-94). -/
def discreteForwardDifference (f0 x0 f1 x1 : K) : K := (f1 - f0) / (x1 - x0)

/-- `central_difference` (97-119) for a univariate function; `central_difference_jacobian` (154-162): the only column. -/
def central1 (f : K → Py V) (x h : K) : Py V := do
  let a ← f (x + 1 / 2 * h)
  let b ← f (x - 1 / 2 * h)
  return (1 / h) • (a - b)

/-- The loop of `central_difference` (122-129) and `central_difference_jacobian` (165-172). -/
def centralLoop (f : List K → Py V) (h : K) : List Nat → List K → Py (List V) × List K
  | [], x => (.ok [], x)
  | i :: is, x =>
    match x[i]? with
    | none => (.error .index, x)
    | some x0 =>
      let x1 := x.set i (x0 + 1 / 2 * h)
      match f x1 with
      | .error e => (.error e, x1)
      | .ok fp =>
        let x2 := x1.set i (x0 - 1 / 2 * h)
        match f x2 with
        | .error e => (.error e, x2)
        | .ok fm =>
          let x3 := x2.set i x0
          match centralLoop f h is x3 with
          | (.error e, y) => (.error e, y)
          | (.ok g, y) => (.ok ((1 / h) • (fp - fm) :: g), y)

/-- `central_difference` (97-130, multivariate) and `central_difference_jacobian` (133-173; the list of the columns). -/
def centralDifference (f : List K → Py V) (x : List K) (h : K) : Py (List V) × List K :=
  centralLoop f h (List.range x.length) x

/-- `second_forward_difference` (176-198) for a univariate function. -/
def secondForward1 (f : K → Py K) (x h : K) : Py K := do
  let a ← f (x + 2 * h)
  let b ← f (x + h)
  let c ← f x
  return (a - 2 * b + c) / h ^ 2

/-- `second_central_difference` (219-245) for a univariate function. -/
def secondCentral1 (f : K → Py K) (x h : K) : Py K := do
  let a ← f (x + h)
  let b ← f x
  let c ← f (x - h)
  return (a - 2 * b + c) / h ^ 2

/-- `a + s * b` for arrays of the same length. -/
def addScaled (a : List K) (s : K) (b : List K) : List K := List.zipWith (fun u v => u + s * v) a b

/-- The combination of four values computed in `second_forward_difference` (208-211). -/
def forwardEntry (f : List K → Py K) (x : List K) (h : K) (ei ej : List K) : Py K := do
  let a ← f (addScaled x h (addScaled ei 1 ej))
  let b ← f (addScaled x h ei)
  let c ← f (addScaled x h ej)
  let d ← f x
  return (a - b - c + d) * (1 / h ^ 2)

/-- The combination of four values computed in `second_central_difference` (255-258). -/
def centralEntry (f : List K → Py K) (x : List K) (h : K) (ei ej : List K) : Py K := do
  let a ← f (addScaled x (1 / 2 * h) (addScaled ei 1 ej))
  let b ← f (addScaled x (1 / 2 * h) (addScaled ei (-1) ej))
  let c ← f (addScaled x (1 / 2 * h) (addScaled ej (-1) ei))
  let d ← f (addScaled x (-(1 / 2 * h)) (addScaled ei 1 ej))
  return (a - b - c + d) * (1 / h ^ 2)

/-- A square array; entries that have not been written hold what `np.empty` left there. -/
abbrev Table (K : Type) := Nat → Nat → K

/-- `table[i][j] = v`. -/
def Table.put (t : Table K) (i j : Nat) (v : K) : Table K := Function.update t i (Function.update (t i) j v)

/-- The inner loop (206-214 and 253-261) over the remaining `j`: local arrays `e_i`, `e_j` and the result. -/
def innerLoop (entry : List K → List K → Py K) (i : Nat) (ei : List K) : List Nat → List K → Table K → Py (List K × Table K)
  | [], ej, t => .ok (ej, t)
  | j :: js, ej, t => do
    let ej ← setE ej j 1
    let v ← entry ei ej
    let t := t.put i j v
    let t := if i ≠ j then t.put j i (t i j) else t
    let ej ← setE ej j 0
    innerLoop entry i ei js ej t

/-- The outer loop (204-215 and 251-262) over the remaining `i`. -/
def outerLoop (entry : List K → List K → Py K) (n : Nat) : List Nat → List K → List K → Table K → Py (Table K)
  | [], _, _, t => .ok t
  | i :: is, ei, ej, t => do
    let ei ← setE ei i 1
    let (ej, t) ← innerLoop entry i ei (List.range' i (n - i)) ej t
    let ei ← setE ei i 0
    outerLoop entry n is ei ej t

/-- `second_forward_difference` (176-216), multivariate. `t` is the uninitialised array. -/
def secondForwardDifference (f : List K → Py K) (x : List K) (h : K) (t : Table K) : Py (Table K) :=
  outerLoop (forwardEntry f x h) x.length (List.range x.length) (List.replicate x.length 0) (List.replicate x.length 0) t

/-- `second_central_difference` (219-263), multivariate. -/
def secondCentralDifference (f : List K → Py K) (x : List K) (h : K) (t : Table K) : Py (Table K) :=
  outerLoop (centralEntry f x h) x.length (List.range x.length) (List.replicate x.length 0) (List.replicate x.length 0) t

end Verif.FinDiff
