import Verif.Model.SimplexGeometry
import Verif.Model.PolynomialsBase
/-!
# Model of the tests for approximate equality, and of `calculus/error_measures.py`

Floating point numbers are replaced by real numbers. The random points are a parameter: a function that returns the given number of points. In one
dimension the points are numbers, here identified with vectors of length 1.
-/

namespace Verif.Equality
open Verif Verif.Simplex Verif.SimplexGeometry

noncomputable section

/-- The value of a callable: a number or an array of numbers. -/
inductive Val where
  | num (x : ℝ)
  | vec (l : List ℝ)

/-- `math.isclose`: ValueError for negative tolerances. -/
def isclose (a b relTol absTol : ℝ) : Py Bool :=
  open Classical in
  if relTol < 0 ∨ absTol < 0 then .error .value
  else .ok (decide (a = b ∨ |b - a| ≤ |relTol * b| ∨ |b - a| ≤ |relTol * a| ∨ |b - a| ≤ absTol))

/-- A value as a floating point number: arrays of length 1 are converted, other arrays raise TypeError. -/
def asFloat : Val → Py ℝ
  | .num x => .ok x
  | .vec [x] => .ok x
  | .vec _ => .error .type

/-- Indexing a value: TypeError for a number, IndexError for an array that is too short. -/
def item (q : Val) (i : ℕ) : Py ℝ :=
  match q with
  | .num _ => .error .type
  | .vec l => getE l i

/-- The loop over the components, `for i in range(len(p))` (polynomials_base.py:84-86, polynomials_simplex_base.py:63-65), over the remaining indices. -/
def componentLoop (l : List ℝ) (q : Val) (relTol absTol : ℝ) : List ℕ → Py Bool
  | [] => .ok true
  | i :: is => do
    let a ← getE l i
    let b ← item q i
    let c ← isclose a b relTol absTol
    if c then componentLoop l q relTol absTol is else .ok false

/-- The comparison of two numbers in the `except TypeError` branch (polynomials_base.py:87-90, polynomials_simplex_base.py:66-69). -/
def compareScalars (p q : Val) (relTol absTol : ℝ) : Py Bool := do
  let a ← asFloat p
  let b ← asFloat q
  isclose a b relTol absTol

/-- The body of the loop over the points (polynomials_base.py:79-90, polynomials_simplex_base.py:58-69): whether the comparison goes on. `len(p)` of a
number raises TypeError; a TypeError in the loop over the components also leads to the second branch. -/
def compareValues (p q : Val) (relTol absTol : ℝ) : Py Bool :=
  match p with
  | .num _ => compareScalars p q relTol absTol
  | .vec l =>
    match componentLoop l q relTol absTol (List.range l.length) with
    | .error .type => compareScalars p q relTol absTol
    | r => r

/-- The loop over the points (polynomials_base.py:78-91, polynomials_simplex_base.py:57-70). -/
def pointLoop {X : Type} (p1 p2 : X → Py Val) (relTol absTol : ℝ) : List X → Py Bool
  | [] => .ok true
  | x :: xs => do
    let p ← p1 x
    let q ← p2 x
    let c ← compareValues p q relTol absTol
    if c then pointLoop p1 p2 relTol absTol xs else .ok false

/-- `polynomials_equal` (polynomials_base.py:40-91); `random d` are the `d` random points. -/
def polynomialsEqual {m : ℕ} (random : ℕ → List (Fin m → ℝ)) (p1 p2 : (Fin m → ℝ) → Py Val) (r : ℕ) (relTol absTol : ℝ) : Py Bool :=
  let dim := Poly.getDimension r m
  pointLoop p1 p2 relTol absTol (random dim)

/-- `polynomials_equal_on_simplex` (polynomials_simplex_base.py:14-70); `random d` is the result of `nsimplex_sampling(n, d)`. -/
def polynomialsEqualOnSimplex {k n : ℕ} (random : ℕ → List (Fin k → ℝ)) (p1 p2 : (Fin n → ℝ) → Py Val) (r : ℕ) (v : Vertices ℝ k n)
    (relTol absTol : ℝ) : Py Bool := do
  let phi ← affineTransformationFromUnit v
  let dim := Poly.getDimension r k
  pointLoop p1 p2 relTol absTol ((random dim).map (createAffineMap phi))

/-- `simplex_vertices` (simplicial_complex.py:269-288) for a simplex with `k + 1` vertices. -/
def cornersE {k n : ℕ} (s : Fin (k + 1) → ℕ) (vertices : List (Fin n → ℝ)) : Py (Vertices ℝ k n) := do
  let _ ← getE vertices 0
  let l ← (List.finRange (k + 1)).mapM fun (i : Fin (k + 1)) => getE vertices (s i)
  return fun i => l.getD i 0

/-- `piecewise_polynomials_equal` (piecewise_polynomial.py:382-411), the loop over the remaining simplices, the next one being number `j`; `random j d`
are the random points used for simplex number `j`. -/
def simplexLoop {k n : ℕ} (random : ℕ → ℕ → List (Fin k → ℝ)) (vertices : List (Fin n → ℝ)) (p1 p2 : (Fin n → ℝ) → Py Val) (r : ℕ)
    (relTol absTol : ℝ) : ℕ → List (Fin (k + 1) → ℕ) → Py Bool
  | _, [] => .ok true
  | j, s :: ss => do
    let v ← cornersE s vertices
    let c ← polynomialsEqualOnSimplex (random j) p1 p2 r v relTol absTol
    if c then simplexLoop random vertices p1 p2 r relTol absTol (j + 1) ss else .ok false

/-- `piecewise_polynomials_equal` (piecewise_polynomial.py:382-411). -/
def piecewisePolynomialsEqual {k n : ℕ} (random : ℕ → ℕ → List (Fin k → ℝ)) (triangles : List (Fin (k + 1) → ℕ)) (vertices : List (Fin n → ℝ))
    (p1 p2 : (Fin n → ℝ) → Py Val) (r : ℕ) (relTol absTol : ℝ) : Py Bool :=
  simplexLoop random vertices p1 p2 r relTol absTol 0 triangles

/-- `absolute_error` (error_measures.py:4-13). -/
def absoluteError (x0 x : ℝ) : ℝ := |x0 - x|

/-- `relative_error` (error_measures.py:16-39). -/
def relativeError (x0 x zeroTol : ℝ) : Py ℝ :=
  open Classical in
  if |x0| > zeroTol then (if |x0| = 0 then .error .zeroDivision else .ok (absoluteError x0 x / |x0|)) else .ok (absoluteError x0 x)

/-- `relative_error_symmetric` (error_measures.py:42-71). -/
def relativeErrorSymmetric (x1 x2 zeroTol : ℝ) : Py ℝ :=
  open Classical in
  let denom := max |x1| |x2|
  if denom > zeroTol then (if denom = 0 then .error .zeroDivision else .ok (absoluteError x1 x2 / denom)) else .ok (absoluteError x1 x2)

end

end Verif.Equality
