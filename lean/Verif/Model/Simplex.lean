import Mathlib.LinearAlgebra.Matrix.NonsingularInverse
import Mathlib.Algebra.Order.Field.Basic
import Mathlib.Logic.Function.Basic
import Verif.Py
/-!
# Model of `geometry/primitives/simplex.py` and `calculus/affine_map.py`

A `k`-simplex in `Kⁿ` is an array of shape `(k + 1, n)`: a function `Fin (k + 1) → Fin n → K`. The library passes scalars
instead of arrays of length one when `n = 1`; the model does not distinguish these. Floating point numbers are modelled by a field
`K`; `np.linalg.inv` and `np.linalg.det` by the exact inverse and determinant.
-/

namespace Verif.Simplex
open Verif

variable {K : Type} [Field K]

/-- The vertices of a `k`-simplex in `Kⁿ`. -/
abbrev Vertices (K : Type) (k n : Nat) := Fin (k + 1) → Fin n → K

/-- An affine transformation `x ↦ a x + b` as the pair `(a, b)` used throughout `affine_map.py`. -/
abbrev Affine (K : Type) (m n : Nat) := Matrix (Fin n) (Fin m) K × (Fin n → K)

/-- `create_affine_map` (affine_map.py:14-90), the returned function; the branches differ in the scalar / array representation
of one dimensional quantities only. -/
def createAffineMap {m n : Nat} (phi : Affine K m n) (x : Fin m → K) : Fin n → K := phi.1.mulVec x + phi.2

/-- `inverse_affine_transformation` (affine_map.py:93-115). A singular matrix raises LinAlgError (a ValueError), in the scalar
case ZeroDivisionError. -/
noncomputable def inverseAffine [DecidableEq K] {n : Nat} (phi : Affine K n n) : Py (Affine K n n) :=
  if phi.1.det = 0 then .error (if n = 1 then .zeroDivision else .value)
  else .ok (phi.1⁻¹, -(phi.1⁻¹.mulVec phi.2))

/-- `affine_composition` (affine_map.py:159-172): first `phi1`, then `phi2`. The offset of the code has another shape in some cases where only one
of the dimensions `m`, `n` is one; these are modelled in `Verif/Model/AffineMap.lean`, and the theorems here exclude them. -/
def affineComposition {l m n : Nat} (phi1 : Affine K l m) (phi2 : Affine K m n) : Affine K l n :=
  (phi2.1 * phi1.1, phi2.1.mulVec phi1.2 + phi2.2)

/-- `unit` (simplex.py:54-80) for `ne = n`. -/
def unit (K : Type) [Field K] (n : Nat) : Vertices K n n := fun i j => if i = j.succ then 1 else 0

/-- `affine_transformation_from_unit` (simplex.py:183-208) for simplices of dimension at least 1: for a point `vertices[1]` raises IndexError
(`SimplexGeometry.affineTransformationFromUnit`). -/
def affineFromUnit {k n : Nat} (v : Vertices K k n) : Py (Affine K k n) := do
  pyAssert (decide (k ≤ n))
  return (Matrix.of fun j i => v i.succ j - v 0 j, v 0)

/-- `affine_transformation_to_unit` (simplex.py:144-157) for a simplex of full dimension (for the pseudo inverse of the
embedded case see `SimplexGeometry.affineTransformationToUnit`). -/
noncomputable def affineToUnit [DecidableEq K] {n : Nat} (v : Vertices K n n) : Py (Affine K n n) := do
  let phi ← affineFromUnit v
  inverseAffine phi

/-- `affine_transformation` (simplex.py:224-235), `vertices1` of full dimension, `vertices2` not a line in a space of dimension greater than one
(see `Verif/Model/AffineMap.lean`). -/
noncomputable def affineTransformation [DecidableEq K] {n m : Nat} (v1 : Vertices K n n) (v2 : Vertices K n m) :
    Py (Affine K n m) := do
  let phi1 ← affineToUnit v1
  let phi2 ← affineFromUnit v2
  return affineComposition phi1 phi2

/-- `signed_volume` (simplex.py:302-324) for a simplex of full dimension; for `n = 0` the empty determinant is the value 1. -/
def signedVolume {n : Nat} (v : Vertices K n n) : K :=
  (Matrix.of fun (j i : Fin n) => v i.succ j - v 0 j).det / (n.factorial : K)

/-- `volume_unit` (simplex.py:281-299). -/
def volumeUnit (K : Type) [Field K] (n : Nat) : K := 1 / (n.factorial : K)

/-- `barycentric_to_cartesian` (simplex.py:399-410). -/
def barycentricToCartesian {k n : Nat} (bary : Fin (k + 1) → K) (v : Vertices K k n) : Fin n → K :=
  (List.finRange (k + 1)).foldl (fun p i => p + bary i • v i) 0

/-- `cartesian_to_barycentric_unit` (simplex.py:413-421). -/
def cartesianToBarycentricUnit {n : Nat} (x : Fin n → K) : Fin (n + 1) → K := Fin.cons (1 - ∑ i, x i) x

/-- `barycentric_to_cartesian_unit` (simplex.py:424-432). -/
def barycentricToCartesianUnit {n : Nat} (bary : Fin (n + 1) → K) : Fin n → K := fun i => bary i.succ

/-- `_cartesian_to_barycentric_basis` (simplex.py:370-384) for a simplex of full dimension, where the pseudo inverse of the
basis matrix is its inverse. -/
noncomputable def cartesianToBarycentricBasis {n : Nat} (x : Fin n → K) (v : Vertices K n n) : Fin (n + 1) → K :=
  let b : Matrix (Fin n) (Fin n) K := Matrix.of fun j i => v i.succ j - v 0 j
  let u := b⁻¹.mulVec (x - v 0)
  Fin.cons (1 - ∑ i, u i) u

/-- `centroid` (simplex.py:484-491). -/
def centroid {k n : Nat} (v : Vertices K k n) : Fin n → K := fun j => (∑ i, v i j) / ((k + 1 : Nat) : K)

section Ordered
variable [LinearOrder K]

/-- `volume` (simplex.py:258-278) for a simplex of full dimension. -/
def volume {n : Nat} (v : Vertices K n n) : K := |signedVolume v|

/-- `orientation` (simplex.py:327-336). -/
def orientation {n : Nat} (v : Vertices K n n) : Int := if 0 ≤ signedVolume v then 1 else -1

/-- The loop of `_cartesian_to_barycentric_volume` (simplex.py:361-366): vertex `i` of the caller's array is overwritten by the
point, the signed volume computed, and the vertex restored. The state is the array and the result. -/
def barycentricStep {n : Nat} (x : Fin n → K) (vol : K) (s : Vertices K n n × (Fin (n + 1) → K)) (i : Fin (n + 1)) :
    Vertices K n n × (Fin (n + 1) → K) :=
  let vi := s.1 i
  let v := Function.update s.1 i x
  let b := Function.update s.2 i (signedVolume v / vol)
  (Function.update v i vi, b)

/-- `_cartesian_to_barycentric_volume` (339-367) for a simplex of full dimension: the array afterwards and the result
(`np.empty` is represented by zeros, all entries are overwritten). -/
def cartesianToBarycentricState {n : Nat} (x : Fin n → K) (v : Vertices K n n) : Vertices K n n × (Fin (n + 1) → K) :=
  (List.finRange (n + 1)).foldl (barycentricStep x (volume v)) (v, fun _ => 0)

/-- `cartesian_to_barycentric` (387-396). -/
def cartesianToBarycentric {n : Nat} (x : Fin n → K) (v : Vertices K n n) : Fin (n + 1) → K :=
  (cartesianToBarycentricState x v).2

/-- `barycentric_to_trilinear` (435-458); `fv i` stands for `volume(face(vertices, i))`, the volume of a simplex embedded in a
space of higher dimension, which is not modelled. -/
def barycentricToTrilinear {n : Nat} (bary : Fin (n + 1) → K) (v : Vertices K n n) (fv : Fin (n + 1) → K) : Fin (n + 1) → K :=
  fun i => (n : K) * volume v * bary i / fv i

/-- `trilinear_to_barycentric` (461-481). -/
def trilinearToBarycentric {n : Nat} (trilinear : Fin (n + 1) → K) (v : Vertices K n n) (fv : Fin (n + 1) → K) :
    Fin (n + 1) → K :=
  let b : Fin (n + 1) → K := fun i => trilinear i * fv i / volume v
  fun i => b i * (1 / ∑ j, b j)

/-- `in_closed_range` (real_interval.py). -/
def inClosedRange (x lo hi : K) : Bool := decide (lo ≤ x) && decide (x ≤ hi)

/-- `in_open_range` (real_interval.py). -/
def inOpenRange (x lo hi : K) : Bool := decide (lo < x) && decide (x < hi)

/-- `inside_simplex` (simplex.py:634-663) for a simplex of full dimension. -/
def insideSimplex {n : Nat} (x : Fin n → K) (v : Vertices K n n) (includeBoundary : Bool) (tol : K) : Bool :=
  let bary := cartesianToBarycentric x v
  if tol = 0 then
    if includeBoundary then (List.finRange (n + 1)).all (fun i => inClosedRange (bary i) 0 1)
    else (List.finRange (n + 1)).all (fun i => inOpenRange (bary i) 0 1)
  else (List.finRange (n + 1)).all (fun i => inOpenRange (bary i) (0 - tol) (1 + tol))

end Ordered

/-- `sub_simplex` (simplex.py:696-732): the vertices with the given indices; a bad index raises IndexError. -/
def subSimplex {k n : Nat} (v : Vertices K k n) (f : List Nat) : Py (List (Fin n → K)) :=
  f.mapM (fun i => getE (List.ofFn v) i)

end Verif.Simplex
