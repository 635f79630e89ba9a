import Mathlib.LinearAlgebra.CrossProduct
import Mathlib.LinearAlgebra.Matrix.NonsingularInverse
import Mathlib.Analysis.SpecialFunctions.Complex.Arg
import Mathlib.Analysis.InnerProductSpace.Basic
import Verif.Model.Angle
/-!
# Model of `linalg/rotation.py`, `linalg/rigid_motion.py`, `linalg/vector_space_projection.py`, `linalg/basis.py` and of the vector part of
`calculus/angle.py`

Floating point numbers are replaced by real numbers. Vectors of known length are functions on `Fin n`, matrices are Mathlib matrices.
`np.linalg.norm` is `norm`, `np.dot` is `⬝ᵥ`, `np.cross` is Mathlib's cross product. Functions that normalise their argument in place return the
normalised argument together with the result.
-/

namespace Verif.Linalg
open Verif Matrix

noncomputable section

/-- `np.linalg.norm` of a vector. -/
def norm {n : Nat} (v : Fin n → ℝ) : ℝ := √(v ⬝ᵥ v)

/-- `np.arctan2(y, x)`. -/
def arctan2 (y x : ℝ) : ℝ := Complex.arg ⟨x, y⟩

/-- Division of a vector by a number. Division by zero does not raise in numpy but gives infinite or undefined entries; all callers modelled
here then fail in a later assertion or never divide by zero, see there. -/
def divBy {n : Nat} (v : Fin n → ℝ) (s : ℝ) : Fin n → ℝ := fun i => v i / s

/-! ## `calculus/angle.py` -/

/-- `compute_angle` (angle.py 59-78), the branch for length 3 (69-70). -/
def computeAngle3 (v0 v1 : Fin 3 → ℝ) : ℝ := arctan2 (norm (v0 ⨯₃ v1)) (v0 ⬝ᵥ v1)

/-- `compute_angle` (angle.py 59-78), the branch for other lengths (71-78). -/
def computeAngleN {n : Nat} (v0 v1 : Fin n → ℝ) : ℝ :=
  let n0 := norm v0
  let n1 := norm v1
  if n0 < 1 / 10 ^ 12 ∨ n1 < 1 / 10 ^ 12 then 0
  else
    let x := norm (divBy v0 n0 + divBy v1 n1)
    let y := norm (divBy v0 n0 - divBy v1 n1)
    2 * arctan2 y x

/-- `compute_angle` (angle.py 59-78): AssertionError for vectors of different lengths. -/
def computeAngle {n m : Nat} (v0 : Fin n → ℝ) (v1 : Fin m → ℝ) : Py ℝ :=
  if h : m = n then
    if h' : 3 = n then .ok (computeAngle3 (v0 ∘ Fin.cast h') (v1 ∘ Fin.cast (h'.trans h.symm)))
    else .ok (computeAngleN v0 (v1 ∘ Fin.cast h.symm))
  else .error .assertion

/-- `is_parallel` (angle.py 81-94). -/
def isParallel {n : Nat} (v0 v1 : Fin n → ℝ) : Prop :=
  let n0 := norm v0
  let n1 := norm v1
  if n0 < 1 / 10 ^ 12 ∨ n1 < 1 / 10 ^ 12 then True
  else
    let c := (v0 ⬝ᵥ v1) / (n0 * n1)
    |c - 1| < 1 / 10 ^ 12 ∨ |c + 1| < 1 / 10 ^ 12

end

section Ortho
variable {K : Type} [Field K] [LinearOrder K]

/-- The variables of the loop in `orthogonal_vector` (angle.py 155-158). -/
structure TwoLargest (K : Type) where
  /-- `i_max_1` -/
  i1 : Int
  /-- `i_max_2` -/
  i2 : Int
  /-- `max_1` -/
  m1 : K
  /-- `max_2` -/
  m2 : K

/-- The body of the loop in `orthogonal_vector` (angle.py 160-169). -/
def twoLargestStep (s : TwoLargest K) (i : Int) (x : K) : TwoLargest K :=
  let av := |x|
  if av > s.m1 then ⟨i, s.i1, av, s.m1⟩
  else if av > s.m2 then ⟨s.i1, i, s.m1, av⟩
  else s

/-- The loop in `orthogonal_vector` (angle.py 159-169) over the remaining entries. -/
def twoLargest (s : TwoLargest K) (i : Int) : List K → TwoLargest K
  | [] => s
  | x :: xs => twoLargest (twoLargestStep s i x) (i + 1) xs

/-- `orthogonal_vector` (angle.py 136-173). The assertion on the norm is expressed by the entries. -/
def orthogonalVector (v : List K) : Py (List K) :=
  if v.all (fun x => decide (x = 0)) then .error .assertion
  else if v.length = 2 then do
    let a ← getE v 1
    let b ← getE v 0
    return [-a, b]
  else do
    let s := twoLargest ⟨-1, -1, -1, -1⟩ 0 v
    let vp := List.replicate v.length (0 : K)
    let a ← pyGet v s.i1
    let vp ← pySet vp s.i2 a
    let b ← pyGet v s.i2
    pySet vp s.i1 (-b)

end Ortho

noncomputable section

/-! ## `linalg/rotation.py` -/

/-- `hat` (rotation.py 10-29): the assignments in program order. -/
def hat (w : Fin 3 → ℝ) : Matrix (Fin 3) (Fin 3) ℝ :=
  let h01 := -w 2
  let h02 := w 1
  let h12 := -w 0
  !![0, h01, h02; -h01, 0, h12; -h02, -h12, 0]

/-- The assertion of the two formulas (rotation.py 43 and 59). -/
def unitAssert (k : Fin 3 → ℝ) : Py Unit :=
  open Classical in if |norm k - 1| < 1 / 10 ^ 10 then .ok () else .error .assertion

/-- `rodrigues_formula` (rotation.py 32-45). -/
def rodriguesFormula (v k : Fin 3 → ℝ) (cost sint : ℝ) : Py (Fin 3 → ℝ) := do
  unitAssert k
  return cost • v + sint • (k ⨯₃ v) + ((k ⬝ᵥ v) * (1 - cost)) • k

/-- `rodrigues_formula_matrix` (rotation.py 48-60). -/
def rodriguesFormulaMatrix (k : Fin 3 → ℝ) (cost sint : ℝ) : Py (Matrix (Fin 3) (Fin 3) ℝ) := do
  unitAssert k
  return cost • 1 + sint • hat k + (1 - cost) • vecMulVec k k

/-- `axis_angle_to_rotation_matrix` (rotation.py 63-78): the matrix and the caller's axis after the call. For the zero axis the division gives
undefined numbers and the assertion fails. -/
def axisAngleToRotationMatrix (axis : Fin 3 → ℝ) (angle : ℝ) : Py (Matrix (Fin 3) (Fin 3) ℝ × (Fin 3 → ℝ)) := do
  let axis := divBy axis (norm axis)
  let r ← rodriguesFormulaMatrix axis (Real.cos angle) (Real.sin angle)
  return (r, axis)

/-- Index of the largest of three numbers, the first one in case of ties (`np.argmax`). -/
def argmax3 (d : Fin 3 → ℝ) : Fin 3 :=
  open Classical in if d 1 ≤ d 0 ∧ d 2 ≤ d 0 then 0 else if d 2 ≤ d 1 then 1 else 2

/-- `np.sign`. -/
def sgn (x : ℝ) : ℝ := open Classical in if x < 0 then -1 else if 0 < x then 1 else 0

/-- `rotation_matrix_to_axis_angle` (rotation.py 81-123): the axis, the angle and the caller's matrix after the call. In lines 107-109 `axis` is a
view of column `i` of the caller's matrix, which is changed in place. -/
def rotationMatrixToAxisAngle (R : Matrix (Fin 3) (Fin 3) ℝ) : (Fin 3 → ℝ) × ℝ × Matrix (Fin 3) (Fin 3) ℝ :=
  open Classical in
  let t := R 0 0 + R 1 1 + R 2 2
  let axis : Fin 3 → ℝ := ![R 2 1 - R 1 2, R 0 2 - R 2 0, R 1 0 - R 0 1]
  if |t - 3| < 1 / 10 ^ 14 then
    let an := norm axis
    if an > 0 then (divBy axis an, 1 / 2 * an, R) else (![1, 0, 0], 0, R)
  else if |t + 1| < 1 / 10 ^ 10 then
    let an := norm axis
    if |an| < 1 / 10 ^ 14 then
      let i := argmax3 (fun i => R i i)
      let a : Fin 3 → ℝ := fun j => if j = i then R j i + 1 else R j i
      (divBy a (norm a), Real.pi, R.updateCol i (divBy a (norm a)))
    else
      (![sgn (axis 0) * √(1 / 2 * (R 0 0 + 1)), sgn (axis 1) * √(1 / 2 * (R 1 1 + 1)), sgn (axis 2) * √(1 / 2 * (R 2 2 + 1))],
        Real.pi - 1 / 2 * an, R)
  else (divBy axis (norm axis), Real.arccos (Angle.constrainToRange ((t - 1) / 2) (-1) 1), R)

/-- `random_rotation_matrix_2` (rotation.py 126-138) for the random number `u` in [0, 1). -/
def rotationMatrix2 (u : ℝ) : Matrix (Fin 2) (Fin 2) ℝ :=
  let theta := 2 * Real.pi * u
  !![Real.cos theta, -Real.sin theta; Real.sin theta, Real.cos theta]

/-- `rotate` (rotation.py 160-174) of a vector. -/
def rotate (axis : Fin 3 → ℝ) (angle : ℝ) (v : Fin 3 → ℝ) : Py (Fin 3 → ℝ) := do
  let (r, _) ← axisAngleToRotationMatrix axis angle
  return r *ᵥ v

/-- `rotate` (rotation.py 160-174) of the columns of a matrix. -/
def rotateMatrix (axis : Fin 3 → ℝ) (angle : ℝ) (v : Matrix (Fin 3) (Fin 3) ℝ) : Py (Matrix (Fin 3) (Fin 3) ℝ) := do
  let (r, _) ← axisAngleToRotationMatrix axis angle
  return r * v

/-- `compute_rotation` (rotation.py 177-200). -/
def computeRotation (v0 v1 : Fin 3 → ℝ) : Py ((Fin 3 → ℝ) × ℝ) :=
  open Classical in
  let axis := v0 ⨯₃ v1
  if axis ⬝ᵥ axis = 0 then
    if v0 ⬝ᵥ v1 > 0 then return (![1, 0, 0], 0)
    else do
      let a ← orthogonalVector [v0 0, v0 1, v0 2]
      let axis : Fin 3 → ℝ := fun i => a.getD i 0
      return (divBy axis (norm axis), Real.pi)
  else do
    let angle ← computeAngle v0 v1
    return (divBy axis (norm axis), angle)

/-- `random_rotation_matrix_3` (rotation.py 141-157) for the random numbers `u` in [0, 1) and `v` on the unit sphere. -/
def rotationMatrix3 (u : ℝ) (v : Fin 3 → ℝ) : Py (Matrix (Fin 3) (Fin 3) ℝ) := do
  let q := rotationMatrix2 u
  let r : Matrix (Fin 3) (Fin 3) ℝ := !![q 0 0, q 0 1, 0; q 1 0, q 1 1, 0; 0, 0, 1]
  let (axis, angle) ← computeRotation (fun i => r i 2) v
  rotateMatrix axis angle r

/-- `orthonormal_frame` (angle.py 176-205): the frame and the caller's vector after the call. -/
def orthonormalFrame (v : Fin 3 → ℝ) (i : Fin 3) : Py (Matrix (Fin 3) (Fin 3) ℝ × (Fin 3 → ℝ)) :=
  open Classical in do
  if norm v = 0 then throw .assertion
  let v := divBy v (norm v)
  let ei : Fin 3 → ℝ := fun j => (1 : Matrix (Fin 3) (Fin 3) ℝ) j i
  let angle ← computeAngle v ei
  if angle < 1 / 10 ^ 10 then return (1, v)
  else if |angle - Real.pi| < 1 / 10 ^ 10 then
    return (Matrix.of (fun a b => if b = i + 2 then -1 * (-1 * (1 : Matrix (Fin 3) (Fin 3) ℝ) a b) else -1 * (1 : Matrix (Fin 3) (Fin 3) ℝ) a b), v)
  else do
    let axis := ei ⨯₃ v
    let axis := divBy axis (norm axis)
    let (r, _) ← axisAngleToRotationMatrix axis angle
    return (r, v)

/-! ## `linalg/rigid_motion.py` -/

/-- `move` (rigid_motion.py 9-19) of a vector, with `translate` (22-35). -/
def move {n : Nat} (rotation : Matrix (Fin n) (Fin n) ℝ) (translation v : Fin n → ℝ) : Fin n → ℝ := rotation *ᵥ v + translation

/-! ## `linalg/vector_space_projection.py` -/

/-- `interval_projection` (vector_space_projection.py 10-23). -/
def intervalProjection (p a b : ℝ) : ℝ :=
  open Classical in if Angle.inClosedRange p a b then p else if p > b then b else a

/-- `vector_projection` (vector_space_projection.py 26-34). -/
def vectorProjection {n : Nat} (a b : Fin n → ℝ) : Fin n → ℝ := ((a ⬝ᵥ b) / (b ⬝ᵥ b)) • b

/-- `vector_rejection` (vector_space_projection.py 37-45). -/
def vectorRejection {n : Nat} (a b : Fin n → ℝ) : Fin n → ℝ := a - vectorProjection a b

/-- `vector_oblique_projection_2` (vector_space_projection.py 48-64). -/
def vectorObliqueProjection2 (a b c : Fin 2 → ℝ) : Fin 2 → ℝ :=
  let ma := b
  let mb := !![0, -1; 1, 0] *ᵥ c
  let mp := (1 / (ma ⬝ᵥ mb)) • vecMulVec ma mb
  mp *ᵥ a

/-- `vector_plane_projection` (vector_space_projection.py 67-75). -/
def vectorPlaneProjection {n : Nat} (v nrm : Fin n → ℝ) : Fin n → ℝ := vectorRejection v nrm

/-- `gram_schmidt_orthonormalization_rn` (basis.py 165-180). `q` is the first result of the external `np.linalg.qr(basis)`. -/
def gramSchmidtRn {n m : Nat} (basis q : Matrix (Fin n) (Fin m) ℝ) : Matrix (Fin n) (Fin m) ℝ :=
  open Classical in Matrix.of (fun a i => if (fun k => q k i) ⬝ᵥ (fun k => basis k i) < 0 then -1 * q a i else q a i)

/-- `subspace_projection_transformation` (vector_space_projection.py 78-105); `q` as above. -/
def subspaceProjectionTransformation {n m : Nat} (basis q : Matrix (Fin n) (Fin m) ℝ) (origin : Option (Fin n → ℝ)) :
    Py (Matrix (Fin n) (Fin n) ℝ × (Fin n → ℝ)) := do
  pyAssert (decide (m ≤ n))
  let origin := origin.getD (fun _ => 0)
  let b := gramSchmidtRn basis q
  let a := b * bᵀ
  return (a, (1 - a) *ᵥ origin)

/-! ## `linalg/basis.py` -/

/-- `metric_tensor` (basis.py 66-76) for matrices. -/
def metricTensor {n m : Nat} (basis : Matrix (Fin n) (Fin m) ℝ) : Matrix (Fin m) (Fin m) ℝ := basisᵀ * basis

/-- `np.linalg.inv`: LinAlgError (a ValueError) for singular matrices. -/
def inv {n : Nat} (a : Matrix (Fin n) (Fin n) ℝ) : Py (Matrix (Fin n) (Fin n) ℝ) :=
  open Classical in if a.det = 0 then .error .value else .ok a⁻¹

/-- `inverse_metric_tensor` (basis.py 79-90) for matrices. -/
def inverseMetricTensor {n m : Nat} (basis : Matrix (Fin n) (Fin m) ℝ) : Py (Matrix (Fin m) (Fin m) ℝ) := inv (metricTensor basis)

/-- `dual_basis` (basis.py 93-105) for matrices. -/
def dualBasis {n : Nat} (basis : Matrix (Fin n) (Fin n) ℝ) : Py (Matrix (Fin n) (Fin n) ℝ) := do
  let i ← inv basis
  return iᵀ

/-- `np.linalg.pinv` of a matrix with linearly independent columns. -/
def pinv {n m : Nat} (a : Matrix (Fin n) (Fin m) ℝ) : Matrix (Fin m) (Fin n) ℝ := (aᵀ * a)⁻¹ * aᵀ

/-- `transform_to_basis` (basis.py 108-118). -/
def transformToBasis {n m : Nat} (v : Fin n → ℝ) (basis : Matrix (Fin n) (Fin m) ℝ) : Fin m → ℝ := pinv basis *ᵥ v

/-- `transform_from_basis` (basis.py 121-130). -/
def transformFromBasis {n m : Nat} (v : Fin m → ℝ) (basis : Matrix (Fin n) (Fin m) ℝ) : Fin n → ℝ := basis *ᵥ v

/-- `transform` (basis.py 133-142). -/
def transform {n m k : Nat} (v : Fin m → ℝ) (basis0 : Matrix (Fin n) (Fin m) ℝ) (basis1 : Matrix (Fin n) (Fin k) ℝ) : Fin k → ℝ :=
  pinv basis1 *ᵥ (basis0 *ᵥ v)

/-- `transform_bilinear_form` (basis.py 145-162). -/
def transformBilinearForm {n : Nat} (b basis0 basis1 : Matrix (Fin n) (Fin n) ℝ) : Py (Matrix (Fin n) (Fin n) ℝ) :=
  open Classical in do
  if |basis0.det - 1| > 1 / 10 ^ 10 then throw .value
  if |basis1.det - 1| > 1 / 10 ^ 10 then throw .value
  let q := basis0ᵀ * basis1
  return qᵀ * (b * q)

section GramSchmidt
variable {E : Type} [NormedAddCommGroup E] [InnerProductSpace ℝ E]

/-- The inner loop of `gram_schmidt_orthonormalization` (basis.py 197-198): subtract the components along the vectors found so far. -/
def gsReduce (v : E) : List E → E
  | [] => v
  | q :: qs => gsReduce (v - (inner ℝ v q : ℝ) • q) qs

/-- The outer loop of `gram_schmidt_orthonormalization` (basis.py 196-199). The vectors found so far come first. -/
def gsLoop (done : List E) : List E → List E
  | [] => done
  | v :: vs =>
    let w := gsReduce v done
    gsLoop (done ++ [(1 / √(inner ℝ w w : ℝ)) • w]) vs

/-- `gram_schmidt_orthonormalization` (basis.py 183-200) in a real vector space with an inner product. The division by the norm is defined for
linearly independent vectors. -/
def gramSchmidt (basis : List E) : Py (List E) := do
  pyAssert (decide (basis.length > 0))
  return gsLoop [] basis

end GramSchmidt

end

end Verif.Linalg
