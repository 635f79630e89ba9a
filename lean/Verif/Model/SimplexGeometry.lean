import Verif.Model.Simplex
import Verif.Model.Linalg
import Verif.Model.SimplicialComplex
/-!
# Model of `geometry/primitives/simplex.py`: simplices embedded in a space of higher dimension, and special points of a simplex

`Verif/Model/Simplex.lean` models the part of `simplex.py` for simplices of full dimension. Here a `k`-simplex lies in `ℝⁿ` with any `n`. Floating
point numbers are replaced by real numbers; a division by zero, which numpy answers with an infinite or undefined number, has the value zero (it
occurs for degenerate simplices only, and no theorem is about these unless it says so). `np.linalg.qr` is a parameter.
-/

namespace Verif.SimplexGeometry
open Verif Matrix Verif.Simplex Verif.Linalg

noncomputable section

/-- The first result of the external function `np.linalg.qr` for each shape of the argument. -/
abbrev QR := ∀ n m : ℕ, Matrix (Fin n) (Fin m) ℝ → Matrix (Fin n) (Fin m) ℝ

variable {k n : ℕ}

/-- The index `(base_vertex + i + 1) % (n + 1)` (simplex.py:36). -/
def wrap (k : ℕ) (i : ℕ) : Fin (k + 1) := ⟨i % (k + 1), Nat.mod_lt _ (Nat.succ_pos k)⟩

/-- `basis` (simplex.py:23-37): TypeError for a point. -/
def basis (v : Vertices ℝ k n) (base : Fin (k + 1)) : Py (Matrix (Fin n) (Fin k) ℝ) :=
  if k = 0 then .error .type
  else .ok (Matrix.of fun j i => v (wrap k (base.val + i.val + 1)) j - v base j)

/-- `orthonormal_basis` (simplex.py:40-51). -/
def orthonormalBasis (qr : QR) (v : Vertices ℝ k n) (base : Fin (k + 1)) : Py (Matrix (Fin n) (Fin k) ℝ) := do
  let b ← basis v base
  return gramSchmidtRn b (qr n k b)

/-- `local_coordinates` (simplex.py:238-255). For a point the library returns one zero coordinate, here the array has no columns; the callers
never ask for it. -/
def localCoordinates (qr : QR) (v : Vertices ℝ k n) : Py (Vertices ℝ k k) :=
  if k = 0 then .ok (fun _ _ => 0)
  else do
    let w : Vertices ℝ k n := fun i => v i - v 0
    let b ← orthonormalBasis qr w 0
    return fun i => transformToBasis (w i) b

/-- The array of a simplex of full dimension. -/
def full (h : n = k) (v : Vertices ℝ k n) : Vertices ℝ k k := fun i j => v i (Fin.cast h.symm j)

/-- `signed_volume` (simplex.py:302-324). For `n < k` copying a vertex into a column of the wrong length raises ValueError (except for `n = 1`,
where numpy repeats the number; not modelled). -/
def signedVolumeE (v : Vertices ℝ k n) : Py ℝ :=
  if k = 0 then .ok 1
  else if n > k then .error .value
  else if h : n = k then .ok (signedVolume (full h v))
  else .error .value

/-- `volume` (simplex.py:258-278). -/
def volume (qr : QR) (v : Vertices ℝ k n) : Py ℝ :=
  if k = 0 then .ok 1
  else if n > k then do
    let w ← localCoordinates qr v
    signedVolumeE w
  else do
    let s ← signedVolumeE v
    return |s|

/-- `subspace_projection_map` (vector_space_projection.py:108-130), the returned function applied to a point. In a space of dimension one
`create_affine_map` fails (`Verif/Model/AffineMap.lean`); here the function is used in spaces of higher dimension only. -/
def subspaceProjectionMap {m : ℕ} (qr : QR) (b : Matrix (Fin n) (Fin m) ℝ) (origin : Option (Fin n → ℝ)) (x : Fin n → ℝ) :
    Py (Fin n → ℝ) := do
  let ab ← subspaceProjectionTransformation b (qr n m b) origin
  return createAffineMap ab x

/-- `in_subspace` (simplex.py:666-693). The first assertion, on the length of the point, is expressed by its type. -/
def inSubspace (qr : QR) (p : Fin n → ℝ) (v : Vertices ℝ k n) (tol : ℝ) : Py Bool :=
  open Classical in
  if n = k then .ok true
  else if k = 0 then .ok (decide (Linalg.norm (p - v 0) ≤ tol))
  else do
    let b ← basis v 0
    let q ← subspaceProjectionMap qr b (some (v 0)) p
    return decide (Linalg.norm (p - q) ≤ tol)

/-- `affine_transformation_from_unit` (simplex.py:183-208): `vertices[1]` (201) raises IndexError for a point. -/
def affineTransformationFromUnit (v : Vertices ℝ k n) : Py (Affine ℝ k n) := do
  pyAssert (decide (k ≤ n))
  if k = 0 then .error .index else affineFromUnit v

/-- `affine_map_from_unit` (simplex.py:211-221), the returned function applied to a point. -/
def affineMapFromUnit (v : Vertices ℝ k n) (x : Fin k → ℝ) : Py (Fin n → ℝ) := do
  let ab ← affineTransformationFromUnit v
  return createAffineMap ab x

/-- `_is_invertible` (affine_map.py:118-130). -/
def isInvertible {m : ℕ} (a : Matrix (Fin m) (Fin m) ℝ) : Bool := match Linalg.inv a with
  | .ok _ => true
  | .error _ => false

/-- `pseudoinverse_affine_transformation` (affine_map.py:133-156); the branches differ in the representation of one dimensional quantities
only. -/
def pseudoinverseAffine {m : ℕ} (phi : Affine ℝ m n) : Py (Affine ℝ n m) := do
  pyAssert (isInvertible (phi.1ᵀ * phi.1))
  let ai := pinv phi.1
  return (ai, -(ai *ᵥ phi.2))

/-- `affine_transformation_to_unit` (simplex.py:144-157). -/
def affineTransformationToUnit (v : Vertices ℝ k n) : Py (Affine ℝ n k) := open Classical in do
  let ab ← affineTransformationFromUnit v
  if h : n = k then
    let r ← inverseAffine (Matrix.of fun (i j : Fin k) => ab.1 (Fin.cast h.symm i) j, fun i => ab.2 (Fin.cast h.symm i))
    return (Matrix.of fun i j => r.1 i (Fin.cast h j), r.2)
  else pseudoinverseAffine ab

/-- The literal `1e-14` (simplex.py:177, 352). -/
def tol14 : ℝ := 1 / 10 ^ 14

/-- `affine_map_to_unit` (simplex.py:160-180), the returned function applied to a point. -/
def affineMapToUnit (qr : QR) (v : Vertices ℝ k n) (x : Fin n → ℝ) : Py (Fin k → ℝ) := do
  let ab ← affineTransformationToUnit v
  if n ≠ k then
    let s ← inSubspace qr x v tol14
    pyAssert s
    return createAffineMap ab x
  else return createAffineMap ab x

/-- `affine_transformation` (simplex.py:224-235), `vertices2` not a line in a space of dimension greater than one (see
`Verif/Model/AffineMap.lean`). -/
def affineTransformationE {m : ℕ} (v1 : Vertices ℝ k n) (v2 : Vertices ℝ k m) : Py (Affine ℝ n m) := do
  let phi1 ← affineTransformationToUnit v1
  let phi2 ← affineTransformationFromUnit v2
  return affineComposition phi1 phi2

/-- `cartesian_to_barycentric` (simplex.py:387-396) with `_cartesian_to_barycentric_volume` (339-367). The vertices of an embedded simplex are
replaced by a new array, so that the caller's array is not written to. -/
def cartesianToBarycentricE (qr : QR) (p : Fin n → ℝ) (v : Vertices ℝ k n) : Py (Fin (k + 1) → ℝ) :=
  if n > k then do
    let s ← inSubspace qr p v tol14
    pyAssert s
    let b ← orthonormalBasis qr v 0
    let x := transformToBasis (p - v 0) b
    let w ← localCoordinates qr v
    return cartesianToBarycentric x w
  else if h : n = k then .ok (cartesianToBarycentric (fun j => p (Fin.cast h.symm j)) (full h v))
  else .error .value

/-- `_cartesian_to_barycentric_basis` (simplex.py:370-384). -/
def cartesianToBarycentricBasisE (p : Fin n → ℝ) (v : Vertices ℝ k n) : Py (Fin (k + 1) → ℝ) := do
  let b ← basis v 0
  let u := transformToBasis (p - v 0) b
  return Fin.cons (1 - ∑ i, u i) u

/-- `inside_simplex` (simplex.py:634-663). -/
def insideSimplexE (qr : QR) (p : Fin n → ℝ) (v : Vertices ℝ k n) (includeBoundary : Bool) (tol : ℝ) : Py Bool := open Classical in do
  let bary ← cartesianToBarycentricE qr p v
  if tol = 0 then
    if includeBoundary then return (List.finRange (k + 1)).all (fun i => inClosedRange (bary i) 0 1)
    else return (List.finRange (k + 1)).all (fun i => inOpenRange (bary i) 0 1)
  else return (List.finRange (k + 1)).all (fun i => inOpenRange (bary i) (0 - tol) (1 + tol))

/-! ## Faces and what is computed from them -/

/-- A list of vertices as an array. -/
def ofList (l : List (Fin n → ℝ)) : Vertices ℝ (l.length - 1) n := fun i => l.getD i 0

/-- `face` (simplex.py:516-527). -/
def face (v : Vertices ℝ k n) (i : ℕ) : Py (List (Fin n → ℝ)) := do
  let bs ← Complex.simplexBoundary (List.range (k + 1))
  let f ← getE bs i
  Complex.simplexVertices f (List.ofFn v)

/-- `volume(face(vertices, i))` (453-454, 475-476, 552-555). -/
def faceVolume (qr : QR) (v : Vertices ℝ k n) (i : ℕ) : Py ℝ := do
  let si ← face v i
  volume qr (ofList si)

/-- `barycentric_to_trilinear` (simplex.py:435-458). -/
def barycentricToTrilinearE (qr : QR) (bary : Fin (k + 1) → ℝ) (v : Vertices ℝ k n) : Py (List ℝ) := do
  let vol ← volume qr v
  (List.finRange (k + 1)).mapM (fun (i : Fin (k + 1)) => do
    let vi ← faceVolume qr v i
    return (k : ℝ) * vol * bary i / vi)

/-- `trilinear_to_barycentric` (simplex.py:461-481). -/
def trilinearToBarycentricE (qr : QR) (trilinear : Fin (k + 1) → ℝ) (v : Vertices ℝ k n) : Py (List ℝ) := do
  let vol ← volume qr v
  let b ← (List.finRange (k + 1)).mapM (fun (i : Fin (k + 1)) => do
    let vi ← faceVolume qr v i
    return trilinear i * vi / vol)
  return b.map (fun x => x * (1 / b.sum))

/-- `edges` (simplex.py:494-513). -/
def edges (v : Vertices ℝ k n) : Py (List (Fin n → ℝ)) :=
  (Perm.increasingSubsetPermutations (k + 1) 2).mapM (fun e => do
    let v0 ← getE e 0
    let v1 ← getE e 1
    let a ← getE (List.ofFn v) v1
    let b ← getE (List.ofFn v) v0
    return a - b)

/-- `face_normal` (simplex.py:530-540): minus the last column of the basis. -/
def faceNormal (qr : QR) (v : Vertices ℝ k n) (i : Fin (k + 1)) : Py (Fin n → ℝ) := do
  let b ← orthonormalBasis qr v (wrap k (i.val + 1))
  let c ← getE (List.ofFn fun (a : Fin k) => fun j => b j a) (k - 1)
  return -c

/-- `altitude` (simplex.py:543-556). -/
def altitude (qr : QR) (v : Vertices ℝ k n) (i : ℕ) : Py ℝ := do
  let vi ← faceVolume qr v i
  let vol ← volume qr v
  return (k : ℝ) * vol / vi

/-- `circumcenter` (simplex.py:559-580). -/
def circumcenter (qr : QR) : {k : ℕ} → Vertices ℝ k n → Py (Fin n → ℝ)
  | 0, v => .ok (centroid v)
  | 1, v => .ok (centroid v)
  | k + 2, v => do
    let c ← circumcenter qr (k := k + 1) (fun i => v i.succ)
    let nrm ← faceNormal qr v 0
    let v0 := v 0
    let v1 := v 1
    let num := v0 ⬝ᵥ v0 - v1 ⬝ᵥ v1 + 2 * (c ⬝ᵥ v1) - 2 * (c ⬝ᵥ v0)
    let denom := 2 * (nrm ⬝ᵥ v0 - nrm ⬝ᵥ v1)
    let t := num / denom
    return c + t • nrm

/-- `circumradius` (simplex.py:583-591). -/
def circumradius (qr : QR) (v : Vertices ℝ k n) : Py ℝ := do
  let c ← circumcenter qr v
  return Linalg.norm (c - v 0)

/-- `incenter` (simplex.py:594-603). -/
def incenter (qr : QR) (v : Vertices ℝ k n) : Py (Fin n → ℝ) := do
  let b ← trilinearToBarycentricE qr (fun _ => 1) v
  return barycentricToCartesian (fun i => b.getD i 0) v

/-- `inradius` (simplex.py:606-617). -/
def inradius (qr : QR) (v : Vertices ℝ k n) : Py ℝ := open Classical in do
  let b ← trilinearToBarycentricE qr (fun _ => 1) v
  let t ← barycentricToTrilinearE qr (fun i => b.getD i 0) v
  let ok ← (List.finRange (k + 1)).mapM (fun (i : Fin (k + 1)) => do
    let x ← getE t i
    let y ← getE t (wrap k (i + 1))
    return decide (|x - y| < 1 / 10 ^ 10))
  pyAssert (ok.all id)
  getE t 0

/-- `diameter` (simplex.py:620-631). -/
def diameter (v : Vertices ℝ k n) : Py ℝ :=
  (List.range k).foldlM (fun h i => ((List.range (k + 1)).drop (i + 1)).foldlM (fun h j => do
    let a ← getE (List.ofFn v) i
    let b ← getE (List.ofFn v) j
    return max h (Linalg.norm (a - b))) h) 0

/-- A numpy number: a real number, an infinity (`true` for minus infinity) or an undefined number. -/
inductive Num where
  | fin (x : ℝ)
  | inf (neg : Bool)
  | nan

/-- The quotient of two numpy numbers that are finite (numpy does not raise ZeroDivisionError but warns); a zero has no sign here. -/
def Num.quot (a b : ℝ) : Num := open Classical in
  if b ≠ 0 then .fin (a / b) else if a = 0 then .nan else .inf (decide (a < 0))

/-- The quotient of a numpy number and a finite one. -/
def Num.div (a : Num) (b : ℝ) : Num := open Classical in
  match a with
  | .fin x => Num.quot x b
  | .inf s => .inf (s != decide (b < 0))
  | .nan => .nan

/-- The comparison `<` with a finite number; False for an undefined number. -/
def Num.lt (a : Num) (b : ℝ) : Bool := open Classical in
  match a with
  | .fin x => decide (x < b)
  | .inf s => s
  | .nan => false

/-- `altitude` (simplex.py:543-556) with the infinite and undefined numbers it returns if the opposite face is degenerate. -/
def altitudeNum (qr : QR) (v : Vertices ℝ k n) (i : ℕ) : Py Num := do
  let vi ← faceVolume qr v i
  let vol ← volume qr v
  return Num.quot ((k : ℝ) * vol) vi

/-- `is_degenerate` (simplex.py:735-754), for all simplices, also those with division by zero. -/
def isDegenerate (qr : QR) (v : Vertices ℝ k n) (eps : ℝ) : Py Bool := do
  let d ← diameter v
  let hs ← (List.range (k + 1)).mapM (fun i => altitudeNum qr v i)
  return hs.any (fun h => (h.div d).lt eps)

/-- `unit` (simplex.py:54-80) with the argument `ne`: IndexError if there are fewer coordinates than needed. -/
def unitE (n ne : ℕ) : Py (Vertices ℝ n ne) :=
  if n ≤ ne then .ok (fun i j => if i.val = j.val + 1 then 1 else 0) else .error .index

/-- `equilateral` (simplex.py:83-119). -/
def equilateral (d : ℝ) (ne : ℕ) : (n : ℕ) → Py (Vertices ℝ n ne)
  | 0 => .error .assertion
  | 1 => do
    let u ← unitE 1 ne
    return fun i j => d * u i j
  | n + 2 => do
    let w ← equilateral d ne (n + 1)
    if h : n + 2 ≤ ne then
      let c : Fin (n + 1) → ℝ := centroid (fun i j => w i (Fin.castLE (by omega) j))
      let z := √(d ^ 2 - Linalg.norm (c - 0) ^ 2)
      return Fin.snoc w (fun j => if hj : j.val < n + 1 then c ⟨j.val, hj⟩ else if j.val = n + 1 then z else 0)
    else .error .index

end

end Verif.SimplexGeometry
