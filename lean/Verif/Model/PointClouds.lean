import Verif.Model.MeshKdTree
import Verif.Model.Linalg
import Verif.Model.Sampling
/-!
# Model of `geometry/mesh/point_clouds.py`, of the choice of splitting planes in `create_kd_tree`, and of small functions in `linalg`

Points are functions `Fin m → ℝ` (or lists where the dimension changes). Point clouds in one dimension given as an array of numbers are not modelled.
The eigenvalue decomposition `np.linalg.eigh` is a parameter.
-/

namespace Verif.PointCloud
open Verif Matrix

variable {K : Type} [Zero K] {m : Nat}

/-- `embed_point_in_rn` (6-24). -/
def embedPoint (point : List K) (n : Nat) : Py (List K) := do
  let m := point.length
  pyAssert (decide (n > m))
  return point ++ List.replicate (n - m) 0

/-- `embed_point_cloud_in_rn` (27-47), for an array with `m` columns. The `reshape` in line 47 does not change the array. -/
def embedPointCloud (m : Nat) (points : List (List K)) (n : Nat) : Py (List (List K)) := do
  pyAssert (decide (n > m))
  return points.map (fun p => p ++ List.replicate (n - m) 0)

/-- `mean` (50-70). For no points the result is NaN in Python (0 here). -/
noncomputable def mean (points : List (Fin m → ℝ)) : Fin m → ℝ := fun j => (points.map (fun p => p j)).sum / points.length

/-- `np.median` of the sorted numbers: the middle one, or the mean of the two in the middle. For no numbers the result is NaN in Python (0 here). -/
noncomputable def sortedMedian (s : List ℝ) : ℝ :=
  if s.length % 2 = 1 then s.getD (s.length / 2) 0 else (s.getD (s.length / 2 - 1) 0 + s.getD (s.length / 2) 0) / 2

open Classical in
/-- `median` (73-91). -/
noncomputable def median (points : List (Fin m → ℝ)) : Fin m → ℝ := fun j => sortedMedian ((points.map (fun p => p j)).mergeSort (fun a b => decide (a ≤ b)))

/-- An eigenvalue decomposition: the eigenvalues and the matrix with the eigenvectors as columns. -/
abbrev Eigh (m : Nat) := Matrix (Fin m) (Fin m) ℝ → (Fin m → ℝ) × Matrix (Fin m) (Fin m) ℝ

/-- `np.dot(x.T, x)` for the matrix with rows `x` (110). -/
def gramMatrix (x : List (Fin m → ℝ)) : Matrix (Fin m) (Fin m) ℝ := Matrix.of fun i j => (x.map (fun p => p i * p j)).sum

/-- `principal_component_axis` (94-113). In dimension zero the index -1 is out of range. -/
noncomputable def principalComponentAxis (eigh : Eigh m) (points : List (Fin m → ℝ)) : Py (Fin m → ℝ) :=
  let c := mean points
  let x := points.map (fun p => p - c)
  let (_, v) := eigh (gramMatrix x)
  if h : m - 1 < m then .ok (fun i => v i ⟨m - 1, h⟩) else .error .index

/-! ## The splitting plane in `create_kd_tree` (geometry/space_partitioning/kd_mesh_tree/simplicial_mesh_kd_tree.py) -/

/-- `max` of a list: ValueError if it is empty. -/
noncomputable def maxE : List ℝ → Py ℝ
  | [] => .error .value
  | a :: l => .ok (l.foldl max a)

/-- `pa = [abs(pa[i]) ..]; pa.index(max(pa))` (114-115 and 132-133). -/
noncomputable def axisIndex (pa : Fin m → ℝ) : Py Nat := open Classical in do
  let pa := List.ofFn (fun i => |pa i|)
  let a ← maxE pa
  match pa.idxOf? a with
  | some i => .ok i
  | none => .error .value

/-- `centroid` (primitives/simplex.py 484-491) of a list of `m`-dimensional points. -/
noncomputable def listCentroid (m : Nat) (vertices : List (List ℝ)) : Fin m → ℝ := fun j => (vertices.map (fun v => v.getD j 0)).sum / vertices.length

/-- The points in lines 111-112 and 129-130. -/
noncomputable def simplexCentroids (m : Nat) (mesh : Kd.Mesh ℝ) (l : List Nat) : Py (List (Fin m → ℝ)) :=
  l.mapM (fun i => do
    let s ← getE mesh.simplices i
    let v ← Complex.simplexVertices s mesh.vertices
    return listCentroid m v)

/-- The point and the direction of the splitting plane (111-116 and 129-134). -/
noncomputable def splitPlane {m : Nat} (eigh : Eigh m) (mesh : Kd.Mesh ℝ) (l : List Nat) : Py (List ℝ × Int) := do
  let points ← simplexCentroids m mesh l
  let pa ← principalComponentAxis eigh points
  let axis ← axisIndex pa
  return (List.ofFn (median points), (axis : Int))

end Verif.PointCloud

namespace Verif.Linalg
open Verif Matrix

/-! ## `linalg/basis.py` -/

/-- `cartesian_basis` (8-22): the list of the rows. -/
def cartesianBasis (dimension : Nat) : List (Fin dimension → ℝ) := List.ofFn (fun i => (1 : Matrix (Fin dimension) (Fin dimension) ℝ) i)

/-- `cartesian_basis_vector` (25-39). -/
def cartesianBasisVector (i : Int) (dimension : Nat) : Py (Fin dimension → ℝ) := pyGet (cartesianBasis dimension) i

/-- The assignment of a vector to a column with `dim` entries: a vector of length one is repeated, other lengths raise ValueError. -/
def assignColumn (dim : Nat) (v : List ℝ) : Py (Fin dim → ℝ) :=
  if v.length = dim then .ok (fun j => v.getD j 0) else if v.length = 1 then .ok (fun _ => v.getD 0 0) else .error .value

/-- `basis_matrix` (42-53). -/
def basisMatrix (vectors : List (List ℝ)) : Py (Matrix (Fin vectors.length) (Fin vectors.length) ℝ) := do
  let columns ← vectors.mapM (assignColumn vectors.length)
  return Matrix.of fun i j => columns.getD j 0 i

/-- `basis_vectors` (56-63): the rows of the transposed matrix. -/
def basisVectors {n m : Nat} (basis : Matrix (Fin n) (Fin m) ℝ) : List (Fin n → ℝ) := List.ofFn (fun i => basisᵀ i)

/-! ## `linalg/rigid_motion.py` -/

/-- `move` (9-19) with `translate` (22-35), for vectors as columns of a matrix. -/
def moveMatrix {n k : Nat} (rotation : Matrix (Fin n) (Fin n) ℝ) (translation : Fin n → ℝ) (v : Matrix (Fin n) (Fin k) ℝ) : Matrix (Fin n) (Fin k) ℝ :=
  let w := rotation * v
  Matrix.of fun i j => w i j + translation i

/-- The translation of `random_rigid_motion` (50-51, 55-56), in dimension `n`; `rs` are the results of the successive calls of `np.random.rand(n)`.
None if the loop is not finished. -/
noncomputable def randomTranslation (n : Nat) (radius : ℝ) (rs : List (List ℝ)) : Option (Fin n → ℝ) :=
  match Sampling.nsphereSampling 1 rs with
  | some (p :: _, _) => some (fun i => p.getD i 0 * radius)
  | _ => none

/-- A random rigid motion in dimension three or two. -/
inductive RigidMotion where
  | three (rotation : Matrix (Fin 3) (Fin 3) ℝ) (translation : Fin 3 → ℝ)
  | two (rotation : Matrix (Fin 2) (Fin 2) ℝ) (translation : Fin 2 → ℝ)

/-- `random_rigid_motion` (38-57) for the random numbers `u` in [0, 1), `v` on the unit sphere and `rs` as above. None if the rejection loop is not
finished. -/
noncomputable def randomRigidMotion (radius : ℝ) (n : Nat) (u : ℝ) (v : Fin 3 → ℝ) (rs : List (List ℝ)) : Py (Option RigidMotion) :=
  if n = 3 then do
    let rotation ← rotationMatrix3 u v
    return (randomTranslation 3 radius rs).map (.three rotation)
  else if n = 2 then return (randomTranslation 2 radius rs).map (.two (rotationMatrix2 u))
  else .error .value

end Verif.Linalg
