import Verif.Model.Triangle
/-!
# Model of the geometric functions of `geometry/mesh/triangle_mesh.py`

A mesh is a list of triangles (triples of vertex numbers) and a list of vertices in `ℝⁿ`. Floating point numbers are replaced by real numbers; the
quotient of a zero vector and its length, which numpy answers with `nan`, is the zero vector.
-/

namespace Verif.TriMesh
open Verif Matrix Verif.Linalg Verif.Triangle

noncomputable section

variable {n : ℕ}

/-- `get_num_vertices` (triangle_mesh.py:10-17); `numpy.amax` of an empty array raises ValueError. -/
def getNumVertices (t : List (Fin 3 → ℕ)) : Py ℕ :=
  match t.flatMap fun tri => [tri 0, tri 1, tri 2] with
  | [] => .error .value
  | a :: as => .ok (as.foldl max a + 1)

/-- `vertices` (triangle_mesh.py:20-32): IndexError for an empty list of vertices (28) or an index that is too large (31). -/
def meshVertices (tri : Fin 3 → ℕ) (v : List (Fin n → ℝ)) : Py (Tri n) := do
  let _ ← getE v 0
  rows3 fun j => getE v (tri j)

/-- The vector with the given three components. -/
def ofList3 (l : List ℝ) : Fin 3 → ℝ := ![l.getD 0 0, l.getD 1 0, l.getD 2 0]

/-- `normals` (triangle_mesh.py:35-47), for vertices in space. -/
def normals (t : List (Fin 3 → ℕ)) (v : List (Fin 3 → ℝ)) : Py (List (Fin 3 → ℝ)) :=
  t.mapM fun tri => do
    let p ← meshVertices tri v
    let u ← normal p
    return ofList3 u

/-- `centroids` (triangle_mesh.py:81-93), for vertices in space. -/
def centroids (t : List (Fin 3 → ℕ)) (v : List (Fin 3 → ℝ)) : Py (List (Fin 3 → ℝ)) :=
  t.mapM fun tri => do
    let p ← meshVertices tri v
    return Triangle.centroid p

/-- The body of the loop of `centroid` (triangle_mesh.py:107-112). -/
def centroidStep (v : List (Fin n → ℝ)) (s : (Fin n → ℝ) × ℝ) (tri : Fin 3 → ℕ) : Py ((Fin n → ℝ) × ℝ) := do
  let p ← meshVertices tri v
  let ct := Triangle.centroid p
  let a ← area p
  return (s.1 + a • ct, s.2 + a)

/-- `centroid` (triangle_mesh.py:96-114). -/
def meshCentroid (t : List (Fin 3 → ℕ)) (v : List (Fin n → ℝ)) : Py (Fin n → ℝ) := do
  let _ ← getE v 0
  let s ← t.foldlM (centroidStep v) (0, 0)
  return divBy s.1 s.2

/-- `n[k] += x`. -/
def addRow (rows : List (Fin n → ℝ)) (k : ℕ) (x : Fin n → ℝ) : Py (List (Fin n → ℝ)) := do
  let r ← getE rows k
  setE rows k (r + x)

/-- `1 / math.tan(alpha)` (triangle_mesh.py:130) for an angle in `[0, π]`: ZeroDivisionError for the angle 0. -/
def cot (alpha : ℝ) : Py ℝ := open Classical in if alpha = 0 then .error .zeroDivision else .ok (1 / Real.tan alpha)

/-- The body of the inner loop of `vertex_normals_cotangent` (triangle_mesh.py:129-134). -/
def cotangentStep (tri : Fin 3 → ℕ) (p : Tri n) (rows : List (Fin n → ℝ)) (j : Fin 3) : Py (List (Fin n → ℝ)) := do
  let alpha ← angle p j
  let cota ← cot alpha
  let rows ← addRow rows (tri (j + 1)) (cota • edges p j)
  addRow rows (tri (j + 2)) (-(cota • edges p j))

/-- The body of the outer loop of `vertex_normals_cotangent` (triangle_mesh.py:126-134). -/
def cotangentTriangle (v : List (Fin n → ℝ)) (rows : List (Fin n → ℝ)) (tri : Fin 3 → ℕ) : Py (List (Fin n → ℝ)) := do
  let p ← meshVertices tri v
  [0, 1, 2].foldlM (cotangentStep tri p) rows

/-- `vertex_normals_cotangent` (triangle_mesh.py:117-139). -/
def vertexNormalsCotangent (t : List (Fin 3 → ℕ)) (v : List (Fin n → ℝ)) : Py (List (Fin n → ℝ)) := do
  let rows ← t.foldlM (cotangentTriangle v) (List.replicate v.length 0)
  return rows.map fun r => -(divBy r (Linalg.norm r))

/-- The weight in `vertex_normals` (triangle_mesh.py:167-174). -/
def normalWeight (weight : Option String) (v : List (Fin 3 → ℝ)) (tri : Fin 3 → ℕ) (p : Tri 3) (j : Fin 3) : Py ℝ :=
  if weight = some "area" then area p
  else if weight = some "angle" then angle p j
  else if weight = some "centroid" then do
    let c := Triangle.centroid p
    let x ← getE v (tri j)
    return 1 / Linalg.norm (c - x)
  else .ok 1

/-- The body of the inner loop of `vertex_normals` (triangle_mesh.py:166-175). -/
def normalsStep (weight : Option String) (v : List (Fin 3 → ℝ)) (tri : Fin 3 → ℕ) (p : Tri 3) (u : Fin 3 → ℝ) (rows : List (Fin 3 → ℝ))
    (j : Fin 3) : Py (List (Fin 3 → ℝ)) := do
  let w ← normalWeight weight v tri p j
  addRow rows (tri j) (w • u)

/-- The body of the outer loop of `vertex_normals` (triangle_mesh.py:164-175); the triangle comes with its normal. -/
def normalsTriangle (weight : Option String) (v : List (Fin 3 → ℝ)) (rows : List (Fin 3 → ℝ)) (x : (Fin 3 → ℕ) × (Fin 3 → ℝ)) :
    Py (List (Fin 3 → ℝ)) := do
  let p ← meshVertices x.1 v
  [0, 1, 2].foldlM (normalsStep weight v x.1 p x.2) rows

/-- `vertex_normals` (triangle_mesh.py:142-182). -/
def vertexNormals (t : List (Fin 3 → ℕ)) (v : List (Fin 3 → ℝ)) (weight : Option String) : Py (List (Fin 3 → ℝ)) := do
  let tn ← normals t v
  let rows ← (t.zip tn).foldlM (normalsTriangle weight v) (List.replicate v.length 0)
  return rows.map fun r => divBy r (Linalg.norm r)

end

end Verif.TriMesh
