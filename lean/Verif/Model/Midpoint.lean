import Verif.Model.Simplex
import Verif.Model.BasicMeshes
import Verif.Model.SimplicialComplex
import Verif.Model.VertexNormals
/-!
# Model of the midpoint rules of `calculus/quadrature.py` and of `general_tetrahedron_vertices` of `tet_meshes.py`

Real numbers instead of floating point numbers. An array created with `np.empty` is a list of rows, `none` for a row that is never written
(`BasicMeshes.fillRows`); such rows contain arbitrary numbers, so reading one is shown as a failure here.
-/

namespace Verif.Midpoint
open Verif Simplex Mesh

/-- The rows of an array, all of which have been written. -/
def written {α : Type} (a : List (Option α)) : Py (List α) :=
  a.mapM fun r => match r with
    | some x => .ok x
    | none => .error .runtime

/-- A row of an array as a vector. -/
def vec (n : ℕ) (l : List ℝ) : Fin n → ℝ := fun i => l.getD i 0

/-- `general_tetrahedron_vertices` (tet_meshes.py:156-171); the assignment in line 170 goes to the rows of the array one after the other. -/
noncomputable def generalTetrahedronVertices (v : Fin 4 → Fin 3 → ℝ) (n : ℕ) : Py (List (Fin 3 → ℝ)) := do
  pyAssert (decide (2 ≤ n))
  let rows ← tetrahedronVertices ℝ n
  let rows ← written rows
  let ab ← affineFromUnit v
  return rows.map fun r => ab.1.mulVec (vec 3 r) + ab.2

/-- One round of the loop in `quadrature_triangle_midpoint_rule` (quadrature.py:347-350). -/
noncomputable def triangleStep (f : ℝ → ℝ → ℝ) (h : ℝ) (V : List (Fin 2 → ℝ)) (integral : ℝ) (t : List ℕ) : Py ℝ := do
  let w ← TriMesh.meshVertices (fun j => t.getD j 0) V
  let midpoint := centroid w
  return integral + h * f (midpoint 0) (midpoint 1)

/-- `quadrature_triangle_midpoint_rule` (quadrature.py:326-351) for `n ≥ 0`. For `n = 0` line 343 fails, so line 346 divides by a positive number.
`centroid` is the function in `simplex.py`, `area` the function in `triangle.py`. -/
noncomputable def triangleMidpointRule (f : ℝ → ℝ → ℝ) (v : Fin 3 → Fin 2 → ℝ) (n : ℕ) : Py ℝ := do
  let T ← triangleTriangulation (n + 1)
  let V ← generalTriangleVertices (List.ofFn (v 0)) (List.ofFn (v 1)) (List.ofFn (v 2)) (n + 1)
  let T ← written T
  let V ← written V
  let area ← Triangle.area v
  let h := area / (T.length : ℝ)
  T.foldlM (triangleStep f h (V.map (vec 2))) 0

/-- The four rows of an array with the vertices of a tetrahedron. -/
def rows4 (w : List (Fin 3 → ℝ)) : Fin 4 → Fin 3 → ℝ := fun i => w.getD i 0

/-- One round of the loop in `quadrature_tetrahedron_midpoint_rule` (quadrature.py:375-378). -/
noncomputable def tetrahedronStep (f : ℝ → ℝ → ℝ → ℝ) (h : ℝ) (V : List (Fin 3 → ℝ)) (integral : ℝ) (t : List ℕ) : Py ℝ := do
  let w ← Complex.simplexVertices t V
  let midpoint := centroid (rows4 w)
  return integral + h * f (midpoint 0) (midpoint 1) (midpoint 2)

/-- `quadrature_tetrahedron_midpoint_rule` (quadrature.py:354-379) for `n ≥ 0`. For `n = 0` line 371 fails, so line 374 divides by a positive
number. -/
noncomputable def tetrahedronMidpointRule (f : ℝ → ℝ → ℝ → ℝ) (v : Fin 4 → Fin 3 → ℝ) (n : ℕ) : Py ℝ := do
  let T ← tetrahedronTriangulation (n + 1)
  let V ← generalTetrahedronVertices v (n + 1)
  let T ← written T
  let h := volume v / (T.length : ℝ)
  T.foldlM (tetrahedronStep f h V) 0

end Verif.Midpoint
