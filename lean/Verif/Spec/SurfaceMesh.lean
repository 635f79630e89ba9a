import Verif.Spec.SimplexGeometry
import Verif.Spec.Rotation
import Mathlib.LinearAlgebra.CrossProduct
/-!
# Specification: meshes of triangles

A mesh is a list of triples of vertex numbers and a list of points.
-/

namespace Verif.Spec
open Matrix

variable {n : ℕ}

/-- The corners of a triangle. -/
def corners (v : List (Fin n → ℝ)) (tri : Fin 3 → ℕ) : Fin 3 → Fin n → ℝ := fun j => v.getD (tri j) 0

/-- The triangles refer to existing vertices and are non-degenerate. -/
def IsTriMesh (t : List (Fin 3 → ℕ)) (v : List (Fin n → ℝ)) : Prop := ∀ tri ∈ t, (∀ j, tri j < v.length) ∧ NonDegenerate (k := 2) (corners v tri)

/-- The area of a triangle. -/
noncomputable def triArea (p : Fin 3 → Fin n → ℝ) : ℝ := √(gram (k := 2) p) / 2

/-- The area of a mesh. -/
noncomputable def surfaceArea (t : List (Fin 3 → ℕ)) (v : List (Fin n → ℝ)) : ℝ := (t.map fun tri => triArea (corners v tri)).sum

/-- The signed volume enclosed by a mesh: the sum of the signed volumes of the tetrahedra spanned by the triangles and the origin. -/
noncomputable def enclosedVolume (t : List (Fin 3 → ℕ)) (v : List (Fin 3 → ℝ)) : ℝ :=
  (t.map fun tri => corners v tri 0 ⬝ᵥ (corners v tri 1 ⨯₃ corners v tri 2) / 6).sum

/-- The mesh with vertex `k` moved by `d`. -/
def moveVertex (v : List (Fin n → ℝ)) (k : ℕ) (d : Fin n → ℝ) : List (Fin n → ℝ) := v.modify k (· + d)

/-- `g` is the gradient of `F` with respect to the position of vertex `k`. -/
def IsVertexGradient (F : List (Fin n → ℝ) → ℝ) (v : List (Fin n → ℝ)) (k : ℕ) (g : Fin n → ℝ) : Prop :=
  ∀ d, HasDerivAt (fun s : ℝ => F (moveVertex v k (s • d))) (g ⬝ᵥ d) 0

/-- The edges of the mesh with the direction in which the triangles traverse them. -/
def directedEdges (t : List (Fin 3 → ℕ)) : List (ℕ × ℕ) := t.flatMap fun tri => [(tri 0, tri 1), (tri 1, tri 2), (tri 2, tri 0)]

/-- A closed, consistently oriented mesh: every edge is traversed as often in one direction as in the other. -/
def IsClosed (t : List (Fin 3 → ℕ)) : Prop := ∀ a b, (directedEdges t).count (a, b) = (directedEdges t).count (b, a)

/-- `u` is the unit vector orthogonal to the triangle around which its vertices run counterclockwise. -/
def IsUnitNormal (p : Fin 3 → Fin 3 → ℝ) (u : Fin 3 → ℝ) : Prop := len u = 1 ∧ ∃ c : ℝ, 0 < c ∧ (p 1 - p 0) ⨯₃ (p 2 - p 0) = c • u

/-- The weight with which the normal of the triangle `p` counts at its corner `j`: the area of the triangle, the angle at the corner, the reciprocal of the
distance between the corner and the mean of the three corners, or 1. -/
def IsWeight (weight : Option String) (p : Fin 3 → Fin 3 → ℝ) (j : Fin 3) (w : ℝ) : Prop :=
  if weight = some "area" then w = triArea p
  else if weight = some "angle" then Linalg.IsAngle (p (j + 1) - p j) (p (j + 2) - p j) w
  else if weight = some "centroid" then w = 1 / len ((1 / 3 : ℝ) • (p 0 + p 1 + p 2) - p j)
  else w = 1

end Verif.Spec
