import Verif.Spec.Simplex
import Mathlib.Analysis.SpecialFunctions.Sqrt
/-!
# Specification: Euclidean geometry of a simplex
-/

namespace Verif.Spec

variable {k n : ℕ}

/-- The Euclidean length of a vector. -/
noncomputable def len (x : Fin n → ℝ) : ℝ := √(∑ a, x a ^ 2)

/-- The Gram determinant of the edges from vertex 0; the square of `k!` times the `k`-dimensional volume. -/
def gram (v : Fin (k + 1) → Fin n → ℝ) : ℝ :=
  (Matrix.of fun (i j : Fin k) => ∑ a, (v i.succ a - v 0 a) * (v j.succ a - v 0 a)).det

/-- The vertices are affinely independent. -/
def NonDegenerate (v : Fin (k + 1) → Fin n → ℝ) : Prop := ∀ w : Fin (k + 1) → ℝ, ∑ i, w i = 0 → ∑ i, w i • v i = 0 → w = 0

/-- The plane (affine subspace) through the vertices. -/
def Hull (v : Fin (k + 1) → Fin n → ℝ) : Set (Fin n → ℝ) := {x | ∃ w, IsBarycentric v x w}

/-- The plane through all vertices but vertex `i`. -/
def FacetHull (v : Fin (k + 1) → Fin n → ℝ) (i : Fin (k + 1)) : Set (Fin n → ℝ) := {x | ∃ w, IsBarycentric v x w ∧ w i = 0}

/-- The points of the simplex: convex combinations of the vertices. -/
def Points (v : Fin (k + 1) → Fin n → ℝ) : Set (Fin n → ℝ) := {x | ∃ w, IsBarycentric v x w ∧ ∀ i, 0 ≤ w i}

/-- `d` is the distance from `x` to the nearest point of `S`. -/
def IsDistance (x : Fin n → ℝ) (S : Set (Fin n → ℝ)) (d : ℝ) : Prop := (∃ y ∈ S, len (x - y) = d) ∧ ∀ y ∈ S, d ≤ len (x - y)

/-- `y` is a point of `S` nearest to `x`. -/
def IsNearest (x : Fin n → ℝ) (S : Set (Fin n → ℝ)) (y : Fin n → ℝ) : Prop := y ∈ S ∧ ∀ z ∈ S, len (x - y) ≤ len (x - z)

/-- `u` is the outward unit normal of the facet opposite to vertex `i` within the plane of the simplex. -/
structure IsOutwardNormal (v : Fin (k + 1) → Fin n → ℝ) (i : Fin (k + 1)) (u : Fin n → ℝ) : Prop where
  unit : len u = 1
  orthogonal : ∀ j l, j ≠ i → l ≠ i → ∑ a, u a * (v j a - v l a) = 0
  outward : ∀ j, j ≠ i → ∑ a, u a * (v i a - v j a) < 0
  inPlane : ∃ c : Fin (k + 1) → ℝ, ∑ j, c j = 0 ∧ u = ∑ j, c j • v j

/-- The edges of a simplex: from vertex 0 to 1, 0 to 2, ..., 1 to 2, 1 to 3, ... -/
def edgeList (v : Fin (k + 1) → Fin n → ℝ) : List (Fin n → ℝ) :=
  (List.finRange (k + 1)).flatMap fun i => ((List.finRange (k + 1)).filter fun j => decide (i < j)).map fun j => v j - v i

end Verif.Spec
