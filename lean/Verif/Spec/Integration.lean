import Mathlib.Data.Real.Basic
import Mathlib.Algebra.BigOperators.Fin
import Mathlib.Algebra.Module.Pi
/-!
# Specification: integration over simplices
-/

namespace Verif.Spec

/-- The unit simplex in `ℝⁿ`: non-negative coordinates with sum at most one. -/
def unitSimplex (n : ℕ) : Set (Fin n → ℝ) := {x | (∀ i, 0 ≤ x i) ∧ ∑ i, x i ≤ 1}

/-- The simplex with the given vertices: all convex combinations of the vertices. -/
def simplex {k n : ℕ} (v : Fin (k + 1) → Fin n → ℝ) : Set (Fin n → ℝ) :=
  {x | ∃ w : Fin (k + 1) → ℝ, (∀ i, 0 ≤ w i) ∧ ∑ i, w i = 1 ∧ x = ∑ i, w i • v i}

/-- The point of the simplex that corresponds to the point `u` of the unit simplex: `v₀ + Σᵢ uᵢ (vᵢ - v₀)`. -/
def fromUnit {k n : ℕ} (v : Fin (k + 1) → Fin n → ℝ) (u : Fin k → ℝ) : Fin n → ℝ :=
  v 0 + ∑ i, u i • (v i.succ - v 0)

end Verif.Spec
