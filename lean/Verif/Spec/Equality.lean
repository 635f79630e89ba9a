import Mathlib.Algebra.MvPolynomial.Degrees
import Mathlib.Data.Real.Basic
import Mathlib.Algebra.BigOperators.Fin
/-!
# Specification: closeness of numbers, polynomials of bounded degree
-/

namespace Verif.Spec

/-- Two numbers are close: their distance is at most the absolute tolerance, or at most the relative tolerance times the larger absolute value. -/
def Close (relTol absTol a b : ℝ) : Prop := |a - b| ≤ max (relTol * max |a| |b|) absTol

/-- Points that determine polynomials of degree at most `r`: such a polynomial that vanishes at all of them is zero. -/
def Unisolvent {m : ℕ} (r : ℕ) (xs : List (Fin m → ℝ)) : Prop :=
  ∀ P : MvPolynomial (Fin m) ℝ, P.totalDegree ≤ r → (∀ x ∈ xs, MvPolynomial.eval x P = 0) → P = 0

/-- The point of the simplex with vertices `v` that corresponds to the point `u` of the unit simplex. -/
noncomputable def pointAt {k n : ℕ} (v : Fin (k + 1) → Fin n → ℝ) (u : Fin k → ℝ) : Fin n → ℝ := v 0 + ∑ i, u i • (v i.succ - v 0)

/-- The points of the unit simplex. -/
def InUnitSimplex {k : ℕ} (u : Fin k → ℝ) : Prop := (∀ i, 0 ≤ u i) ∧ ∑ i, u i ≤ 1

/-- The vertices of a simplex of a mesh. -/
noncomputable def simplexOf {k n : ℕ} (vertices : List (Fin n → ℝ)) (s : Fin (k + 1) → ℕ) : Fin (k + 1) → Fin n → ℝ := fun i => vertices.getD (s i) 0

end Verif.Spec
