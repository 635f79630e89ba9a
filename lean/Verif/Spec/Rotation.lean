import Mathlib.Data.Real.Sqrt
import Mathlib.Analysis.SpecialFunctions.Trigonometric.Basic
import Mathlib.LinearAlgebra.Matrix.Determinant.Basic
/-!
# Specification: rotations and angles
-/

namespace Verif.Linalg
open Matrix

/-- A rotation matrix: orthogonal with determinant one. -/
def IsRotation {n : Nat} (R : Matrix (Fin n) (Fin n) ℝ) : Prop := R * Rᵀ = 1 ∧ Rᵀ * R = 1 ∧ R.det = 1

/-- A unit vector. -/
def IsUnit3 {n : Nat} (k : Fin n → ℝ) : Prop := k ⬝ᵥ k = 1

/-- `θ` is the angle between `v` and `w`: it lies in `[0, π]` and `v · w = |v| |w| cos θ`, with `|v|² = v · v`. -/
def IsAngle {n : Nat} (v w : Fin n → ℝ) (θ : ℝ) : Prop :=
  0 ≤ θ ∧ θ ≤ Real.pi ∧ v ⬝ᵥ w = √(v ⬝ᵥ v) * √(w ⬝ᵥ w) * Real.cos θ

end Verif.Linalg
