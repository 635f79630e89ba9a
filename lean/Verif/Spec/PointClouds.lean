import Mathlib.Data.Matrix.Mul
import Mathlib.Data.Matrix.Diagonal
import Mathlib.LinearAlgebra.Matrix.Symmetric
import Mathlib.Data.Real.Basic
/-!
# Specification for point clouds
-/

namespace Verif.PointCloud
open Matrix

/-- The contract of `np.linalg.eigh`: for a symmetric matrix, the eigenvalues in ascending order and orthonormal eigenvectors as columns. -/
def IsEigh {m : Nat} (eigh : Matrix (Fin m) (Fin m) ℝ → (Fin m → ℝ) × Matrix (Fin m) (Fin m) ℝ) : Prop :=
  ∀ A : Matrix (Fin m) (Fin m) ℝ, A.IsSymm →
    (∀ i j, i ≤ j → (eigh A).1 i ≤ (eigh A).1 j) ∧ (eigh A).2ᵀ * (eigh A).2 = 1 ∧ A * (eigh A).2 = (eigh A).2 * diagonal (eigh A).1

/-- The square of the distance of two points. -/
def sqDist {m : Nat} (x y : Fin m → ℝ) : ℝ := (x - y) ⬝ᵥ (x - y)

/-- The sum of the values of a function at the points. -/
def total {m : Nat} (points : List (Fin m → ℝ)) (f : (Fin m → ℝ) → ℝ) : ℝ := (points.map f).sum

end Verif.PointCloud
