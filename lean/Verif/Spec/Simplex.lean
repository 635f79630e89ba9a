import Mathlib.Algebra.BigOperators.Fin
import Mathlib.Algebra.Module.Pi
import Mathlib.LinearAlgebra.Matrix.Determinant.Basic
/-!
# Specification: simplices
-/

namespace Verif.Spec

variable {K : Type} [Field K]

/-- The determinant of the edge vectors from vertex 0; `n!` times the signed volume of the simplex. It is zero exactly for
degenerate simplices and its sign is the orientation. -/
def edgeDet {n : ℕ} (v : Fin (n + 1) → Fin n → K) : K := (Matrix.of fun (j i : Fin n) => v i.succ j - v 0 j).det

/-- `w` are barycentric coordinates of `x`: they sum to one and combine the vertices to `x`. -/
def IsBarycentric {k n : ℕ} (v : Fin (k + 1) → Fin n → K) (x : Fin n → K) (w : Fin (k + 1) → K) : Prop :=
  ∑ i, w i = 1 ∧ x = ∑ i, w i • v i

end Verif.Spec
