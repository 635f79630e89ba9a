import Verif.Model.Linalg
import Verif.Model.Sampling
/-!
# Model of `random_rotation_matrix_3` in `linalg/rotation.py` with its random numbers
-/

namespace Verif.Linalg
open Verif Matrix

/-- `random_rotation_matrix_3` (rotation.py 141-157): `u` is the result of `np.random.rand()` in `random_rotation_matrix_2`, `z` is the row of
`np.random.randn(1, 3)` in `nsphere_surface_sampling(3, 1)`. For `z = 0`, which has probability zero, numpy continues with undefined numbers. -/
noncomputable def randomRotationMatrix3 (u : ℝ) (z : Fin 3 → ℝ) : Py (Matrix (Fin 3) (Fin 3) ℝ) := do
  let v ← getE (Sampling.nsphereSurfaceSampling [List.ofFn z]) 0
  rotationMatrix3 u (fun i => v.getD i 0)

end Verif.Linalg
