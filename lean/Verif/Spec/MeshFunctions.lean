import Verif.Spec.PiecewiseCall
import Verif.Spec.BasicMeshes
/-!
# Specification: meshes of a domain as domains of piecewise polynomials
-/

namespace Verif.Spec
open Verif Verif.PP

variable {K : Type} [Field K] [LinearOrder K]

/-- The first `m` columns of an array of points (`vertices[:, 0:m]`). -/
def columns (m : Nat) (V : List (List K)) : List (Fin m → K) := V.map fun p (i : Fin m) => p.getD i 0

/-- A mesh of the domain `D` by positively oriented simplices of full dimension: no simplex occurs twice, the points of the simplices are exactly the
points of the domain, and the mesh is conforming (two simplices have only points of their common face in common). -/
structure MeshOf {m : Nat} (T : List (List Nat)) (V : List (Fin m → K)) (D : Set (Fin m → K)) : Prop where
  mesh : IsMesh m T
  single : NoDuplicates T
  positive : ∀ j, j < T.length → ∃ v, cell T V j = .ok v ∧ 0 < edgeDet v
  conforming : Conforming T V
  points : ∀ x, (∃ j, PP.InCell T V j x) ↔ x ∈ D

end Verif.Spec
