import Verif.Model.PiecewiseCall
import Verif.Spec.Piecewise
/-!
# Specification: points of the simplices of a mesh
-/

namespace Verif.PP
open Verif Verif.Poly Verif.Simplex Verif.SPoly Verif.L2G Verif.Spec

section
variable {K : Type} [Field K] [LinearOrder K] {m : Nat}

/-- `x` is a point of the simplex with number `j` of the mesh (including its boundary). -/
def InCell (triangles : List (List ℕ)) (vertices : List (Fin m → K)) (j : ℕ) (x : Fin m → K) : Prop :=
  ∃ v, cell triangles vertices j = .ok v ∧ ∃ w : Fin (m + 1) → K, (∀ i, 0 ≤ w i) ∧ IsBarycentric v x w

/-- All simplices of the mesh have positive orientation. -/
def PositivelyOriented (triangles : List (List ℕ)) (vertices : List (Fin m → K)) : Prop :=
  ∀ j v, cell triangles vertices j = .ok v → 0 < edgeDet v

/-- A conforming mesh: the points that two simplices have in common are on their common face. -/
def Conforming (triangles : List (List ℕ)) (vertices : List (Fin m → K)) : Prop :=
  ∀ j j' (hj : j < triangles.length) (hj' : j' < triangles.length) x, InCell triangles vertices j x → InCell triangles vertices j' x →
    OnCommonFace vertices triangles[j] triangles[j'] x

/-- The value at `x` does not depend on the simplex: the function is continuous and the mesh conforming, or `x` is in at most one simplex. -/
def SingleValued {V Tr : Type} (p : PObj K V m Tr) (x : Fin m → K) : Prop :=
  (p.cont = true ∧ Conforming p.triangles p.vertices) ∨
    ∀ j j', InCell p.triangles p.vertices j x → InCell p.triangles p.vertices j' x → j = j'

end

section
variable {K V : Type} [LinearOrder K] [Sub (Kd.Ext K)] [Mul (Kd.Ext K)] [One (Kd.Ext K)] {m : Nat}

/-- The search tree of the function can be built for the simplices in `S`, and these include the support of the function. -/
def CoveredBy (p : PObj K V m (Kd.MeshTree K)) (S : List ℕ) : Prop :=
  Kd.MeshReachable (meshOf p.triangles p.vertices) (some S) p.tree ∧ (∀ j ∈ p.support, j ∈ S) ∧ ∀ j ∈ S, j < p.triangles.length

/-- The search tree of the function can be built for a set of simplices that includes the support of the function. -/
def Covered (p : PObj K V m (Kd.MeshTree K)) : Prop := ∃ S, CoveredBy p S

end

end Verif.PP
