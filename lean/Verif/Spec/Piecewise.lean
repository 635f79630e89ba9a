import Verif.Model.Piecewise
import Verif.Spec.LocalToGlobal
import Verif.Spec.Simplex
import Verif.Spec.PolynomialObjects
/-!
# Specification: piecewise polynomials as functions on the simplices of a mesh
-/

namespace Verif.PP
open Verif Verif.Poly Verif.Simplex Verif.SPoly Verif.L2G Verif.Spec

variable {K V : Type} [Field K] [DecidableEq K] [AddCommGroup V] [DecidableEq V] [Module K V] {m : Nat} {Tr : Type}

/-- The arguments describe a mesh of non-degenerate simplices of full dimension, a list of boundary simplices, and for continuous functions a mesh
without repeated simplices and a degree of at least one. -/
structure IsSpace (cont : Bool) (triangles : List (List ℕ)) (vertices : List (Fin m → K)) (r : ℕ) (boundary : Option (List (List ℕ))) : Prop where
  mesh : IsMesh m triangles
  cells : ∀ j, j < triangles.length → ∃ v, cell triangles vertices j = .ok v ∧ edgeDet v ≠ 0
  boundary : AreSimplices (boundary.getD [])
  continuous : cont = true → NoDuplicates triangles ∧ r ≠ 0

/-- A consistent piecewise polynomial object: it has one coefficient for each degree of freedom of its space, numbered by the local-to-global map of
the space, its coefficients vanish on the simplices outside its support, and the basis polynomials of the simplices in the support are stored. -/
structure WellFormed (p : PObj K V m Tr) : Prop where
  basis : p.basis ≠ .monomial
  space : IsSpace p.cont p.triangles p.vertices p.r p.boundary
  map : ∃ M, genMap p.cont p.triangles p.r p.boundary p.keepLast = .ok M ∧ p.tau = M.tau ∧ M.numDofs = p.coeff.length
  coeff : p.coeff ≠ []
  support : ∀ j ∈ p.support, j < p.triangles.length
  cover : ∀ j, j < p.triangles.length → j ∉ p.support → ∀ ν, IsIndex m p.r ν → ∀ i : ℕ, p.tau j ν = .ok i → p.coeff[i]? = some 0
  polys : ∀ j ∈ p.support, ∃ v l, cell p.triangles p.vertices j = .ok v ∧ basisSimplex p.basis p.r v = .ok l ∧ dget? p.polys j = some l
  keys : ∀ j, j ∉ p.support → dget? p.polys j = none

/-- The function that a piecewise polynomial object stands for: for each simplex the values that `evaluate_on_simplex` returns. -/
def Denotes (p : PObj K V m Tr) (F : ℕ → (Fin m → K) → V) : Prop :=
  ∀ j, j < p.triangles.length → ∀ x, p.evaluateOnSimplex j x = .ok (F j x)

/-- No degree of freedom is left out: there are no boundary simplices, or the degrees of freedom on the boundary are kept (numbered last). -/
def Full (p : PObj K V m Tr) : Prop := p.keepLast = true ∨ p.boundary.getD [] = []

/-- The coefficient that belongs to a simplex and a multi-index: the entry of the coefficient list at the number of the degree of freedom,
zero for degrees of freedom that are not part of the space (number -1). -/
def coeffAt (tau : Int → List ℕ → Py Int) (coeff : List V) (j : ℕ) (ν : List ℕ) : V :=
  match tau j ν with
  | .ok (Int.ofNat i) => coeff.getD i 0
  | _ => 0

/-- The value at `x` of the combination of the basis polynomials of degree `r` with coefficients `c`; `w` are the barycentric coordinates
of `x`. -/
def combination (b : Basis) (r : ℕ) (c : List ℕ → V) (w : Fin (m + 1) → K) : V :=
  ∑ ν ∈ (Fintype.piFinset fun _ : Fin m => Finset.range (r + 1)).filter (fun ν => ∑ i, ν i ≤ r),
    Poly.basisFn b r (List.ofFn fun i : Fin m => w i.succ) (List.ofFn ν) • c (List.ofFn ν)

/-- `x` is a point of the common face of the simplices `T` and `T'`: an affine combination of the vertices that they share. -/
def OnCommonFace (vertices : List (Fin m → K)) (T T' : List ℕ) (x : Fin m → K) : Prop :=
  ∃ W : ℕ → K, ∑ i ∈ T.toFinset ∩ T'.toFinset, W i = 1 ∧ x = ∑ i ∈ T.toFinset ∩ T'.toFinset, W i • vertices.getD i 0

/-- `pick` returns an element of each non-empty set. -/
def AnyElement (pick : List (Int × List ℕ) → Option (Int × List ℕ)) : Prop := ∀ l, l ≠ [] → ∃ a ∈ l, pick l = some a

end Verif.PP
