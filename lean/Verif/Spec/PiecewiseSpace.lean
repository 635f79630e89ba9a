import Verif.Spec.PiecewiseCall
import Mathlib.Algebra.Order.Field.Basic
/-!
# Specification: the spaces of piecewise polynomials
-/

namespace Verif.Spec
open Verif Verif.PP

variable {K W : Type} [Field K] [LinearOrder K] [AddCommGroup W] [Module K W] {m : Nat}

/-- `x` is a point of the common face of the simplices `T` and `T'`: a convex combination of the vertices that they share. -/
def InCommonFace (vertices : List (Fin m → K)) (T T' : List ℕ) (x : Fin m → K) : Prop :=
  ∃ w : ℕ → K, (∀ i, 0 ≤ w i) ∧ ∑ i ∈ T.toFinset ∩ T'.toFinset, w i = 1 ∧ x = ∑ i ∈ T.toFinset ∩ T'.toFinset, w i • vertices.getD i 0

/-- `g` is a polynomial of degree at most `r`. -/
def IsPolynomial (r : ℕ) (g : (Fin m → K) → W) : Prop :=
  ∃ c : (Fin m → ℕ) → W, ∀ x, g x = ∑ ν ∈ (Fintype.piFinset fun _ : Fin m => Finset.range (r + 1)).filter (fun ν => ∑ i, ν i ≤ r), (∏ i, x i ^ ν i) • c ν

/-- `F j` is for each simplex `j` of the mesh a polynomial of degree at most `r`. If `cont` is true the polynomials of two simplices have the same values on the common
face. On the simplices `bs` (the boundary) the values are zero. -/
structure IsPiecewisePolynomial (cont : Bool) (triangles : List (List ℕ)) (vertices : List (Fin m → K)) (r : ℕ) (bs : List (List ℕ)) (F : ℕ → (Fin m → K) → W) : Prop where
  polynomial : ∀ j, j < triangles.length → IsPolynomial r (F j)
  continuous : cont = true → ∀ j j' (hj : j < triangles.length) (hj' : j' < triangles.length) x, InCommonFace vertices triangles[j] triangles[j'] x → F j x = F j' x
  zero : ∀ j (hj : j < triangles.length), ∀ b ∈ bs, ∀ x, InCommonFace vertices triangles[j] b x → F j x = 0

/-- The boundary simplices on which the functions of a space vanish: all of them, or none if the boundary degrees of freedom are kept (numbered last). -/
def zeroOn (keepLast : Bool) (boundary : Option (List (List ℕ))) : List (List ℕ) := if keepLast then [] else boundary.getD []

/-- The function `f` is a polynomial of degree at most `r` on each simplex of the mesh, zero outside of the domain `D` and zero on the simplices `bs`. (On a conforming
mesh such a function is continuous on `D`, because the values on the common faces of two simplices are the same.) -/
structure IsPiecewiseOn (triangles : List (List ℕ)) (vertices : List (Fin m → K)) (D : Set (Fin m → K)) (r : ℕ) (bs : List (List ℕ)) (f : (Fin m → K) → W) : Prop where
  polynomial : ∀ j, j < triangles.length → ∃ g, IsPolynomial r g ∧ ∀ x, InCell triangles vertices j x → f x = g x
  outside : ∀ x, x ∉ D → f x = 0
  zero : ∀ j (hj : j < triangles.length), ∀ b ∈ bs, ∀ x, InCommonFace vertices triangles[j] b x → f x = 0

end Verif.Spec
