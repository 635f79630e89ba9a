import Verif.Model.PolynomialOps
import Verif.Spec.Polynomial
/-!
# Specification: polynomial objects as functions

What it means that an object returned by the library stands for a function.
-/

namespace Verif.Poly
open Verif

variable {K V : Type} [Field K] [DecidableEq K] [AddCommGroup V] [Module K V]

/-- The objects that the constructor can produce. -/
def Obj.Valid (p : Obj V) : Prop := Obj.new p.basis p.coeff (some p.r) p.m = .ok p

/-- The degrees that the constructor accepts: below 20, unless the domain is zero dimensional (see C03). -/
def Fits (r m : Nat) : Prop := m = 0 ∨ r ≤ 19

/-- The basis polynomial for `ν` of degree `r` at the point `x`, for each of the three bases. -/
def basisFn (b : Basis) (r : Nat) (x : List K) (ν : List Nat) : K :=
  match b with
  | .monomial => Spec.monomial x ν
  | .bernstein => Spec.bernstein r x ν
  | .lagrange => Spec.lagrange r x ν

/-- `p` is an object the constructor accepts, its domain has dimension `m`, and calling it at `x` returns `f x`. -/
structure Represents (p : Obj V) (m : Nat) (f : (Fin m → K) → V) : Prop where
  dim : p.m = m
  valid : p.Valid
  value : ∀ x : Fin m → K, p.call (List.ofFn x) = .ok (f x)

end Verif.Poly
