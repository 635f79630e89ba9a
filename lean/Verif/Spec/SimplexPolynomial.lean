import Verif.Model.SimplexPolynomial
import Verif.Spec.Simplex
import Verif.Spec.PolynomialObjects
/-!
# Specification: polynomials on a simplex as functions
-/

namespace Verif.SPoly
open Verif Verif.Poly Verif.Simplex

variable {K V : Type} [Field K] [DecidableEq K] [AddCommGroup V] [Module K V] {m : Nat}

/-- `p` is an object that the constructor can return for the simplex with vertices `v`, and calling it at `x` returns `f x`. -/
structure RepresentsOn (p : SObj K V m) (v : Vertices K m m) (f : (Fin m → K) → V) : Prop where
  made : SObj.new p.poly.basis p.poly.coeff v (some p.poly.r) = .ok p
  value : ∀ x : Fin m → K, p.call x = .ok (f x)

end Verif.SPoly
