import Mathlib.Data.Real.Basic
import Verif.Lemmas.MultiIndex
import Verif.Model.Polynomial
import Verif.Model.PolynomialsBase
import Verif.Spec.Polynomial
/-!
# Specification: the error bound for the evaluation of a polynomial in floating point arithmetic
-/

namespace Verif.PyExpr
open Verif Verif.Poly Verif.MI Verif.Spec

/-- The number of roundings in the evaluation of a polynomial of degree `r` in `m` variables: at most this many operations are applied one after the
other to a coefficient. -/
def roundings (b : Basis) (m r : Nat) : Nat :=
  match b with
  | .bernstein => getDimension r m + (m + 2) * (r + 2) + 2
  | _ => 2 * getDimension r m + 2 * m + 4

/-- The value of the polynomial when every number in the expression is replaced by its absolute value and every difference by a sum: `a` are the
coefficients in the expression, of the monomials or (for the Bernstein basis) of the products `x^ν (1 - Σ xᵢ)^(r - |ν|)`. -/
noncomputable def magnitude (b : Basis) (r : Nat) (a : List ℝ) {m : Nat} (x : Fin m → ℝ) : ℝ :=
  match b with
  | .bernstein => linComb (fun ν => monomial ((List.ofFn x).map abs) ν * (1 + ((List.ofFn x).map abs).sum) ^ (r - ν.sum)) (mis m r) (a.map abs)
  | _ => linComb (monomial ((List.ofFn x).map abs)) (mis m r) (a.map abs)

end Verif.PyExpr
