import Verif.Model.FloatMonomial
/-!
# Model of powers and quotients of polynomials in floating point arithmetic

With the conventions of `Verif.Model.FloatPolynomial`. A power is computed by repeated multiplication, so the rounding errors of one product enter the next
one: the model follows every possible sequence of intermediate results.
-/

namespace Verif.FloatPoly
open Verif Verif.Poly Verif.PyExpr Verif.FloatIntegration

/-- The results that a call can have: an exception, or a polynomial whose coefficients are taken from the given sets (the value of an expression such as
`self * other`, polynomials_monomial_basis.py:121, 140, polynomials_unit_simplex_bernstein_basis.py:152, 170). -/
def outcomes : Py (Obj (Set ℝ)) → Set (Py (Obj ℝ))
  | .error e => {.error e}
  | .ok s => {y | ∃ c, List.Forall₂ (fun a T => a ∈ T) c s.coeff ∧ y = .ok { basis := s.basis, coeff := c, r := s.r, m := s.m }}

/-- `self * other` for two polynomials in the monomial or Bernstein basis (polynomials_monomial_basis.py:93-140,
polynomials_unit_simplex_bernstein_basis.py:119-170); the Lagrange basis is not modelled here. -/
noncomputable def mulBasis (ε : ℝ) (p q : Obj ℝ) : Py (Obj (Set ℝ)) :=
  match p.basis with
  | .monomial => mulMonomial ε p q
  | .bernstein => mulBernstein ε p q
  | .lagrange => .error .runtime

/-- `__pow__` with an integer exponent (polynomials_monomial_basis.py:156-163, polynomials_unit_simplex_bernstein_basis.py:186-193): the possible results. -/
noncomputable def powNat (ε : ℝ) (p : Obj ℝ) : Nat → Set (Py (Obj ℝ))
  | 0 => {unitOf p.basis ℝ 0 p.m}
  | 1 => {Obj.new p.basis p.coeff (some p.r) p.m}
  | k + 2 => {y | ∃ z ∈ powNat ε p (k + 1), match z with
    | .error e => y = .error e
    | .ok q => y ∈ outcomes (mulBasis ε p q)}

/-- `__truediv__` (polynomials_base.py:359-369) for a number `s` that is not zero (for zero see `Verif.Model.NonFinite`). -/
def divide (ε s : ℝ) (p : Obj ℝ) : Py (Obj (Set ℝ)) :=
  Obj.new p.basis (p.coeff.map (fun a => div ε {a} {s})) (some p.r) p.m

end Verif.FloatPoly
