import Verif.Model.PolynomialOps
import Verif.Model.PolynomialLagrange
/-!
# Model of the power of a scalar valued polynomial with a sequence as exponent

`polynomials_monomial_basis.py` (MB below), `polynomials_unit_simplex_bernstein_basis.py` (BB) and `polynomials_unit_simplex_lagrange_basis.py` (LB). The target
dimension of the polynomial is 1, so that the exponent has to have length 1.
-/

namespace Verif.Poly
open Verif

variable {K : Type} [Field K] [DecidableEq K]

/-- One step of the loop in MB 168-169 for a scalar valued polynomial: `self[i]` is a copy (polynomials_base.py 253-254). -/
noncomputable def powScalarStep (p acc : Obj K) (e : Nat) : Py (Obj K) := do
  let c ← Obj.new p.basis p.coeff (some p.r) p.m
  let pw ← c.powNat e
  acc.mul pw

/-- `__pow__` with a sequence as exponent for a scalar valued polynomial: `Polynomial` (MB 164-170); `PolynomialBernstein` (BB 194-205), where `self.coeff[:, i]`
of a one dimensional array raises IndexError; `PolynomialLagrange` (LB 330-339), where `multiindex.power` asks for the length of a number: TypeError. -/
noncomputable def Obj.powScalar (p : Obj K) (exp : List Nat) : Py (Obj K) :=
  match p.basis with
  | .monomial => do
    pyAssert (decide (exp.length = 1))
    let one ← monomialBasisFn K (MI.zero p.m)
    exp.foldlM (powScalarStep p) one
  | .bernstein => do
    pyAssert (decide (exp.length = 1))
    if MI.norm exp = 0 then Obj.new .bernstein [(1 : K)] (some 0) p.m else .error .index
  | .lagrange => do
    pyAssert (decide (exp.length = 1))
    .error .type

end Verif.Poly
