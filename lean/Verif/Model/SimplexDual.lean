import Verif.Model.Calculus
import Verif.Model.Integration
/-!
# Model of the dual bases on a simplex

`polynomials_on_simplices/polynomial/polynomials_simplex_bernstein_basis.py` (SBB below) and
`polynomials_on_simplices/polynomial/polynomials_simplex_lagrange_basis.py` (SLB below). As elsewhere the simplices have full dimension.
-/

namespace Verif.SPoly
open Verif Verif.Poly Verif.Simplex

variable {K : Type} [Field K] [LinearOrder K] [DecidableEq K] {m : Nat}

/-- `dual_bernstein_basis_polynomial_simplex` (SBB 488-514). -/
noncomputable def dualBernsteinPolynomialSimplex (mu : List Nat) (r : Nat) (vertices : Vertices K m m) : Py (SObj K K m) := do
  let db ← dualBernsteinPolynomial K mu r
  let det ← Integration.positiveDet vertices
  SObj.new .bernstein (db.coeff.map (fun c => 1 / det * c)) vertices (some r)

/-- `dual_bernstein_polynomial_basis_simplex` (SBB 517-534). -/
noncomputable def dualBernsteinPolynomialBasisSimplex (r : Nat) (vertices : Vertices K m m) : Py (List (SObj K K m)) :=
  (MI.generateAll m r).mapM (fun mi => dualBernsteinPolynomialSimplex mi r vertices)

/-- The scalar valued polynomials that a dual basis function on a simplex can be applied to: objects on a simplex, and objects on the unit simplex or in the
monomial basis. -/
inductive DualArg (K : Type) (m : Nat)
  | simplex (p : SObj K K m)
  | plain (p : Obj K)

/-- The function `q` in SBB 568-573. `isinstance(p, Polynomial)` holds for the objects in the monomial basis only. -/
noncomputable def dualBernsteinApplySimplex (d : SObj K K m) (r : Nat) (vertices : Vertices K m m) : DualArg K m → Py K
  | .simplex p =>
    if p.poly.basis = .bernstein then do
      let c ← d.mul p
      Integration.integrateBernsteinSimplex (2 * r) c.poly.coeff vertices
    else .error .assertion
  | .plain p => do
    pyAssert (decide (p.basis = .monomial))
    let dm ← d.toMonomialBasis
    let pm ← p.toMonomialBasis K
    let c ← dm.mul pm
    Integration.integrateMonomialPolynomialSimplex (2 * r) c.coeff vertices

/-- `dual_bernstein_basis_fn_simplex` (SBB 537-574). -/
noncomputable def dualBernsteinFnSimplex (mu : List Nat) (r : Nat) (vertices : Vertices K m m) : Py (DualArg K m → Py K) := do
  let d ← dualBernsteinPolynomialSimplex mu r vertices
  return dualBernsteinApplySimplex d r vertices

/-- `dual_bernstein_basis_simplex` (SBB 577-594). -/
noncomputable def dualBernsteinBasisSimplex (r : Nat) (vertices : Vertices K m m) : Py (List (DualArg K m → Py K)) :=
  (MI.generateAll m r).mapM (fun mi => dualBernsteinFnSimplex mi r vertices)

/-- `dual_vector_valued_bernstein_basis_fn_simplex` (SBB 597-638) for `n ≠ 1`, as a function of polynomials on a simplex with values in `Kⁿ`: for these the
assertion in 635 holds. -/
noncomputable def dualVectorBernsteinFnSimplex (mu : List Nat) (r i : Nat) (vertices : Vertices K m m) (n : Nat) :
    Py (SObj K (Fin n → K) m → Py K) :=
  if h : i < n then do
    let qs ← dualBernsteinFnSimplex mu r vertices
    return fun p => do
      let c ← p.component ⟨i, h⟩
      qs (.simplex c)
  else .error .assertion

/-- `dual_vector_valued_bernstein_basis_simplex` (SBB 641-670) for `n ≠ 1`. -/
noncomputable def dualVectorBernsteinBasisSimplex (r : Nat) (vertices : Vertices K m m) (n : Nat) (ordering : String) :
    Py (List (SObj K (Fin n → K) m → Py K)) :=
  (vectorPairs r m n ordering).mapM (fun e => dualVectorBernsteinFnSimplex e.1 r e.2 vertices n)

end Verif.SPoly

namespace Verif.SPoly
open Verif Verif.Poly Verif.Simplex

variable {K V : Type} [Field K] [DecidableEq K] [AddCommGroup V] [Module K V] {m : Nat}

/-- `dual_lagrange_basis_simplex` (SLB 604-621) applied to a polynomial on a simplex. The points are computed when the functions of the dual basis are made,
before they are applied. -/
noncomputable def dualLagrangeBasisSimplex (r : Nat) (vertices : Vertices K m m) : Py (List (SObj K V m → Py V)) :=
  (MI.generateAll m r).mapM (fun mi => do
    let x ← lagrangePointSimplex vertices r mi
    return fun p => p.call x)

/-- `dual_vector_valued_lagrange_basis_simplex` (SLB 668-697) for `n ≠ 1`; the functions are those of SLB 656-665. -/
noncomputable def dualVectorLagrangeBasisSimplex (r : Nat) (vertices : Vertices K m m) (n : Nat) (ordering : String) :
    Py (List (SObj K (Fin n → K) m → Py K)) :=
  (vectorPairs r m n ordering).mapM (fun e =>
    if h : e.2 < n then do
      let x ← lagrangePointSimplex vertices r e.1
      return fun p => do
        let c ← p.component ⟨e.2, h⟩
        c.call x
    else .error .assertion)

end Verif.SPoly
