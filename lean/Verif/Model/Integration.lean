import Verif.Model.PolynomialOps
import Verif.Model.Simplex
import Verif.Model.IntegralCache
import Verif.Model.SetTheory
/-!
# Model of the integration functions in `calculus/polynomial/`

Modelled files: `polynomials_simplex_bernstein_basis_calculus.py`, `polynomials_simplex_monomial_basis_calculus.py`,
`polynomials_simplex_lagrange_basis_calculus.py` and the dispatchers of `polynomials_calculus.py`. Floating point numbers are
modelled by a field.
-/

namespace Verif.Integration
open Verif Verif.Poly

variable {K V : Type} [Field K] [DecidableEq K] [AddCommGroup V] [Module K V]

/-- `integrate_bernstein_basis_fn_unit_simplex` (bernstein calculus 14-39): the loop `denom *= r + i`. -/
def integrateBernsteinBasisFnUnit (K : Type) [Field K] (r n : Nat) : K :=
  1 / (((List.range' 1 n).foldl (fun denom i => denom * (r + i)) 1 : Nat) : K)

/-- Python's `sum(a)`. -/
def pySum (a : List V) : V := a.foldl (· + ·) 0

/-- `integrate_bernstein_polynomial_unit_simplex` (bernstein calculus 42-70). -/
def integrateBernsteinUnit (K : Type) {V : Type} [Field K] [AddCommGroup V] [Module K V] (r : Nat) (a : List V) (n : Nat) :
    Py V := do
  pyAssert (decide (a.length = getDimension r n))
  return integrateBernsteinBasisFnUnit K r n • pySum a

/-- `integrate_homogeneous_polynomial_unit_simplex` (monomial calculus 27-53). -/
def integrateMonomialUnit (K : Type) [Field K] (nu : List Nat) : K :=
  1 / ((MI.multinom nu : ℚ) : K) * integrateBernsteinBasisFnUnit K (MI.norm nu) nu.length

/-- `integrate_polynomial_unit_simplex` (monomial calculus 104-140). -/
def integrateMonomialPolynomialUnit (K : Type) {V : Type} [Field K] [AddCommGroup V] [Module K V] (r n : Nat) (a : List V) :
    Py V := do
  pyAssert (decide (a.length = getDimension r n))
  match monomialIntegralsCache.lookup (n, r) with
  | some ds => return pySum ((a.zip ds).map (fun e => (1 / (e.2 : K)) • e.1))
  | none =>
    sumLoop (fun (e : List Nat × Nat) => do
      let c ← getE a e.2
      return some (integrateMonomialUnit K e.1 • c)) (MI.generateAll n r).zipIdx 0

/-- `integrate_lagrange_basis_fn_unit_simplex` (lagrange calculus 19-63). -/
noncomputable def integrateLagrangeBasisFnUnit (K : Type) [Field K] [DecidableEq K] (nu : List Nat) (r : Nat) : Py K := do
  let coeff ← getLagrangeBasisFnCoefficients K nu r
  integrateMonomialPolynomialUnit K r nu.length coeff

/-- `integrate_lagrange_polynomial_unit_simplex` (lagrange calculus 66-97). -/
noncomputable def integrateLagrangeUnit (K : Type) {V : Type} [Field K] [DecidableEq K] [AddCommGroup V] [Module K V]
    (r : Nat) (a : List V) (n : Nat) : Py V := do
  pyAssert (decide (a.length = getDimension r n))
  sumLoop (fun (e : List Nat × Nat) => do
    let c ← getE a e.2
    let w ← integrateLagrangeBasisFnUnit K e.1 r
    return some (w • c)) (MI.generateAll n r).zipIdx 0

/-- `integrate_unit_simplex` (polynomials_calculus.py:177-198). -/
noncomputable def integrateUnitSimplex (K : Type) {V : Type} [Field K] [DecidableEq K] [AddCommGroup V] [Module K V]
    (p : Obj V) : Py V :=
  match p.basis with
  | .monomial => integrateMonomialPolynomialUnit K p.r p.m p.coeff
  | .lagrange => integrateLagrangeUnit K p.r p.coeff p.m
  | .bernstein => integrateBernsteinUnit K p.r p.coeff p.m

/-- `l2_inner_product_unit` (monomial calculus 178-195), for polynomials in the monomial basis. -/
noncomputable def l2InnerProductUnit (p1 p2 : Obj K) : Py K := do
  let p ← p1.mul p2
  integrateMonomialPolynomialUnit K p.r p.m p.coeff

/-- `l2_norm2_unit` (monomial calculus 198-211). -/
noncomputable def l2Norm2Unit (p : Obj K) : Py K := l2InnerProductUnit p p

section Ordered
variable [LinearOrder K]

/-- The determinant computed and checked in `integrate_bernstein_basis_fn_simplex` (bernstein calculus 94-99) and
`integrate_lagrange_basis_fn_simplex` (lagrange calculus 123-128). The simplex has full dimension (`np.linalg.det` raises
LinAlgError for a matrix that is not square). -/
def positiveDet {n : Nat} (v : Simplex.Vertices K n n) : Py K := do
  let phi ← Simplex.affineFromUnit v
  pyAssert (decide (phi.1.det > 0))
  return phi.1.det

/-- `integrate_bernstein_basis_fn_simplex` (bernstein calculus 73-100). -/
def integrateBernsteinBasisFnSimplex {n : Nat} (r : Nat) (v : Simplex.Vertices K n n) : Py K := do
  let det ← positiveDet v
  return det * integrateBernsteinBasisFnUnit K r n

/-- `integrate_bernstein_polynomial_simplex` (bernstein calculus 103-129). -/
def integrateBernsteinSimplex {n : Nat} (r : Nat) (a : List V) (v : Simplex.Vertices K n n) : Py V := do
  pyAssert (decide (a.length = getDimension r n))
  let c ← integrateBernsteinBasisFnSimplex r v
  return c • pySum a

/-- `integrate_lagrange_basis_fn_simplex` (lagrange calculus 100-129). -/
noncomputable def integrateLagrangeBasisFnSimplex {n : Nat} (nu : List Nat) (r : Nat) (v : Simplex.Vertices K n n) : Py K := do
  let iu ← integrateLagrangeBasisFnUnit K nu r
  let det ← positiveDet v
  return det * iu

/-- `integrate_lagrange_polynomial_simplex` (lagrange calculus 132-162). -/
noncomputable def integrateLagrangeSimplex {n : Nat} (r : Nat) (a : List V) (v : Simplex.Vertices K n n) : Py V := do
  pyAssert (decide (a.length = getDimension r n))
  sumLoop (fun (e : List Nat × Nat) => do
    let c ← getE a e.2
    let w ← integrateLagrangeBasisFnSimplex e.1 r v
    return some (w • c)) (MI.generateAll n r).zipIdx 0

/-- `integrate_simplex` (polynomials_calculus.py:201-222); `p` is a polynomial given in the basis of the simplex (the classes of
`polynomials_simplex_bernstein_basis.py` and `polynomials_simplex_lagrange_basis.py`). A monomial polynomial raises TypeError. -/
noncomputable def integrateSimplex {n : Nat} (p : Obj V) (v : Simplex.Vertices K n n) : Py V :=
  match p.basis with
  | .monomial => .error .type
  | .lagrange => integrateLagrangeSimplex p.r p.coeff v
  | .bernstein => integrateBernsteinSimplex p.r p.coeff v

/-- The inner loop for one tuple of signs (monomial calculus 92-99): `w` is the product of the signs, `x = Σ eps[k] vertices[i[k]]`;
the result is `w * power(x, nu)`. -/
def signedTerm {n : Nat} (nu : List Nat) (v : Simplex.Vertices K n n) (i : List Nat) (eps : List Int) : Py K := do
  let w := eps.foldl (fun (w : K) (e : Int) => w * (e : K)) 1
  let x ← eps.zipIdx.foldlM (fun (x : Fin n → K) (e : Int × Nat) => do
    let ik ← getE i e.2
    let vk ← getE (List.ofFn v) ik
    return x + (e.1 : K) • vk) 0
  let f ← MI.power (List.ofFn x) nu
  return w * f

/-- `integrate_homogeneous_polynomial_simplex` (monomial calculus 56-101). The elements of the Python set `{-1, 1}` are listed in
the order in which CPython iterates over them; the sum does not depend on it. -/
def integrateMonomialSimplex {n : Nat} (nu : List Nat) (v : Simplex.Vertices K n n) : Py K := do
  let vol := Simplex.volume v
  let q := MI.norm nu
  if q = 0 then return vol
  let res ← (MI.generateAllNonDecreasing q n).foldlM (fun (res : K) (i : List Nat) =>
    if q = 1 then
      sumLoop (fun (eps : Int) => do
        let i0 ← getE i 0
        let v0 ← getE (List.ofFn v) i0
        let f ← MI.power (List.ofFn ((eps : K) • v0)) nu
        return some ((eps : K) * f)) [1, -1] res
    else
      match SetTheory.nfoldCartesianProduct ([1, -1] : List Int) q with
      | .elems _ => .error .type
      | .tuples ts => sumLoop (fun (eps : List Int) => do
          let t ← signedTerm nu v i eps
          return some t) ts res) 0
  return res * (vol / (((2 ^ q * q.factorial * (q + n).choose q : Nat) : K)))

/-- `integrate_polynomial_simplex` (monomial calculus 143-175). -/
def integrateMonomialPolynomialSimplex {n : Nat} (r : Nat) (a : List V) (v : Simplex.Vertices K n n) : Py V :=
  sumLoop (fun (e : List Nat × Nat) => do
    let c ← getE a e.2
    let w ← integrateMonomialSimplex e.1 v
    return some (w • c)) (MI.generateAll n r).zipIdx 0

/-- `l2_inner_product_simplex` (monomial calculus 214-234), for polynomials in the monomial basis. -/
noncomputable def l2InnerProductSimplex {n : Nat} (p1 p2 : Obj K) (v : Simplex.Vertices K n n) : Py K := do
  let p ← p1.mul p2
  integrateMonomialPolynomialSimplex p.r p.coeff v

/-- `l2_norm2_simplex` (monomial calculus 237-254). -/
noncomputable def l2Norm2Simplex {n : Nat} (p : Obj K) (v : Simplex.Vertices K n n) : Py K := l2InnerProductSimplex p p v

end Ordered

end Verif.Integration
