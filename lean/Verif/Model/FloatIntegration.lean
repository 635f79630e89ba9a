import Verif.Model.Integration
import Verif.Spec.FloatExpr
/-!
# Model of the integration functions and of point computations in floating point arithmetic

The same functions as in `Verif.Model.Integration` and `Verif.Model.Simplex`, for numbers. The result of an arithmetic operation is any number with a
relative error of at most `ε` (`PyExpr.Rounded`, the standard model of floating point arithmetic without overflow and underflow), so each function
gives a set of possible results. Operations on Python integers (`denom *= r + i`, factorials) are exact, a quotient of two integers is rounded.
Simplifications: coefficients are numbers (for vector valued coefficients numpy does the same with each component), and adding to the initial
value 0 may be rounded as well (which includes the exact sum).
-/

namespace Verif.FloatIntegration
open Verif Verif.Poly Verif.Integration Verif.PyExpr

/-- `res += t` for the terms `t` one after the other, where each term is one of a set of possible numbers: the possible values of `res` after the loop. -/
def sumTerms (ε : ℝ) : List (Set ℝ) → ℝ → Set ℝ
  | [], res => {res}
  | T :: Ts, res => {y | ∃ t ∈ T, ∃ s, Rounded ε (res + t) s ∧ y ∈ sumTerms ε Ts s}

/-- Python's `sum(a)` for a list of numbers. -/
def pySum (ε : ℝ) (a : List ℝ) : Set ℝ := sumTerms ε (a.map (fun t => {t})) 0

/-- `integrate_bernstein_basis_fn_unit_simplex` (bernstein calculus 14-39): the denominator is an integer, the quotient is rounded. -/
def integrateBernsteinBasisFnUnit (ε : ℝ) (r n : Nat) : Set ℝ :=
  {c | Rounded ε (1 / (((List.range' 1 n).foldl (fun denom i => denom * (r + i)) 1 : Nat) : ℝ)) c}

/-- `integrate_bernstein_polynomial_unit_simplex` (bernstein calculus 42-70). -/
def integrateBernsteinUnit (ε : ℝ) (r : Nat) (a : List ℝ) (n : Nat) : Py (Set ℝ) := do
  pyAssert (decide (a.length = getDimension r n))
  return {y | ∃ c ∈ integrateBernsteinBasisFnUnit ε r n, ∃ s ∈ pySum ε a, Rounded ε (c * s) y}

/-- `multinom` (algebra/multiindex.py:313-325): a quotient of two integers. -/
def multinom (ε : ℝ) (nu : List Nat) : Set ℝ := {c | Rounded ε (((MI.norm nu).factorial : ℝ) / (MI.factorial nu : ℝ)) c}

/-- `integrate_homogeneous_polynomial_unit_simplex` (monomial calculus 27-53): `1 / multinom(nu) * integrate_bernstein_basis_fn_unit_simplex(r, n)`. -/
def integrateMonomialUnit (ε : ℝ) (nu : List Nat) : Set ℝ :=
  {y | ∃ c ∈ multinom ε nu, ∃ d, Rounded ε (1 / c) d ∧ ∃ b ∈ integrateBernsteinBasisFnUnit ε (MI.norm nu) nu.length, Rounded ε (d * b) y}

/-- `integrate_polynomial_unit_simplex` (monomial calculus 104-140). The entries of the table are rounded quotients `1 / d`. -/
def integrateMonomialPolynomialUnit (ε : ℝ) (r n : Nat) (a : List ℝ) : Py (Set ℝ) := do
  pyAssert (decide (a.length = getDimension r n))
  match monomialIntegralsCache.lookup (n, r) with
  | some ds => return sumTerms ε ((a.zip ds).map (fun e => {t | ∃ w, Rounded ε (1 / (e.2 : ℝ)) w ∧ Rounded ε (e.1 * w) t})) 0
  | none =>
    let terms ← (MI.generateAll n r).zipIdx.mapM (fun (e : List Nat × Nat) => do
      let c ← getE a e.2
      return ({t | ∃ w ∈ integrateMonomialUnit ε e.1, Rounded ε (c * w) t} : Set ℝ))
    return sumTerms ε terms 0

/-- `integrate_lagrange_basis_fn_unit_simplex` (lagrange calculus 19-63). The parameter `coeff` gives the floating point coefficients that
`get_lagrange_basis_fn_coefficients` returns for a multi-index. -/
def integrateLagrangeBasisFnUnit (ε : ℝ) (coeff : List Nat → List ℝ) (nu : List Nat) (r : Nat) : Py (Set ℝ) :=
  integrateMonomialPolynomialUnit ε r nu.length (coeff nu)

/-- `integrate_lagrange_polynomial_unit_simplex` (lagrange calculus 66-97). -/
def integrateLagrangeUnit (ε : ℝ) (coeff : List Nat → List ℝ) (r : Nat) (a : List ℝ) (n : Nat) : Py (Set ℝ) := do
  pyAssert (decide (a.length = getDimension r n))
  let terms ← (MI.generateAll n r).zipIdx.mapM (fun (e : List Nat × Nat) => do
    let c ← getE a e.2
    let W ← integrateLagrangeBasisFnUnit ε coeff e.1 r
    return ({t | ∃ w ∈ W, Rounded ε (c * w) t} : Set ℝ))
  return sumTerms ε terms 0

/-- `integrate_bernstein_basis_fn_simplex` (bernstein calculus 73-100). The parameter `det` is the determinant as computed in line 95 or 97. -/
noncomputable def integrateBernsteinBasisFnSimplex (ε det : ℝ) (r n : Nat) : Py (Set ℝ) := do
  pyAssert (decide (det > 0))
  return {c | ∃ iu ∈ integrateBernsteinBasisFnUnit ε r n, Rounded ε (det * iu) c}

/-- `integrate_bernstein_polynomial_simplex` (bernstein calculus 103-129), for a simplex of dimension `n`. -/
noncomputable def integrateBernsteinSimplex (ε det : ℝ) (r : Nat) (a : List ℝ) (n : Nat) : Py (Set ℝ) := do
  pyAssert (decide (a.length = getDimension r n))
  let C ← integrateBernsteinBasisFnSimplex ε det r n
  return {y | ∃ c ∈ C, ∃ s ∈ pySum ε a, Rounded ε (c * s) y}

/-- `barycentric_to_cartesian` (simplex.py:399-410): the possible values of the coordinate `j`; `p += barycentric[i] * vertices[i]` for each vertex. -/
def barycentricToCartesian (ε : ℝ) {k n : Nat} (bary : Fin (k + 1) → ℝ) (v : Simplex.Vertices ℝ k n) (j : Fin n) : Set ℝ :=
  sumTerms ε ((List.finRange (k + 1)).map (fun i => {t | Rounded ε (bary i * v i j) t})) 0

/-- `cartesian_to_barycentric_unit` (simplex.py:413-421): the possible values of the first coordinate `1.0 - sum(point)`; the others are copied. -/
def cartesianToBarycentricUnitFirst (ε : ℝ) (x : List ℝ) : Set ℝ := {y | ∃ s ∈ pySum ε x, Rounded ε (1 - s) y}

/-- A sum of numbers computed by additions of two numbers in any order, as `np.sum` does (the order is not specified). -/
inductive AnySum (ε : ℝ) : List ℝ → ℝ → Prop where
  | one (t : ℝ) : AnySum ε [t] t
  | add {k l m : List ℝ} {a b c : ℝ} : (l ++ m).Perm k → AnySum ε l a → AnySum ε m b → Rounded ε (a + b) c → AnySum ε k c

/-- `centroid` (simplex.py:484-491): the possible values of the coordinate `j` of `vertices.sum(0) / len(vertices)`. -/
def centroid (ε : ℝ) {k n : Nat} (v : Simplex.Vertices ℝ k n) (j : Fin n) : Set ℝ :=
  {y | ∃ s, AnySum ε (List.ofFn (fun i => v i j)) s ∧ Rounded ε (s / ((k + 1 : Nat) : ℝ)) y}

end Verif.FloatIntegration
