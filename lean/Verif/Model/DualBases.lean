import Mathlib.LinearAlgebra.Matrix.NonsingularInverse
import Verif.Model.Integration
/-!
# Model of dual bases, conversion of bases and higher derivatives

`polynomials_on_simplices/polynomial/polynomials_monomial_basis.py` (PM below), `polynomials_unit_simplex_bernstein_basis.py` (PB),
`polynomials_unit_simplex_lagrange_basis.py` (PL), `polynomials_unit_simplex_bases.py` (UB) and
`polynomials_on_simplices/calculus/polynomial/polynomials_calculus.py` (PC).

A function returned by the library (a closure) is a Lean function; an exception raised while it is created is reported when it is
created. SciPy's `binom` is the exact binomial coefficient, `np.linalg.inv` the exact inverse (LinAlgError, a ValueError, for a
singular matrix). Integer multi-indices are the multi-indices of length one.
-/

namespace Verif.Poly
open Verif

variable {K V : Type} [Field K] [DecidableEq K] [AddCommGroup V] [Module K V]

/-- A scalar valued or a vector valued polynomial object; `n` is `target_dimension()`, `n ≠ 1` for `vector`
(polynomials_base.py:203-210). -/
inductive AnyObj (K : Type) where
  | scalar (p : Obj K)
  | vector (n : Nat) (p : Obj (Fin n → K))

/-! ## Derivatives -/

/-- The loop `for j in range(k): dp = dp.partial_derivative(i)` (PC 89-90). -/
noncomputable def repeatDerivative (K : Type) {V : Type} [Field K] [DecidableEq K] [AddCommGroup V] [Module K V]
    (i : Nat) : Nat → Obj V → Py (Obj V)
  | 0, dp => .ok dp
  | k + 1, dp => do
    let dp' ← dp.partialDerivative K i
    repeatDerivative K i k dp'

/-- `derivative` (PC 63-98). -/
noncomputable def derivative (K : Type) {V : Type} [Field K] [DecidableEq K] [AddCommGroup V] [Module K V]
    (p : Obj V) (alpha : List Nat) : Py (Obj V) := do
  pyAssert (decide (alpha.length = p.m))
  alpha.zipIdx.foldlM (fun dp (e : Nat × Nat) => repeatDerivative K e.2 e.1 dp) p

/-! ## Dual monomial basis -/

/-- `dual_monomial_basis_fn` (PM 410-447). -/
noncomputable def dualMonomialFn (K : Type) {V : Type} [Field K] [DecidableEq K] [AddCommGroup V] [Module K V]
    (mu : List Nat) (p : Obj V) : Py V := do
  let dp ← derivative K p mu
  let v ← dp.call (List.replicate mu.length (0 : K))
  return ((MI.factorial mu : Nat) : K)⁻¹ • v

/-! ## Dual Bernstein basis -/

/-- The coefficient computed in PB 620-626 for `m = 1`, `j ≤ r` and `k ≤ r`. -/
def dualBernsteinCoeff (K : Type) [Field K] (r j k : Nat) : K :=
  let factor : K := (-1) ^ (j + k) / (((r.choose j : Nat) : K) * ((r.choose k : Nat) : K))
  let c : K := (List.range (min j k + 1)).foldl (fun (c : K) (l : Nat) =>
    c + (2 * (l : K) + 1) * ((((r + l + 1).choose (r - j) : Nat) : K) * (((r - l).choose (r - j) : Nat) : K) *
      (((r + l + 1).choose (r - k) : Nat) : K) * (((r - l).choose (r - k) : Nat) : K))) 0
  c * factor

/-- The entry computed in PB 641-645 for the multi-indices `nu` and `tau`. -/
def gramEntry (K : Type) [Field K] (r m : Nat) (nu tau : List Nat) : Py K := do
  let f1 ← MI.multinomGeneral r nu
  let f2 ← MI.multinomGeneral r tau
  let s ← MI.add nu (tau.map Int.ofNat)
  let f3 ← MI.multinomGeneral ((2 * r : Nat) : Int) s
  return (f1 : K) * (f2 : K) / (f3 : K) * Integration.integrateBernsteinBasisFnUnit K (2 * r) m

/-- The matrix assembled in PB 633-647, as the list of its rows: an entry below the diagonal is copied from above (646-647). -/
def gramRows (K : Type) [Field K] (r m : Nat) : Py (List (List K)) :=
  let mis := MI.generateAll m r
  (List.range (getDimension r m)).mapM (fun (i : Nat) =>
    (List.range (getDimension r m)).mapM (fun (j : Nat) => do
      let nu ← getE mis (min i j)
      let tau ← getE mis (max i j)
      gramEntry K r m nu tau))

/-- A matrix given by the list of its rows. -/
def rowsMatrix (n : Nat) (rows : List (List K)) : Matrix (Fin n) (Fin n) K :=
  Matrix.of fun i j => (rows.getD i []).getD j 0

/-- The general case of `dual_bernstein_basis_polynomial` (PB 631-652). `np.linalg.inv` is modelled by the exact inverse, and by an exception
for a singular matrix. -/
noncomputable def dualBernsteinSolve (K : Type) [Field K] [DecidableEq K] (mu : List Nat) (r m : Nat) : Py (Obj K) := do
  let rows ← gramRows K r m
  if (rowsMatrix (getDimension r m) rows).det = 0 then .error .value
  else
    let idx ← MI.getIndex mu r
    let v ← setE (zeros K (getDimension r m)) idx 1
    Obj.new .bernstein (List.ofFn ((rowsMatrix (getDimension r m) rows)⁻¹.mulVec (fun i => v.getD i 0))) (some r) m

/-- `dual_bernstein_basis_polynomial` (PB 575-652). For `m = 1` and `mu > r` the program divides by zero and returns an object with
coefficients inf or nan; the model reports an error. -/
noncomputable def dualBernsteinPolynomial (K : Type) [Field K] [DecidableEq K] (mu : List Nat) (r : Nat) : Py (Obj K) := do
  let m := mu.length
  if r = 0 then
    let u ← unitPolynomialOnes .bernstein K 0 m
    u.divConst (Simplex.volumeUnit K m)
  else if m = 1 then
    let j ← getE mu 0
    if j ≤ r then
      Obj.new .bernstein ((List.range (getDimension r m)).map (dualBernsteinCoeff K r j)) (some r) m
    else .error .value
  else dualBernsteinSolve K mu r m

/-- `dual_bernstein_polynomial_basis` (PB 655-669). -/
noncomputable def dualBernsteinPolynomialBasis (K : Type) [Field K] [DecidableEq K] (r n : Nat) : Py (List (Obj K)) :=
  (MI.generateAll n r).mapM (fun mi => dualBernsteinPolynomial K mi r)

/-- The function `q` in PB 705-709. -/
noncomputable def dualBernsteinApply (d : Obj K) (m r : Nat) (p : Obj K) : Py K :=
  match p.basis with
  | .bernstein => do
    let c ← d.mul p
    Integration.integrateBernsteinUnit K (2 * r) c.coeff m
  | _ => do
    let dm ← d.toMonomialBasis K
    let pm ← p.toMonomialBasis K
    let c ← dm.mul pm
    Integration.integrateMonomialPolynomialUnit K (2 * r) m c.coeff

/-- `dual_bernstein_basis_fn` (PB 672-710). -/
noncomputable def dualBernsteinFn (K : Type) [Field K] [DecidableEq K] (mu : List Nat) (r : Nat) : Py (Obj K → Py K) := do
  let d ← dualBernsteinPolynomial K mu r
  return dualBernsteinApply d mu.length r

/-! ## Dispatch on the name of the basis -/

/-- `basis()` of the three classes: the strings returned by `unique_identifier_*_basis` (PM 32-39, PB 43-50, PL 42-49). -/
def Basis.identifier : Basis → String
  | .monomial => "monomial"
  | .bernstein => "Bernstein"
  | .lagrange => "Lagrange"

/-- The `if` chains of UB: the basis with the given identifier, `ValueError("Unknown polynomial basis")` if there is none. -/
def basisOf (name : String) : Py Basis :=
  if name = Basis.monomial.identifier then .ok .monomial
  else if name = Basis.lagrange.identifier then .ok .lagrange
  else if name = Basis.bernstein.identifier then .ok .bernstein
  else .error .value

/-- `polynomial_basis_fn` (UB 60-78). -/
def polynomialBasisFn (K : Type) [Field K] (nu : List Nat) (r : Nat) (name : String) : Py (Obj K) := do
  match ← basisOf name with
  | .monomial => monomialBasisFn K nu
  | .lagrange => lagrangeBasisFn K nu r
  | .bernstein => bernsteinBasisFn K nu r

/-- `polynomial_basis` (UB 81-96). -/
def polynomialBasis (K : Type) [Field K] (r n : Nat) (name : String) : Py (List (Obj K)) := do
  match ← basisOf name with
  | .monomial => monomialBasis K r n
  | .lagrange => lagrangeBasis K r n
  | .bernstein => bernsteinBasis K r n

/-- `vector_valued_monomial_basis_fn` (PM 332-380), `vector_valued_bernstein_basis_fn` (PB 422-471) and `vector_valued_lagrange_basis_fn`
(PL 525-574). The degree of a monomial is the norm of `nu`. -/
def vectorBasisFn (K : Type) [Field K] (b : Basis) (nu : List Nat) (r i n : Nat) : Py (AnyObj K) := do
  if n = 1 then
    pyAssert (decide (i = 0))
    let p ← polynomialBasisFn K nu r b.identifier
    return .scalar p
  else
    pyAssert (decide (i < n))
    let r' := if b = .monomial then MI.norm nu else r
    let j ← MI.getIndex nu r'
    let coeff ← setE (zeros (Fin n → K) (getDimension r' nu.length)) j (fun l => if (l : Nat) = i then 1 else 0)
    let p ← Obj.new b coeff (some r') nu.length
    return .vector n p

/-- The pairs of a multi-index and a component in the order of the loops of the vector valued bases (for instance PM 399-406). -/
def vectorPairs (r m n : Nat) (ordering : String) : List (List Nat × Nat) :=
  if ordering = "interleaved" then (MI.generateAll m r).flatMap (fun mi => (List.range n).map (fun i => (mi, i)))
  else (List.range n).flatMap (fun i => (MI.generateAll m r).map (fun mi => (mi, i)))

/-- `vector_valued_monomial_basis` (PM 383-407), `vector_valued_bernstein_basis` (PB 474-498), `vector_valued_lagrange_basis`
(PL 577-601). -/
def vectorBasis (K : Type) [Field K] (b : Basis) (r m n : Nat) (ordering : String) : Py (List (AnyObj K)) :=
  (vectorPairs r m n ordering).mapM (fun e => vectorBasisFn K b e.1 r e.2 n)

/-- `vector_valued_polynomial_basis_fn` (UB 99-119). -/
def vectorPolynomialBasisFn (K : Type) [Field K] (nu : List Nat) (r i n : Nat) (name : String) : Py (AnyObj K) := do
  let b ← basisOf name
  vectorBasisFn K b nu r i n

/-- `vector_valued_polynomial_basis` (UB 122-145). For `n == 1` it calls `polynomial_basis(m, r, basis)` (138), with the degree and the
dimension exchanged. -/
def vectorPolynomialBasis (K : Type) [Field K] (r m n : Nat) (name : String) (ordering : String) : Py (List (AnyObj K)) := do
  if n = 1 then
    let l ← polynomialBasis K m r name
    return l.map AnyObj.scalar
  else
    let b ← basisOf name
    vectorBasis K b r m n ordering

/-- `dual_polynomial_basis_fn` (UB 148-180). -/
noncomputable def dualPolynomialBasisFn (K : Type) [Field K] [DecidableEq K] (mu : List Nat) (r : Nat) (name : String) :
    Py (Obj K → Py K) := do
  match ← basisOf name with
  | .monomial => return dualMonomialFn K mu
  | .lagrange => return dualLagrangeBasisFn K mu r
  | .bernstein => dualBernsteinFn K mu r

/-- `dual_polynomial_basis` (UB 183-200), with `dual_monomial_basis` (PM 450-465), `dual_lagrange_basis` (PL 698-713) and
`dual_bernstein_basis` (PB 713-728). -/
noncomputable def dualPolynomialBasis (K : Type) [Field K] [DecidableEq K] (r n : Nat) (name : String) :
    Py (List (Obj K → Py K)) := do
  let b ← basisOf name
  (MI.generateAll n r).mapM (fun mi => dualPolynomialBasisFn K mi r b.identifier)

/-- The function `q` returned by `dual_vector_valued_monomial_basis_fn` (PM 494-506), `dual_vector_valued_bernstein_basis_fn` (PB 758-770)
and `dual_vector_valued_lagrange_basis_fn` (PL 743-755) for the scalar dual function `qs`, `i < n`. For `n = 1` the function is `qs`
itself; its application to a vector valued polynomial is not modelled (reported as an error). -/
noncomputable def vectorDualApply (qs : Obj K → Py K) (i n : Nat) (p : AnyObj K) : Py K :=
  match p with
  | .scalar p => if n = 1 then qs p else .error .assertion
  | .vector n' p => if h : i < n' ∧ n' = n ∧ n ≠ 1 then do
      let c ← p.component ⟨i, h.1⟩
      qs c
    else .error .assertion

/-- `dual_vector_valued_polynomial_basis_fn` (UB 203-238). -/
noncomputable def dualVectorPolynomialBasisFn (K : Type) [Field K] [DecidableEq K] (mu : List Nat) (r i n : Nat) (name : String) :
    Py (AnyObj K → Py K) := do
  let b ← basisOf name
  pyAssert (decide (i < n))
  let qs ← dualPolynomialBasisFn K mu r b.identifier
  return vectorDualApply qs i n

/-- `dual_vector_valued_polynomial_basis` (UB 241-266), with `dual_vector_valued_monomial_basis` (PM 509-536),
`dual_vector_valued_bernstein_basis` (PB 773-800) and `dual_vector_valued_lagrange_basis` (PL 758-785). -/
noncomputable def dualVectorPolynomialBasis (K : Type) [Field K] [DecidableEq K] (r m n : Nat) (name : String) (ordering : String) :
    Py (List (AnyObj K → Py K)) := do
  let b ← basisOf name
  (vectorPairs r m n ordering).mapM (fun e => dualVectorPolynomialBasisFn K e.1 r e.2 n b.identifier)

/-! ## Conversion -/

/-- UB 41-57 for a scalar valued polynomial: the coefficients are computed by the dual basis. -/
noncomputable def convertScalar (p : Obj K) (target : String) : Py (Obj K) := do
  if p.basis.identifier = target then return p
  else if target = Basis.monomial.identifier then p.toMonomialBasis K
  else
    let duals ← dualPolynomialBasis K p.r p.m target
    let coeff ← (List.range p.coeff.length).mapM (fun (i : Nat) => do
      let q ← getE duals i
      q p)
    let b ← basisOf target
    Obj.new b coeff (some p.r) p.m

/-- `convert_polynomial_to_basis` (UB 26-57) for a vector valued polynomial: each component separately (46-50). -/
noncomputable def convertVector {n : Nat} (p : Obj (Fin n → K)) (target : String) : Py (Obj (Fin n → K)) := do
  if p.basis.identifier = target then return p
  else if target = Basis.monomial.identifier then p.toMonomialBasis K
  else
    let duals ← dualPolynomialBasis K p.r p.m target
    let coeff ← (List.range p.coeff.length).mapM (fun (i : Nat) => do
      let row ← (List.finRange n).mapM (fun (j : Fin n) => do
        let q ← getE duals i
        let pj ← p.component j
        q pj)
      return fun j : Fin n => row.getD j 0)
    let b ← basisOf target
    Obj.new b coeff (some p.r) p.m

/-- `convert_polynomial_to_basis` (UB 26-57). -/
noncomputable def convertPolynomial (p : AnyObj K) (target : String) : Py (AnyObj K) :=
  match p with
  | .scalar p => do
    let q ← convertScalar p target
    return .scalar q
  | .vector n p => do
    let q ← convertVector p target
    return .vector n q

end Verif.Poly
