import Mathlib.LinearAlgebra.Matrix.NonsingularInverse
import Verif.Model.PolynomialBernstein
import Verif.Model.LagrangeCache
/-!
# Model of `polynomial/polynomials_unit_simplex_lagrange_basis.py`, and evaluation of polynomial objects

`numpy.linalg.solve` is modelled by exact linear algebra: the inverse matrix if there is one, and an error
(`LinAlgError`, a subclass of ValueError) otherwise.
-/

namespace Verif.Poly
open Verif

variable {K V : Type} [Field K] [DecidableEq K] [AddCommGroup V] [Module K V]

/-- `generate_lagrange_point` (52-84), for `len(nu) = n`. -/
def generateLagrangePoint (K : Type) [Field K] (n r : Nat) (nu : List Nat) : List K :=
  if r = 0 then List.replicate n 0 else nu.map (fun (k : Nat) => (k : K) / (r : K))

/-- `generate_lagrange_points` (87-122). `np.linspace(0.0, 1.0, r + 1)` are the numbers `i / r` (and `[0.0]` for `r = 0`, which
is also the value of `0 / 0` in the model). A scalar point is the list of its one coordinate. -/
def generateLagrangePoints (K : Type) [Field K] (n r : Nat) : List (List K) :=
  if n = 1 then (List.range (r + 1)).map (fun (i : Nat) => [(i : K) / (r : K)])
  else if r = 0 then List.replicate (getDimension r n) (List.replicate n 0)
  else (MI.generateAll n r).map (generateLagrangePoint K n r)

/-- The matrix `a` of `generate_lagrange_base_coefficients` (209-220). Entries whose computation raises (they do not occur
for points and multi-indices of the right length) are zero. -/
def lagrangeSystem (K : Type) [Field K] (r n : Nat) :
    Matrix (Fin (generateLagrangePoints K n r).length) (Fin (generateLagrangePoints K n r).length) K :=
  Matrix.of fun i j =>
    if n = 1 then (((generateLagrangePoints K n r).getD i []).getD 0 0) ^ (j : Nat)
    else
      match MI.power ((generateLagrangePoints K n r).getD i []) ((MI.generateAll n r).getD j []) with
      | .ok v => v
      | .error _ => 0

/-- `generate_lagrange_base_coefficients` (198-222): `np.linalg.solve(a, identity)`, as the list of its rows. -/
noncomputable def generateLagrangeBaseCoefficients (K : Type) [Field K] [DecidableEq K] (r n : Nat) : Py (List (List K)) :=
  if (lagrangeSystem K r n).det ≠ 0 then
    .ok (List.ofFn fun i => List.ofFn fun j => (lagrangeSystem K r n)⁻¹ i j)
  else .error .value

/-- `[row[i] for row in rows]`: column `i` of a matrix given by its rows. -/
def column {W : Type} (rows : List (List W)) (i : Nat) : Py (List W) := rows.mapM (fun row => getE row i)

/-- The cached dictionary for `n`, `r`, when the conditions of lines 142-143 / 189-190 hold. -/
def lagrangeDict? (r n : Nat) : Option LagrangeDict :=
  if 1 ≤ n ∧ 1 ≤ r then
    match lagrangeCache[n - 1]? with
    | some row => row[r - 1]?
    | none => none
  else none

/-- A cached coefficient list as field elements. -/
def dictValues (K : Type) [Field K] (den : Nat) (nums : List Int) : List K := nums.map (fun z : Int => (z : K) / (den : K))

/-- `get_lagrange_basis_fn_coefficients` (125-153) with the generated case (156-175). -/
noncomputable def getLagrangeBasisFnCoefficients (K : Type) [Field K] [DecidableEq K] (nu : List Nat) (r : Nat) :
    Py (List K) :=
  match lagrangeDict? r nu.length with
  | some d => do
    let nums ← keyE (d.2.lookup nu)
    return dictValues K d.1 nums
  | none => do
    let i ← MI.getIndex nu r
    let l ← generateLagrangeBaseCoefficients K r nu.length
    column l i

/-- `get_lagrange_base_coefficients` (178-195), as the list of columns (the transpose in line 191 undone): one
coefficient list per basis function. -/
noncomputable def getLagrangeBaseColumns (K : Type) [Field K] [DecidableEq K] (r n : Nat) : Py (List (List K)) :=
  match lagrangeDict? r n with
  | some d => .ok (d.2.map (fun e => dictValues K d.1 e.2))
  | none => do
    let l ← generateLagrangeBaseCoefficients K r n
    (List.range l.length).mapM (column l)

/-- `np.dot(l, a)` for the matrix `l` given by its columns: `sum_i a_i * column_i`. -/
def dotColumns (dim : Nat) (cols : List (List K)) (a : List V) : List V :=
  (cols.zip a).foldl (fun acc e => List.zipWith (fun v t => v + t • e.2) acc e.1) (zeros V dim)

/-- Evaluation of a polynomial in the monomial basis, `sum_i coeff[i] * x^nu_i`: the meaning of the generated evaluation
function (polynomials_monomial_basis.py:82-91); the generated program text is modelled in `Verif.Model.CodeGeneration`. -/
def evalMonomial (m r : Nat) (coeff : List V) (x : List K) : Py V :=
  sumLoop (fun (e : List Nat × Nat) => do
    let c ← getE coeff e.2
    let w ← MI.power x e.1
    return some (w • c)) (MI.generateAll m r).zipIdx 0

/-- `__call__` of the three classes (polynomials_monomial_basis.py:82-91,
polynomials_unit_simplex_bernstein_basis.py:108-117, polynomials_unit_simplex_lagrange_basis.py:270-279 with
generate_lagrange_polynomial_functions_simplex.py:144-175: the coefficients are multiplied by the matrix of basis
coefficients and the result is evaluated as a monomial polynomial) at a point with `m` coordinates. -/
noncomputable def Obj.call (p : Obj V) (x : List K) : Py V := do
  pyAssert (decide (x.length = p.m))
  match p.basis with
  | .monomial => evalMonomial p.m p.r p.coeff x
  | .bernstein =>
    let a ← bernsteinA K p
    barycentricPolynomialGeneral p.r a x
  | .lagrange =>
    let cols ← getLagrangeBaseColumns K p.r p.m
    evalMonomial p.m p.r (dotColumns (getDimension p.r p.m) cols p.coeff) x

/-- `PolynomialLagrange.__mul__` (281-306) for two polynomials; `other` may be in any basis. -/
noncomputable def mulLagrange (p q : Obj K) : Py (Obj K) := do
  pyAssert (decide (p.m = q.m))
  let m := p.m
  let r := p.r + q.r
  let coeff ← fillLoop (fun (x : List K) => do
      let a ← p.call x
      let b ← q.call x
      return a * b)
    (generateLagrangePoints K m r) 0 (zeros K (getDimension r m))
  Obj.new .lagrange coeff (some r) m

/-- `PolynomialLagrange.__pow__` with a multi-index exponent (330-342). -/
noncomputable def powMultiLagrange {n : Nat} (p : Obj (Fin n → K)) (exp : List Nat) : Py (Obj K) := do
  pyAssert (decide (exp.length = n))
  let m := p.m
  let r := p.r * MI.norm exp
  let coeff ← fillLoop (fun (x : List K) => do
      let v ← p.call x
      MI.power (List.ofFn v) exp)
    (generateLagrangePoints K m r) 0 (zeros K (getDimension r m))
  Obj.new .lagrange coeff (some r) m

/-- `dual_lagrange_basis_fn(mu, r)(p)` (659-695). -/
noncomputable def dualLagrangeBasisFn (K : Type) {V : Type} [Field K] [DecidableEq K] [AddCommGroup V] [Module K V]
    (mu : List Nat) (r : Nat) (p : Obj V) : Py V :=
  p.call (generateLagrangePoint K mu.length r mu)

/-- `PolynomialLagrange.degree_elevate` (376-408). -/
noncomputable def degreeElevateLagrange (K : Type) {V : Type} [Field K] [DecidableEq K] [AddCommGroup V] [Module K V]
    (p : Obj V) (s : Nat) : Py (Obj V) := do
  pyAssert (decide (s ≥ p.r))
  if s = p.r then Obj.new .lagrange p.coeff (some p.r) p.m
  else
    let coeff ← fillLoop (fun mu => dualLagrangeBasisFn K mu s p) (MI.generateAll p.m s) 0 (zeros V (getDimension s p.m))
    Obj.new .lagrange coeff (some s) p.m

/-- `lagrange_basis_fn` (474-507) for a multi-index. -/
def lagrangeBasisFn (K : Type) [Field K] (nu : List Nat) (r : Nat) : Py (Obj K) := do
  let i ← MI.getIndex nu r
  let coeff ← setE (zeros K (getDimension r nu.length)) i 1
  Obj.new .lagrange coeff (some r) nu.length

/-- `lagrange_basis` (510-522). -/
def lagrangeBasis (K : Type) [Field K] (r n : Nat) : Py (List (Obj K)) :=
  (MI.generateAll n r).mapM (fun mi => lagrangeBasisFn K mi r)

/-- `lagrange_basis_fn_monomial` (604-637). -/
noncomputable def lagrangeBasisFnMonomial (K : Type) [Field K] [DecidableEq K] (nu : List Nat) (r : Nat) : Py (Obj K) := do
  let coeff ← getLagrangeBasisFnCoefficients K nu r
  Obj.new .monomial coeff (some r) nu.length

/-- `lagrange_basis_monomial` (640-656). The class attribute `_basis_polynomials_monomial_form` (247-248, 420) memoises
this list per `(m, r)`; the model recomputes it. -/
noncomputable def lagrangeBasisMonomial (K : Type) [Field K] [DecidableEq K] (r n : Nat) : Py (List (Obj K)) :=
  (MI.generateAll n r).mapM (fun mi => lagrangeBasisFnMonomial K mi r)

end Verif.Poly
