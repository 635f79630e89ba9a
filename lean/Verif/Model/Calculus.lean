import Verif.Model.DualBases
import Verif.Model.Permutations
import Verif.Model.SimplexPolynomial
/-!
# Model of `calculus/polynomial/polynomials_calculus.py` (PC below): derivatives of any order

The functions use only the methods `partial_derivative`, `__getitem__` and `domain_dimension` of the polynomial, so they are modelled for an
arbitrary type `O` of objects with these methods as parameters (`pd`, `comp`, `m`). `copy.deepcopy` (83) is the identity: the objects are not modified.
Arrays of objects (`np.empty(.., dtype=object)`) hold `none` until they are filled.
-/

namespace Verif.Calculus
open Verif

variable {O : Type} (pd : O → Nat → Py O)

/-- The loop `for j in range(k): dp = dp.partial_derivative(i)` (PC 89-90, 96-97). -/
def repeatPd (i : Nat) : Nat → O → Py O
  | 0, dp => .ok dp
  | k + 1, dp => do
    let dp' ← pd dp i
    repeatPd i k dp'

/-- `derivative` (PC 63-91) for a multi-index. -/
def derivative (m : Nat) (p : O) (alpha : List Nat) : Py O := do
  pyAssert (decide (alpha.length = m))
  (List.range alpha.length).foldlM (fun dp (i : Nat) => do
    let k ← getE alpha i
    repeatPd pd i k dp) p

/-- `derivative` (PC 92-98) for an integer: the univariate case. -/
def derivativeInt (m : Nat) (p : O) (alpha : Nat) : Py O := do
  pyAssert (decide (1 = m))
  repeatPd pd 0 alpha p

/-- `gradient` (PC 24-42) of a scalar valued polynomial. For a vector valued polynomial it is `jacobian`. -/
def gradient (m : Nat) (p : O) : Py (List O) := (List.range m).mapM (fun (i : Nat) => pd p i)

/-- `jacobian` (PC 45-60); `comp i` is `p[i]`, `n` the target dimension. -/
def jacobian (m n : Nat) (comp : Nat → Py O) : Py (List (List O)) :=
  (List.range n).mapM (fun (i : Nat) => do
    let c ← comp i
    gradient pd m c)

/-- `alpha[i] += 1`. -/
def increase (alpha : List Nat) (i : Nat) : Py (List Nat) := do
  let a ← getE alpha i
  setE alpha i (a + 1)

/-- `h[i][j] = x` for a two dimensional array. -/
def setEntry (h : List (List (Option O))) (i j : Nat) (x : O) : Py (List (List (Option O))) := do
  let row ← getE h i
  let row' ← setE row j (some x)
  setE h i row'

/-- The body of the loops of `hessian` (PC 124-129). -/
def hessianEntry (m : Nat) (p : O) (h : List (List (Option O))) (i j : Nat) : Py (List (List (Option O))) := do
  let alpha ← increase (MI.zero m) i
  let alpha ← increase alpha j
  let d ← derivative pd m p alpha
  let h ← setEntry h i j d
  if i = j then return h else setEntry h j i d

/-- `hessian` (PC 101-130); `n` is the target dimension. -/
def hessian (m n : Nat) (p : O) : Py (List (List (Option O))) := do
  pyAssert (decide (n = 1))
  (List.range m).foldlM (fun h (i : Nat) =>
    (List.range' i (m - i)).foldlM (fun h (j : Nat) => hessianEntry pd m p h i j) h)
    (List.replicate m (List.replicate m none))

/-- `_unique_permutations` (PC 225-255). The elements of the set are listed in the order of their first occurrence. -/
def uniquePermutations (t : List Nat) : Py (List (List Nat)) := do
  let l ← (Perm.permutations t.length).mapM (fun s => Perm.permutePositions s t)
  return l.dedup

/-- `d[ip] = x` for an array with `r` axes of length `m`, as a function of the index. -/
def setArray (m r : Nat) (d : List Nat → Option O) (ip : List Nat) (x : O) : Py (List Nat → Option O) :=
  if ip.length = r ∧ ∀ k ∈ ip, k < m then .ok (Function.update d ip (some x)) else .error .index

/-- The body of the outer loop of `partial_derivatives_array` (PC 168-173). The variable `r` of the loop 169 hides the order `r`, which is not used after
line 167. -/
def arrayStep (m r : Nat) (p : O) (d : List Nat → Option O) (i : List Nat) : Py (List Nat → Option O) := do
  let alpha ← i.foldlM increase (MI.zero m)
  let x ← derivative pd m p alpha
  let ips ← uniquePermutations i
  ips.foldlM (fun d ip => setArray m r d ip x) d

/-- `partial_derivatives_array` (PC 133-174) for a domain of positive dimension; `n` is the target dimension. For `r = 0` the program returns `p` itself
instead of an array; here it is the array without axes whose entry is `p`. -/
def partialDerivativesArray (m n r : Nat) (p : O) : Py (List Nat → Option O) := do
  pyAssert (decide (n = 1))
  if r = 0 then return Function.update (fun _ => none) [] (some p)
  else (MI.generateAllNonDecreasing r (m - 1)).foldlM (arrayStep pd m r p) (fun _ => none)

end Verif.Calculus

namespace Verif.SPoly
open Verif Verif.Poly Verif.Simplex

variable {K V : Type} [Field K] [DecidableEq K] [AddCommGroup V] [Module K V] {m : Nat}

/-- `dual_monomial_basis_fn` (polynomials_monomial_basis.py:410-447) applied to a polynomial on a simplex. -/
noncomputable def dualMonomialSimplex (mu : List Nat) (p : SObj K V m) : Py V := do
  let dp ← Calculus.derivative SObj.partialDerivative m p mu
  let v ← dp.call (fun _ => 0)
  return ((MI.factorial mu : Nat) : K)⁻¹ • v

/-- `to_monomial_basis` (polynomials_simplex_bernstein_basis.py:222-238, polynomials_simplex_lagrange_basis.py:299-315). -/
noncomputable def SObj.toMonomialBasis (p : SObj K V m) : Py (Obj V) := do
  let a ← (MI.generateAll m p.poly.r).mapM (fun mi => dualMonomialSimplex mi p)
  Obj.new .monomial a (some p.poly.r) m

/-- `bernstein_basis_fn_simplex_monomial` (polynomials_simplex_bernstein_basis.py:446-464), `lagrange_basis_fn_simplex_monomial`
(polynomials_simplex_lagrange_basis.py:522-540). -/
noncomputable def basisFnSimplexMonomial (basis : Basis) (nu : List Nat) (r : Nat) (vertices : Vertices K m m) : Py (Obj K) := do
  let p ← basisFnSimplex basis nu r vertices
  p.toMonomialBasis

/-- `bernstein_basis_simplex_monomial` (polynomials_simplex_bernstein_basis.py:467-485), `lagrange_basis_simplex_monomial`
(polynomials_simplex_lagrange_basis.py:543-561). -/
noncomputable def basisSimplexMonomial (basis : Basis) (r : Nat) (vertices : Vertices K m m) : Py (List (Obj K)) :=
  (MI.generateAll m r).mapM (fun mi => basisFnSimplexMonomial basis mi r vertices)

end Verif.SPoly
