import Mathlib.Algebra.Module.Basic
import Mathlib.Algebra.Field.Defs
import Verif.Model.PolynomialsBase
import Verif.Model.OrderCache
/-!
# Model of `polynomial/polynomials_base.py` (class `PolynomialBase`) and of `polynomials_monomial_basis.py`

Floating point numbers are modelled by an arbitrary field `K` (exact arithmetic). A polynomial object is modelled by its
attributes: the basis it is expressed in (the subclass), `coeff`, `r` and `m`. Coefficients live in a `K`-module `V`:
`V = K` for scalar valued polynomials, `V = Fin n → K` for vector valued ones (a NumPy array of shape `(dim, n)` is the
list of its rows). The target dimension `n` is thus part of the type, and the assertions that compare target dimensions are
discharged by typing.
-/

namespace Verif.Poly
open Verif

variable {K V : Type} [Field K] [DecidableEq K] [AddCommGroup V] [Module K V]

/-- The three `PolynomialBase` subclasses, identified by `basis()`
(`Polynomial`, `PolynomialBernstein`, `PolynomialLagrange`). -/
inductive Basis where
  | monomial
  | bernstein
  | lagrange
  deriving DecidableEq, Repr

/-- A polynomial object: the attributes set by `PolynomialBase.__init__` (polynomials_base.py:175-189). -/
structure Obj (V : Type) where
  basis : Basis
  coeff : List V
  r : Nat
  m : Nat

/-- `PolynomialBase.__init__` (polynomials_base.py:159-189). The generated evaluation function is modelled separately. -/
def Obj.new (basis : Basis) (coeff : List V) (r : Option Nat) (m : Nat) : Py (Obj V) := do
  pyAssert (decide (coeff.length > 0))
  match r with
  | some r =>
    if m > 0 then
      let d ← getDegreeFromDimension coeff.length m
      pyAssert (decide (r = d))
    else
      pyAssert (decide (coeff.length = 1))
    return { basis := basis, coeff := coeff, r := r, m := m }
  | none =>
    let d ← getDegreeFromDimension coeff.length m
    return { basis := basis, coeff := coeff, r := d, m := m }

/-- The loop `coeff = np.zeros(dim); j = 0; for item in items: coeff[j] = f(item); j += 1` that occurs throughout
(for instance polynomials_monomial_basis.py:191-198). -/
def fillLoop {ι : Type} (f : ι → Py V) : List ι → Nat → List V → Py (List V)
  | [], _, coeff => .ok coeff
  | item :: rest, j, coeff => do
    let v ← f item
    let coeff' ← setE coeff j v
    fillLoop f rest (j + 1) coeff'

/-- `np.zeros(dim)` / `np.zeros((dim, n))`. -/
def zeros (V : Type) [Zero V] (dim : Nat) : List V := List.replicate dim 0

/-- `PolynomialBase.__getitem__` (polynomials_base.py:243-256) for a vector valued polynomial. -/
def Obj.component {n : Nat} (p : Obj (Fin n → K)) (i : Fin n) : Py (Obj K) :=
  Obj.new p.basis (p.coeff.map (fun c => c i)) (some p.r) p.m

/-- `multiply_with_constant` with a scalar (polynomials_base.py:349-351). -/
def Obj.smul (c : K) (p : Obj V) : Py (Obj V) :=
  Obj.new p.basis (p.coeff.map (fun a => c • a)) (some p.r) p.m

/-- `multiply_with_constant` with a vector (352-356): `np.outer(coeff, c)`. -/
def Obj.outer {n : Nat} (p : Obj K) (c : Fin n → K) : Py (Obj (Fin n → K)) :=
  Obj.new p.basis (p.coeff.map (fun a => a • c)) (some p.r) p.m

/-- `__truediv__` (359-369) for a non-zero divisor (here `x / 0 = 0`; the theorems assume a non-zero divisor). Division by zero raises an exception,
see `Verif.Model.NonFinite`. -/
def Obj.divConst (p : Obj V) (s : K) : Py (Obj V) :=
  Obj.new p.basis (p.coeff.map (fun a => s⁻¹ • a)) (some p.r) p.m

/-! ## Monomial basis -/

/-- `zero_polynomial` (polynomials_monomial_basis.py:659-675), and the same function for the other bases
(polynomials_unit_simplex_bernstein_basis.py:978-994, polynomials_unit_simplex_lagrange_basis.py:920-936). -/
def zeroPolynomial (basis : Basis) (V : Type) [AddCommGroup V] (r m : Nat) : Py (Obj V) :=
  Obj.new basis (zeros V (getDimension r m)) (some r) m

/-- `unit_polynomial` of the monomial basis (polynomials_monomial_basis.py:678-696), scalar case: `coeff[0] = 1`. -/
def unitPolynomialMonomial (K : Type) [Field K] (r m : Nat) : Py (Obj K) := do
  let coeff ← setE (zeros K (getDimension r m)) 0 1
  Obj.new .monomial coeff (some r) m

/-- `unit_polynomial` of the Bernstein and Lagrange bases (polynomials_unit_simplex_bernstein_basis.py:997-1013,
polynomials_unit_simplex_lagrange_basis.py:939-955), scalar case: all coefficients are one. -/
def unitPolynomialOnes (basis : Basis) (K : Type) [Field K] (r m : Nat) : Py (Obj K) :=
  Obj.new basis (List.replicate (getDimension r m) 1) (some r) m

/-- `np.convolve(a, b)`: the discrete convolution, entry `k` is the sum of `a[i] * b[k - i]`. -/
def convolve (a b : List K) : List K :=
  (List.range (a.length + b.length - 1)).map (fun k =>
    ((List.range a.length).map (fun i => if i ≤ k then a.getD i 0 * b.getD (k - i) 0 else 0)).sum)

/-- The inner loop of `Polynomial.__mul__` (polynomials_monomial_basis.py:134-139) over the pairs `(nus[j], other.coeff[j])`. -/
def mulInner (r : Nat) (mu : List Nat) (a : K) : List (List Nat × K) → List K → Py (List K)
  | [], coeff => .ok coeff
  | (nu, b) :: rest, coeff =>
    if b = 0 then mulInner r mu a rest coeff
    else do
      let s ← MI.add mu (nu.map Int.ofNat)
      let k ← MI.getIndex s r
      let old ← getE coeff k
      let coeff' ← setE coeff k (old + a * b)
      mulInner r mu a rest coeff'

/-- The outer loop of `Polynomial.__mul__` (130-139) over the pairs `(mus[i], self.coeff[i])`. -/
def mulOuter (r : Nat) (q : List (List Nat × K)) : List (List Nat × K) → List K → Py (List K)
  | [], coeff => .ok coeff
  | (mu, a) :: rest, coeff =>
    if a = 0 then mulOuter r q rest coeff
    else do
      let coeff' ← mulInner r mu a q coeff
      mulOuter r q rest coeff'

/-- `Polynomial.__mul__` (93-140) for two polynomials. -/
def mulMonomial (p q : Obj K) : Py (Obj K) := do
  pyAssert (decide (p.m = q.m))
  pyAssert (decide (q.basis = .monomial))
  if p.m = 1 then
    Obj.new .monomial (convolve p.coeff q.coeff) (some (p.r + q.r)) p.m
  else
    let r := p.r + q.r
    let mus := MI.generateAll p.m p.r
    let nus := MI.generateAll p.m q.r
    let coeff ← mulOuter r (nus.zip q.coeff) (mus.zip p.coeff) (zeros K (getDimension r p.m))
    Obj.new .monomial coeff (some r) p.m

/-- `Polynomial.partial_derivative` (172-199) for `i ≥ 0`. -/
def partialDerivativeMonomial (p : Obj V) (i : Nat) : Py (Obj V) := do
  pyAssert (decide (i < p.m))
  if p.r = 0 then zeroPolynomial .monomial V 0 p.m
  else
    let dim := getDimension (p.r - 1) p.m
    let coeff ← fillLoop (fun tau => do
        let e ← MI.unit p.m i
        let tp1 ← MI.add tau (e.map Int.ofNat)
        let ti ← getE tau i
        let k ← MI.getIndex tp1 p.r
        let c ← getE p.coeff k
        return (ti + 1) • c)
      (MI.generateAll p.m (p.r - 1)) 0 (zeros V dim)
    Obj.new .monomial coeff (some (p.r - 1)) p.m

/-- The loop of `Polynomial.degree_elevate` (228-237). The arguments are the remaining multi-indices, `i`, `coeff`,
`curr_idx` and `curr_mi`. -/
def elevateLoop (p : Obj V) : List (List Nat) → Nat → List V → Nat → List Nat → Py (List V)
  | [], _, coeff, _, _ => .ok coeff
  | mi :: rest, i, coeff, currIdx, currMi => do
    let same ← MI.eq mi currMi
    if same then
      let c ← getE p.coeff currIdx
      let coeff' ← setE coeff i c
      if currIdx + 1 < p.coeff.length then
        let next ← MI.generate p.m p.r (currIdx + 1)
        elevateLoop p rest (i + 1) coeff' (currIdx + 1) next
      else
        elevateLoop p rest (i + 1) coeff' (currIdx + 1) currMi
    else
      elevateLoop p rest (i + 1) coeff currIdx currMi

/-- `Polynomial.degree_elevate` (201-238). -/
def degreeElevateMonomial (p : Obj V) (s : Nat) : Py (Obj V) := do
  pyAssert (decide (s ≥ p.r))
  if s = p.r then Obj.new .monomial p.coeff (some p.r) p.m
  else
    let mi ← MI.generate p.m p.r 0
    let coeff ← elevateLoop p (MI.generateAll p.m s) 0 (zeros V (getDimension s p.m)) 0 mi
    Obj.new .monomial coeff (some s) p.m

/-- `monomial_basis_fn` (279-314) for a multi-index `nu` (an integer argument is the multi-index of length one). -/
def monomialBasisFn (K : Type) [Field K] (nu : List Nat) : Py (Obj K) := do
  let r := MI.norm nu
  let i ← MI.getIndex nu r
  let coeff ← setE (zeros K (getDimension r nu.length)) i 1
  Obj.new .monomial coeff (some r) nu.length

/-- `monomial_basis` (317-329). -/
def monomialBasis (K : Type) [Field K] (r n : Nat) : Py (List (Obj K)) :=
  (MI.generateAll n r).mapM (monomialBasisFn K)

end Verif.Poly
