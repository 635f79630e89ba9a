import Verif.Model.PolynomialLagrange
/-!
# Operations shared by the polynomial classes: `PolynomialBase.__add__`, `__sub__`, `__pow__`, conversion of bases
-/

namespace Verif.Poly
open Verif

variable {K V : Type} [Field K] [DecidableEq K] [AddCommGroup V] [Module K V]

/-- Method dispatch of `degree_elevate`. -/
noncomputable def Obj.degreeElevate (K : Type) {V : Type} [Field K] [DecidableEq K] [AddCommGroup V] [Module K V]
    (p : Obj V) (s : Nat) : Py (Obj V) :=
  match p.basis with
  | .monomial => degreeElevateMonomial p s
  | .bernstein => degreeElevateBernstein K p s
  | .lagrange => degreeElevateLagrange K p s

/-- The branch of `__add__` / `__sub__` for equal degrees (polynomials_base.py:290-291, 312-313), with the assertions of the
(recursive) call. A recursive call with different degrees does not occur, because `degree_elevate` returns the requested
degree; it is reported as an error here. -/
def combineSame (op : V → V → V) (p q : Obj V) : Py (Obj V) := do
  pyAssert (decide (p.m = q.m))
  pyAssert (decide (p.basis = q.basis))
  if p.r = q.r then Obj.new p.basis (List.zipWith op p.coeff q.coeff) (some p.r) p.m
  else .error .runtime

/-- `__add__` (275-295) with `op = +`, `__sub__` (297-317) with `op = -`. -/
noncomputable def combine (K : Type) {V : Type} [Field K] [DecidableEq K] [AddCommGroup V] [Module K V]
    (op : V → V → V) (p q : Obj V) : Py (Obj V) := do
  pyAssert (decide (p.m = q.m))
  pyAssert (decide (p.basis = q.basis))
  if p.r = q.r then combineSame op p q
  else if p.r > q.r then
    let q' ← q.degreeElevate K p.r
    combineSame op p q'
  else
    let p' ← p.degreeElevate K q.r
    combineSame op p' q

/-- `PolynomialBase.__add__` (275-295). -/
noncomputable def Obj.add (K : Type) {V : Type} [Field K] [DecidableEq K] [AddCommGroup V] [Module K V]
    (p q : Obj V) : Py (Obj V) := combine K (· + ·) p q

/-- `PolynomialBase.__sub__` (297-317). -/
noncomputable def Obj.sub (K : Type) {V : Type} [Field K] [DecidableEq K] [AddCommGroup V] [Module K V]
    (p q : Obj V) : Py (Obj V) := combine K (· - ·) p q

/-- Method dispatch of `__mul__` for two polynomials. -/
noncomputable def Obj.mul (p q : Obj K) : Py (Obj K) :=
  match p.basis with
  | .monomial => mulMonomial p q
  | .bernstein => mulBernstein p q
  | .lagrange => mulLagrange p q

/-- `unit_polynomial(0, m)` of the class of the polynomial. -/
def unitOf (basis : Basis) (K : Type) [Field K] (r m : Nat) : Py (Obj K) :=
  match basis with
  | .monomial => unitPolynomialMonomial K r m
  | .bernstein => unitPolynomialOnes .bernstein K r m
  | .lagrange => unitPolynomialOnes .lagrange K r m

/-- `__pow__` with an integer exponent (polynomials_monomial_basis.py:156-163,
polynomials_unit_simplex_bernstein_basis.py:186-193, polynomials_unit_simplex_lagrange_basis.py:322-329). -/
noncomputable def Obj.powNat (p : Obj K) : Nat → Py (Obj K)
  | 0 => unitOf p.basis K 0 p.m
  | 1 => Obj.new p.basis p.coeff (some p.r) p.m
  | k + 2 => do
    let q ← p.powNat (k + 1)
    p.mul q

/-- The loop of `Polynomial.__pow__` with a multi-index (polynomials_monomial_basis.py:168-169): `p *= self[i]**exp[i]`. -/
noncomputable def powMultiLoop {n : Nat} (p : Obj (Fin n → K)) : List (Fin n × Nat) → Obj K → Py (Obj K)
  | [], acc => .ok acc
  | (i, e) :: rest, acc => do
    let pi ← p.component i
    let pw ← pi.powNat e
    let acc' ← acc.mul pw
    powMultiLoop p rest acc'

/-- `Polynomial.__pow__` with a multi-index (164-170), for a vector valued polynomial. The `assert [...]` in line 166 always
holds (a non-empty list is true) — and raises for an empty exponent, which needs target dimension 0. -/
noncomputable def powMultiMonomial {n : Nat} (p : Obj (Fin n → K)) (exp : List Nat) : Py (Obj K) := do
  pyAssert (decide (exp.length = n))
  let one ← monomialBasisFn K (MI.zero p.m)
  powMultiLoop p ((List.finRange n).zip exp) one

/-- `PolynomialBernstein.__pow__` with a multi-index (194-205): the recursion on `|exp|`, as fuel. -/
noncomputable def powMultiBernsteinAux {n : Nat} (p : Obj (Fin n → K)) : Nat → List Nat → Py (Obj K)
  | 0, _ => .error .runtime
  | fuel + 1, exp => do
    pyAssert (decide (exp.length = n))
    if MI.norm exp = 0 then Obj.new .bernstein [(1 : K)] (some 0) p.m
    else
      match ((List.finRange n).zip exp).find? (fun e => e.2 ≠ 0) with
      | none => .error .type
      | some (i, _) => do
        let pi ← Obj.new .bernstein (p.coeff.map (fun c => c i)) (some p.r) p.m
        let e ← MI.unit n (i : Nat)
        let exp' ← MI.sub exp (e.map Int.ofNat)
        let rest ← powMultiBernsteinAux p fuel exp'
        mulBernstein pi rest

/-- `PolynomialBernstein.__pow__` with a multi-index (194-205). -/
noncomputable def powMultiBernstein {n : Nat} (p : Obj (Fin n → K)) (exp : List Nat) : Py (Obj K) :=
  powMultiBernsteinAux p (MI.norm exp + 1) exp

/-- Method dispatch of `__pow__` with a multi-index exponent. -/
noncomputable def Obj.powMulti {n : Nat} (p : Obj (Fin n → K)) (exp : List Nat) : Py (Obj K) :=
  match p.basis with
  | .monomial => powMultiMonomial p exp
  | .bernstein => powMultiBernstein p exp
  | .lagrange => powMultiLagrange p exp

/-- `sum([b * a for (a, b) in zip(coeff, basis)], start)` (polynomials_unit_simplex_bernstein_basis.py:304-306,
polynomials_unit_simplex_lagrange_basis.py:417-418): `b * a` multiplies every coefficient of `b` with `a`
(`multiply_with_constant`). -/
noncomputable def sumScaled (K : Type) {V : Type} [Field K] [DecidableEq K] [AddCommGroup V] [Module K V] :
    List (V × Obj K) → Obj V → Py (Obj V)
  | [], acc => .ok acc
  | (a, b) :: rest, acc => do
    let t ← Obj.new b.basis (b.coeff.map (fun t => t • a)) (some b.r) b.m
    let acc' ← acc.add K t
    sumScaled K rest acc'

/-- `to_monomial_basis` of the three classes (polynomials_monomial_basis.py:240-247,
polynomials_unit_simplex_bernstein_basis.py:297-306, polynomials_unit_simplex_lagrange_basis.py:410-418). The list
comprehension and the summation are interleaved. -/
noncomputable def Obj.toMonomialBasis (K : Type) {V : Type} [Field K] [DecidableEq K] [AddCommGroup V] [Module K V]
    (p : Obj V) : Py (Obj V) :=
  match p.basis with
  | .monomial => .ok p
  | .bernstein => do
    let basis ← bernsteinBasisMonomial K p.r p.m
    let z ← zeroPolynomial .monomial V 0 p.m
    sumScaled K (p.coeff.zip basis) z
  | .lagrange => do
    let basis ← lagrangeBasisMonomial K p.r p.m
    let z ← zeroPolynomial .monomial V 0 p.m
    sumScaled K (p.coeff.zip basis) z

/-- `PolynomialLagrange.partial_derivative` (344-374), `i ≥ 0`. -/
noncomputable def partialDerivativeLagrange (K : Type) {V : Type} [Field K] [DecidableEq K] [AddCommGroup V] [Module K V]
    (p : Obj V) (i : Nat) : Py (Obj V) := do
  pyAssert (decide (i < p.m))
  if p.r = 0 then zeroPolynomial .lagrange V 0 p.m
  else
    let q ← p.toMonomialBasis K
    let dp ← partialDerivativeMonomial q i
    let coeff ← fillLoop (fun (x : List K) => dp.call x)
      (generateLagrangePoints K p.m (p.r - 1)) 0 (zeros V (getDimension (p.r - 1) p.m))
    Obj.new .lagrange coeff (some (p.r - 1)) p.m

/-- Method dispatch of `partial_derivative`. -/
noncomputable def Obj.partialDerivative (K : Type) {V : Type} [Field K] [DecidableEq K] [AddCommGroup V] [Module K V]
    (p : Obj V) (i : Nat) : Py (Obj V) :=
  match p.basis with
  | .monomial => partialDerivativeMonomial p i
  | .bernstein => partialDerivativeBernstein K p i
  | .lagrange => partialDerivativeLagrange K p i

end Verif.Poly
