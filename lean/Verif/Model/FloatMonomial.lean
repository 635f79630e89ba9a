import Verif.Model.FloatPolynomial
/-!
# Model of the arithmetic of polynomials in the monomial basis in floating point arithmetic

The same methods as in `Verif.Model.Polynomial`, for polynomials whose coefficients are numbers, with the conventions of `Verif.Model.FloatPolynomial`:
a coefficient of a result is the set of the numbers that can be computed. Comparing a coefficient with 0 and copying it involve no rounding.
-/

namespace Verif.FloatPoly
open Verif Verif.Poly Verif.PyExpr Verif.FloatIntegration

/-- `np.convolve(a, b)` (polynomials_monomial_basis.py:121): contract of an external function. Each entry is computed from at most `min(len(a), len(b))`
products, in any order, so its error is at most that of a sum of that many rounded products. -/
noncomputable def convolve (ε : ℝ) (a b : List ℝ) : List (Set ℝ) :=
  List.zipWith (fun v w => {c | |c - v| ≤ ((1 + ε) ^ min a.length b.length - 1) * w}) (Poly.convolve a b)
    (Poly.convolve (a.map (fun t => |t|)) (b.map (fun t => |t|)))

/-- The inner loop of `Polynomial.__mul__` (polynomials_monomial_basis.py:134-139) over the pairs `(nus[j], other.coeff[j])`. -/
noncomputable def mulInner (ε : ℝ) (r : Nat) (mu : List Nat) (a : ℝ) : List (List Nat × ℝ) → List (Set ℝ) → Py (List (Set ℝ))
  | [], coeff => .ok coeff
  | (nu, b) :: rest, coeff =>
    if b = 0 then mulInner ε r mu a rest coeff
    else do
      let s ← MI.add mu (nu.map Int.ofNat)
      let k ← MI.getIndex s r
      let old ← getE coeff k
      let coeff' ← setE coeff k (add ε old (mul ε {a} {b}))
      mulInner ε r mu a rest coeff'

/-- The outer loop of `Polynomial.__mul__` (polynomials_monomial_basis.py:130-139) over the pairs `(mus[i], self.coeff[i])`. -/
noncomputable def mulOuter (ε : ℝ) (r : Nat) (q : List (List Nat × ℝ)) : List (List Nat × ℝ) → List (Set ℝ) → Py (List (Set ℝ))
  | [], coeff => .ok coeff
  | (mu, a) :: rest, coeff =>
    if a = 0 then mulOuter ε r q rest coeff
    else do
      let coeff' ← mulInner ε r mu a q coeff
      mulOuter ε r q rest coeff'

/-- `Polynomial.__mul__` (polynomials_monomial_basis.py:93-140) for two polynomials. -/
noncomputable def mulMonomial (ε : ℝ) (p q : Obj ℝ) : Py (Obj (Set ℝ)) := do
  pyAssert (decide (p.m = q.m))
  pyAssert (decide (q.basis = .monomial))
  if p.m = 1 then
    Obj.new .monomial (convolve ε p.coeff q.coeff) (some (p.r + q.r)) p.m
  else
    let r := p.r + q.r
    let mus := MI.generateAll p.m p.r
    let nus := MI.generateAll p.m q.r
    let coeff ← mulOuter ε r (nus.zip q.coeff) (mus.zip p.coeff) (List.replicate (getDimension r p.m) {0})
    Obj.new .monomial coeff (some r) p.m

/-- `Polynomial.partial_derivative` (polynomials_monomial_basis.py:172-199) for `i ≥ 0`. -/
def partialDerivativeMonomial (ε : ℝ) (p : Obj ℝ) (i : Nat) : Py (Obj (Set ℝ)) := do
  pyAssert (decide (i < p.m))
  if p.r = 0 then Obj.new .monomial (List.replicate (getDimension 0 p.m) {0}) (some 0) p.m
  else
    let dim := getDimension (p.r - 1) p.m
    let coeff ← fillLoop (fun tau => do
        let e ← MI.unit p.m i
        let tp1 ← MI.add tau (e.map Int.ofNat)
        let ti ← getE tau i
        let k ← MI.getIndex tp1 p.r
        let c ← getE p.coeff k
        return mul ε {((ti + 1 : Nat) : ℝ)} {c})
      (MI.generateAll p.m (p.r - 1)) 0 (List.replicate dim {0})
    Obj.new .monomial coeff (some (p.r - 1)) p.m

/-- `__add__` (polynomials_base.py:275-295) with `op = add ε`, `__sub__` (297-317) with `op = sub ε`, for polynomials in the monomial basis. The degree
elevation (polynomials_monomial_basis.py:201-238) only copies coefficients, so it is the one of `Verif.Model.Polynomial`. -/
def combineMonomial (op : Set ℝ → Set ℝ → Set ℝ) (p q : Obj ℝ) : Py (Obj (Set ℝ)) := do
  pyAssert (decide (p.m = q.m))
  pyAssert (decide (p.basis = q.basis))
  if p.r = q.r then combineSame op (exactly p) (exactly q)
  else if p.r > q.r then
    let q' ← degreeElevateMonomial q p.r
    combineSame op (exactly p) (exactly q')
  else
    let p' ← degreeElevateMonomial p q.r
    combineSame op (exactly p') (exactly q)

end Verif.FloatPoly
