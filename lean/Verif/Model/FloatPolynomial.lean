import Verif.Model.FloatIntegration
import Verif.Model.PolynomialOps
/-!
# Model of the arithmetic of Bernstein polynomials in floating point arithmetic

The same methods as in `Verif.Model.PolynomialOps` and `Verif.Model.PolynomialBernstein`, for polynomials whose coefficients are numbers. As in
`Verif.Model.FloatIntegration` the result of an arithmetic operation is any number with a relative error of at most `ε`. A result is an object whose
coefficients are sets: for each coefficient the numbers that can be computed. Simplifications: if an intermediate result is used several times
(`c = 1 / binom(s, k)`), each use may be a different one of the possible numbers, so the sets contain at least what the code can compute; adding to the
initial value 0 may be rounded as well.
-/

namespace Verif.FloatPoly
open Verif Verif.Poly Verif.PyExpr Verif.FloatIntegration

/-- The floating point numbers that can stand for the number `v` (the results of `binom` in polynomials_unit_simplex_bernstein_basis.py:150, 278-280, 292). -/
def round (ε v : ℝ) : Set ℝ := {c | Rounded ε v c}

/-- `a + b` in floating point arithmetic (polynomials_base.py:291). -/
def add (ε : ℝ) (A B : Set ℝ) : Set ℝ := {c | ∃ a ∈ A, ∃ b ∈ B, Rounded ε (a + b) c}

/-- `a - b` in floating point arithmetic (polynomials_base.py:313, polynomials_unit_simplex_bernstein_basis.py:230, 242). -/
def sub (ε : ℝ) (A B : Set ℝ) : Set ℝ := {c | ∃ a ∈ A, ∃ b ∈ B, Rounded ε (a - b) c}

/-- `a * b` in floating point arithmetic (polynomials_unit_simplex_bernstein_basis.py:150, 164-167, 231, 244, 280, 292-293, polynomials_base.py:351). -/
def mul (ε : ℝ) (A B : Set ℝ) : Set ℝ := {c | ∃ a ∈ A, ∃ b ∈ B, Rounded ε (a * b) c}

/-- `a / b` in floating point arithmetic (polynomials_unit_simplex_bernstein_basis.py:150, 166, 278, 285). -/
def div (ε : ℝ) (A B : Set ℝ) : Set ℝ := {c | ∃ a ∈ A, ∃ b ∈ B, Rounded ε (a / b) c}

/-- SciPy's `binom(n, k)` (polynomials_unit_simplex_bernstein_basis.py:28): contract of an external function, the relative error is at most `ε`. -/
def binom (ε : ℝ) (n k : Nat) : Set ℝ := round ε (n.choose k : ℝ)

/-- `multinom_general` (algebra/multiindex.py:328-344). -/
def multinomGeneral (ε : ℝ) (r : Int) (a : List Nat) : Py (Set ℝ) := do
  let e ← MI.generalToExactNorm a r
  return multinom ε e

/-- `c = 0; for item in items: c += f(item)`; an item skipped by `continue` contributes `none` (polynomials_unit_simplex_bernstein_basis.py:148-151, 156-168, 279-280, 286-293). -/
def sumLoop {ι : Type} (ε : ℝ) (f : ι → Py (Option (Set ℝ))) (items : List ι) : Py (Set ℝ) := do
  let ts ← items.mapM f
  return sumTerms ε (ts.filterMap id) 0

/-- The coefficients of an array as sets with one element (`self.coeff` in polynomials_unit_simplex_bernstein_basis.py:270 and polynomials_base.py:290-295). -/
def exactly (p : Obj ℝ) : Obj (Set ℝ) := { basis := p.basis, coeff := p.coeff.map (fun c => {c}), r := p.r, m := p.m }

/-- `multiply_with_constant` with a scalar (polynomials_base.py:349-351). -/
def smul (ε c : ℝ) (p : Obj ℝ) : Py (Obj (Set ℝ)) :=
  Obj.new p.basis (p.coeff.map (fun a => mul ε {a} {c})) (some p.r) p.m

/-- `PolynomialBernstein.__mul__` (polynomials_unit_simplex_bernstein_basis.py:119-170) for two polynomials. -/
def mulBernstein (ε : ℝ) (p q : Obj ℝ) : Py (Obj (Set ℝ)) := do
  pyAssert (decide (p.m = q.m))
  pyAssert (decide (q.basis = .bernstein))
  let m := p.m
  let r := p.r
  let s := q.r
  let dim := getDimension (r + s) m
  if m = 1 then
    let coeff ← fillLoop (fun k =>
        sumLoop ε (fun i => do
          let a ← getE p.coeff i
          let b ← getE q.coeff (k - i)
          return some (mul ε (mul ε (div ε (mul ε (binom ε r i) (binom ε s (k - i))) (binom ε (r + s) k)) {a}) {b}))
          (pyRange (max 0 (k - s)) (min r k + 1)))
      (List.range dim) 0 (List.replicate dim {0})
    Obj.new .bernstein coeff (some (r + s)) m
  else
    let coeff ← fillLoop (fun tau =>
        sumLoop ε (fun nu => do
          let d ← MI.sub tau (nu.map Int.ofNat)
          if MI.norm d > s then return none
          else if MI.norm nu > r then return none
          else
            let i ← MI.getIndex nu r
            let j ← MI.getIndex d s
            let b1 ← multinomGeneral ε r nu
            let b2 ← multinomGeneral ε s d
            let b3 ← multinomGeneral ε ((r + s : Nat) : Int) tau
            let a ← getE p.coeff i
            let b ← getE q.coeff j
            return some (mul ε (mul ε (div ε (mul ε b1 b2) b3) {a}) {b}))
          (MI.generateAllMultiCap tau))
      (MI.generateAll m (r + s)) 0 (List.replicate dim {0})
    Obj.new .bernstein coeff (some (r + s)) m

/-- `PolynomialBernstein.degree_elevate` (polynomials_unit_simplex_bernstein_basis.py:247-295). -/
def degreeElevateBernstein (ε : ℝ) (p : Obj ℝ) (s : Nat) : Py (Obj (Set ℝ)) := do
  pyAssert (decide (s ≥ p.r))
  let r := p.r
  let m := p.m
  if s = r then Obj.new .bernstein (exactly p).coeff (some r) m
  else
    let dim := getDimension s m
    if m = 1 then
      let coeff ← fillLoop (fun k =>
          sumLoop ε (fun i => do
            let a ← getE p.coeff i
            return some (mul ε (mul ε (mul ε (binom ε r i) (binom ε (s - r) (k - i))) (div ε {1} (binom ε s k))) {a}))
            (pyRange (max 0 (k - (s - r))) (min r k + 1)))
        (List.range dim) 0 (List.replicate dim {0})
      Obj.new .bernstein coeff (some s) m
    else
      let coeff ← fillLoop (fun mu => do
          let c ← multinomGeneral ε s mu
          sumLoop ε (fun sigma => do
            if (MI.norm sigma : Int) < (MI.norm mu : Int) - ((s : Int) - (r : Int)) then return none
            else if MI.norm sigma > r then return none
            else
              let idx ← MI.getIndex sigma r
              let b1 ← multinomGeneral ε r sigma
              let d ← MI.sub mu (sigma.map Int.ofNat)
              let a ← getE p.coeff idx
              return some (mul ε (mul ε (mul ε (mul ε b1 (binom ε (s - r) (MI.norm d))) (multinom ε d)) (div ε {1} c)) {a}))
            (MI.generateAllMultiCap mu))
        (MI.generateAll m s) 0 (List.replicate dim {0})
      Obj.new .bernstein coeff (some s) m

/-- The branch of `__add__` / `__sub__` for equal degrees (polynomials_base.py:290-291, 312-313), with the assertions of the call. -/
def combineSame (op : Set ℝ → Set ℝ → Set ℝ) (p q : Obj (Set ℝ)) : Py (Obj (Set ℝ)) := do
  pyAssert (decide (p.m = q.m))
  pyAssert (decide (p.basis = q.basis))
  if p.r = q.r then Obj.new p.basis (List.zipWith op p.coeff q.coeff) (some p.r) p.m
  else .error .runtime

/-- `__add__` (polynomials_base.py:275-295) with `op = add ε`, `__sub__` (297-317) with `op = sub ε`, for Bernstein polynomials. -/
def combine (ε : ℝ) (op : Set ℝ → Set ℝ → Set ℝ) (p q : Obj ℝ) : Py (Obj (Set ℝ)) := do
  pyAssert (decide (p.m = q.m))
  pyAssert (decide (p.basis = q.basis))
  if p.r = q.r then combineSame op (exactly p) (exactly q)
  else if p.r > q.r then
    let q' ← degreeElevateBernstein ε q p.r
    combineSame op (exactly p) q'
  else
    let p' ← degreeElevateBernstein ε p q.r
    combineSame op p' (exactly q)

/-- `PolynomialBernstein.partial_derivative` (polynomials_unit_simplex_bernstein_basis.py:207-245), `i ≥ 0`. -/
def partialDerivativeBernstein (ε : ℝ) (p : Obj ℝ) (i : Nat) : Py (Obj (Set ℝ)) := do
  pyAssert (decide (i < p.m))
  if p.r = 0 then Obj.new .bernstein (List.replicate (getDimension 0 p.m) {0}) (some 0) p.m
  else if p.m = 1 then
    let coeff ← fillLoop (fun k => do
        let a ← getE p.coeff (k + 1)
        let b ← getE p.coeff k
        return sub ε {a} {b})
      (List.range p.r) 0 (List.replicate p.r {0})
    Obj.new .bernstein (coeff.map (fun c => mul ε c {(p.r : ℝ)})) (some (p.r - 1)) p.m
  else
    let coeff ← fillLoop (fun mu => do
        let e ← MI.unit p.m i
        let up ← MI.add mu (e.map Int.ofNat)
        let k1 ← MI.getIndex up p.r
        let k2 ← MI.getIndex mu p.r
        let a ← getE p.coeff k1
        let b ← getE p.coeff k2
        return sub ε {a} {b})
      (MI.generateAll p.m (p.r - 1)) 0 (List.replicate (getDimension (p.r - 1) p.m) {0})
    Obj.new .bernstein (coeff.map (fun c => mul ε c {(p.r : ℝ)})) (some (p.r - 1)) p.m

end Verif.FloatPoly
