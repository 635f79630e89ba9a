import Verif.Model.Polynomial
/-!
# Model of `polynomial/polynomials_unit_simplex_bernstein_basis.py`: class `PolynomialBernstein` and basis functions

SciPy's `binom` is modelled by the exact binomial coefficient. Rational numbers produced by `multiindex.multinom*` are
cast to the coefficient field.
-/

namespace Verif.Poly
open Verif

variable {K V : Type} [Field K] [AddCommGroup V] [Module K V]

/-- `range(lo, hi)`. -/
def pyRange (lo hi : Nat) : List Nat := List.range' lo (hi - lo)

/-- `c = 0; for item in items: c += f(item)`; an item skipped by `continue` contributes `none`. -/
def sumLoop {ι : Type} (f : ι → Py (Option V)) : List ι → V → Py V
  | [], c => .ok c
  | item :: rest, c => do
    let v ← f item
    match v with
    | none => sumLoop f rest c
    | some v => sumLoop f rest (c + v)

/-- The array `_a` computed by `PolynomialBernstein.__init__` (77-86): coefficients times multinomial coefficients. The
uninitialised memory of `np.empty` is represented by zeros; every entry is overwritten. -/
def bernsteinA (K : Type) {V : Type} [Field K] [AddCommGroup V] [Module K V] (p : Obj V) : Py (List V) :=
  if p.m = 1 then
    fillLoop (fun i => do
      let c ← getE p.coeff i
      return ((p.r.choose i : Nat) : K) • c) (List.range (p.r + 1)) 0 (zeros V p.coeff.length)
  else
    fillLoop (fun (e : List Nat × Nat) => do
      let c ← getE p.coeff e.2
      let b ← MI.multinomGeneral p.r e.1
      return (b : K) • c) (MI.generateAll p.m p.r).zipIdx 0 (zeros V p.coeff.length)

/-- `PolynomialBernstein.__mul__` (119-170) for two polynomials. -/
def mulBernstein (p q : Obj K) : Py (Obj K) := do
  pyAssert (decide (p.m = q.m))
  pyAssert (decide (q.basis = .bernstein))
  let m := p.m
  let r := p.r
  let s := q.r
  let dim := getDimension (r + s) m
  if m = 1 then
    let coeff ← fillLoop (fun k =>
        sumLoop (fun i => do
          let a ← getE p.coeff i
          let b ← getE q.coeff (k - i)
          return some (((r.choose i : Nat) : K) * ((s.choose (k - i) : Nat) : K) / (((r + s).choose k : Nat) : K) * a * b))
          (pyRange (max 0 (k - s)) (min r k + 1)) 0)
      (List.range dim) 0 (zeros K dim)
    Obj.new .bernstein coeff (some (r + s)) m
  else
    let coeff ← fillLoop (fun tau =>
        sumLoop (fun nu => do
          let d ← MI.sub tau (nu.map Int.ofNat)
          if MI.norm d > s then return none
          else if MI.norm nu > r then return none
          else
            let i ← MI.getIndex nu r
            let j ← MI.getIndex d s
            let b1 ← MI.multinomGeneral r nu
            let b2 ← MI.multinomGeneral s d
            let b3 ← MI.multinomGeneral ((r + s : Nat) : Int) tau
            let a ← getE p.coeff i
            let b ← getE q.coeff j
            return some ((b1 : K) * (b2 : K) / (b3 : K) * a * b))
          (MI.generateAllMultiCap tau) 0)
      (MI.generateAll m (r + s)) 0 (zeros K dim)
    Obj.new .bernstein coeff (some (r + s)) m

/-- `PolynomialBernstein.partial_derivative` (207-245), `i ≥ 0`. -/
def partialDerivativeBernstein (K : Type) {V : Type} [Field K] [AddCommGroup V] [Module K V] (p : Obj V) (i : Nat) :
    Py (Obj V) := do
  pyAssert (decide (i < p.m))
  if p.r = 0 then zeroPolynomial .bernstein V 0 p.m
  else if p.m = 1 then
    let coeff ← fillLoop (fun k => do
        let a ← getE p.coeff (k + 1)
        let b ← getE p.coeff k
        return a - b)
      (List.range p.r) 0 (zeros V p.r)
    Obj.new .bernstein (coeff.map (fun c => (p.r : K) • c)) (some (p.r - 1)) p.m
  else
    let coeff ← fillLoop (fun mu => do
        let e ← MI.unit p.m i
        let up ← MI.add mu (e.map Int.ofNat)
        let k1 ← MI.getIndex up p.r
        let k2 ← MI.getIndex mu p.r
        let a ← getE p.coeff k1
        let b ← getE p.coeff k2
        return a - b)
      (MI.generateAll p.m (p.r - 1)) 0 (zeros V (getDimension (p.r - 1) p.m))
    Obj.new .bernstein (coeff.map (fun c => (p.r : K) • c)) (some (p.r - 1)) p.m

/-- `PolynomialBernstein.degree_elevate` (247-295). The in-place accumulation `coeff[k] += …` on a zero entry is written as
a local sum that is stored afterwards. -/
def degreeElevateBernstein (K : Type) {V : Type} [Field K] [AddCommGroup V] [Module K V] (p : Obj V) (s : Nat) :
    Py (Obj V) := do
  pyAssert (decide (s ≥ p.r))
  let r := p.r
  let m := p.m
  if s = r then Obj.new .bernstein p.coeff (some r) m
  else
    let dim := getDimension s m
    if m = 1 then
      let coeff ← fillLoop (fun k =>
          sumLoop (fun i => do
            let a ← getE p.coeff i
            return some ((((r.choose i : Nat) : K) * (((s - r).choose (k - i) : Nat) : K) *
              (1 / ((s.choose k : Nat) : K))) • a))
            (pyRange (max 0 (k - (s - r))) (min r k + 1)) 0)
        (List.range dim) 0 (zeros V dim)
      Obj.new .bernstein coeff (some s) m
    else
      let coeff ← fillLoop (fun mu => do
          let c ← MI.multinomGeneral s mu
          sumLoop (fun sigma => do
            if (MI.norm sigma : Int) < (MI.norm mu : Int) - ((s : Int) - (r : Int)) then return none
            else if MI.norm sigma > r then return none
            else
              let idx ← MI.getIndex sigma r
              let b1 ← MI.multinomGeneral r sigma
              let d ← MI.sub mu (sigma.map Int.ofNat)
              let a ← getE p.coeff idx
              return some (((b1 : K) * (((s - r).choose (MI.norm d) : Nat) : K) * (MI.multinom d : K) * (1 / (c : K))) • a))
            (MI.generateAllMultiCap mu) 0)
        (MI.generateAll m s) 0 (zeros V dim)
      Obj.new .bernstein coeff (some s) m

/-- `bernstein_basis_fn` (368-404) for a multi-index `nu`. -/
def bernsteinBasisFn (K : Type) [Field K] (nu : List Nat) (r : Nat) : Py (Obj K) := do
  let i ← MI.getIndex nu r
  let coeff ← setE (zeros K (getDimension r nu.length)) i 1
  Obj.new .bernstein coeff (some r) nu.length

/-- `bernstein_basis` (407-419). -/
def bernsteinBasis (K : Type) [Field K] (r n : Nat) : Py (List (Obj K)) :=
  (MI.generateAll n r).mapM (fun mi => bernsteinBasisFn K mi r)

/-- The loop of `bernstein_basis_fn_monomial` (545-552). The coefficient array has an integer type, so the quotient is
truncated; `c` is written as a quotient of natural numbers with a sign. -/
def bernsteinMonomialLoop (nu : List Nat) (r : Nat) : List (List Nat) → List Int → Py (List Int)
  | [], coeff => .ok coeff
  | mu :: rest, coeff => do
    let c0 := r.factorial / MI.factorial nu
    let c : Int := ((c0 / (MI.factorial mu * (r - MI.norm nu - MI.norm mu).factorial) : Nat) : Int)
    let c := if MI.norm mu % 2 = 1 then -c else c
    let s ← MI.add mu (nu.map Int.ofNat)
    let j ← MI.getIndex s r
    let coeff' ← setE coeff j c
    bernsteinMonomialLoop nu r rest coeff'

/-- `bernstein_basis_fn_monomial` (501-553) for a multi-index `nu` (for an integer `nu` the code returns a
`PolynomialBernstein` instead, line 535; see `bernsteinBasisFnMonomialInt`). A negative `s` raises AssertionError in
`generate_all`. -/
def bernsteinBasisFnMonomial (K : Type) [Field K] (nu : List Nat) (r : Nat) : Py (Obj K) := do
  let s : Int := (r : Int) - (MI.norm nu : Int)
  let mus ← MI.generateAll? nu.length s
  let coeff ← bernsteinMonomialLoop nu r mus (List.replicate (getDimension r nu.length) 0)
  Obj.new .monomial (coeff.map (fun c : Int => (c : K))) (some r) nu.length

/-- `bernstein_basis_fn_monomial` (501-535) for an integer `nu`. -/
def bernsteinBasisFnMonomialInt (K : Type) [Field K] (nu : Nat) (r : Nat) : Py (Obj K) := bernsteinBasisFn K [nu] r

/-- `bernstein_basis_monomial` (556-572). -/
def bernsteinBasisMonomial (K : Type) [Field K] (r n : Nat) : Py (List (Obj K)) :=
  (MI.generateAll n r).mapM (fun mi => bernsteinBasisFnMonomial K mi r)

/-- `degree_elevated_bernstein_basis_fn` (803-837). -/
def degreeElevatedBernsteinBasisFn (K : Type) [Field K] (nu : List Nat) (r s : Nat) : Py (Obj K) := do
  pyAssert (decide (s > r))
  let m := nu.length
  let dim := getDimension s m
  if m = 1 then
    let i ← getE nu 0
    let coeff ← (pyRange i (i + s - r + 1)).foldlM (fun coeff k =>
      setE coeff k (((r.choose i : Nat) : K) * (((s - r).choose (k - i) : Nat) : K) / ((s.choose k : Nat) : K)))
      (zeros K dim)
    Obj.new .bernstein coeff (some s) m
  else
    let c ← MI.multinomGeneral r nu
    let coeff ← (MI.generateAll m (s - r)).foldlM (fun coeff mu => do
        let t ← MI.add nu (mu.map Int.ofNat)
        let idx ← MI.getIndex t s
        let b ← MI.multinomGeneral s t
        setE coeff idx ((c : K) * (((s - r).choose (MI.norm mu) : Nat) : K) * (MI.multinom mu : K) / (b : K)))
      (zeros K dim)
    Obj.new .bernstein coeff (some s) m

/-- `barycentric_polynomial_general` (1016-1041), `m ≠ 1` branch and `m = 1` branch. The point is the list of its
coordinates; `1 - norm(x)` is one minus their sum. -/
def barycentricPolynomialGeneral (r : Nat) (a : List V) (x : List K) : Py V :=
  if x.length = 1 then do
    let x0 ← getE x 0
    sumLoop (fun (e : V × Nat) => return some ((x0 ^ e.2 * (1 - x0) ^ (r - e.2)) • e.1)) a.zipIdx 0
  else
    sumLoop (fun (e : List Nat × Nat) => do
      let c ← getE a e.2
      let w ← MI.power x e.1
      return some ((w * (1 - x.sum) ^ (r - MI.norm e.1)) • c)) (MI.generateAll x.length r).zipIdx 0

end Verif.Poly
