import Verif.Model.PolynomialOps
import Verif.Model.Simplex
/-!
# Model of polynomials on an arbitrary simplex

`polynomials_on_simplices/polynomial/polynomials_simplex_base.py` (SB below),
`polynomials_on_simplices/polynomial/polynomials_simplex_bernstein_basis.py` (SBB below) and
`polynomials_on_simplices/polynomial/polynomials_simplex_lagrange_basis.py` (SLB below).

The simplices have full dimension (`m + 1` vertices in `Kᵐ`). As for the polynomials on the unit simplex, numbers are elements of a field, the
target dimension is part of the type, and scalars are not distinguished from arrays of length one. The identifiers of the bases,
`"Bernstein(" + str(vertices) + ")"` (SBB 35-51, SLB 40-55), are compared as pairs of basis and vertices; the program compares printed
numbers, so it also accepts vertices that differ in digits that are not printed.
-/

namespace Verif.SPoly
open Verif Verif.Poly Verif.Simplex

/-- A `PolynomialBernsteinSimplex` or `PolynomialLagrangeSimplex` object: `_unit_simplex_polynomial` (with the same `coeff`, `r` and `m` as the
object), `vertices`, and the affine map `_a`, `_b`, `_phi_inv` to the unit simplex. -/
structure SObj (K V : Type) (m : Nat) where
  poly : Obj V
  vertices : Vertices K m m
  phi : Affine K m m

variable {K V : Type} [Field K] [DecidableEq K] [AddCommGroup V] [Module K V] {m : Nat}

/-- `__init__` of the two classes (SB 79-96, SBB 62-79, SLB 122-140). -/
noncomputable def SObj.new (basis : Basis) (coeff : List V) (vertices : Vertices K m m) (r : Option Nat) : Py (SObj K V m) := do
  let p ← Obj.new basis coeff r m
  let phi ← affineToUnit vertices
  return ⟨p, vertices, phi⟩

/-- `__call__` (SBB 94-103, SLB 155-164). -/
noncomputable def SObj.call (p : SObj K V m) (x : Fin m → K) : Py V := p.poly.call (List.ofFn (createAffineMap p.phi x))

/-- `__getitem__` of a vector valued polynomial (SB 98-111). -/
noncomputable def SObj.component {n : Nat} (p : SObj K (Fin n → K) m) (i : Fin n) : Py (SObj K K m) :=
  SObj.new p.poly.basis (p.poly.coeff.map (fun c => c i)) p.vertices (some p.poly.r)

/-- `degree_elevate` (SBB 198-220, SLB 275-297). -/
noncomputable def SObj.degreeElevate (p : SObj K V m) (s : Nat) : Py (SObj K V m) := do
  pyAssert (decide (s ≥ p.poly.r))
  if s = p.poly.r then SObj.new p.poly.basis p.poly.coeff p.vertices (some p.poly.r)
  else
    let q ← p.poly.degreeElevate K s
    SObj.new p.poly.basis q.coeff p.vertices (some s)

/-- The branch of `__add__` / `__sub__` for equal degrees (SB 122-129, 144-151) with the assertions of the (recursive) call. A recursive call
with different degrees does not occur, because `degree_elevate` returns the requested degree; it is reported as an error here. -/
noncomputable def combineSame (op : V → V → V) (p q : SObj K V m) : Py (SObj K V m) := do
  pyAssert (decide (p.poly.basis = q.poly.basis ∧ p.vertices = q.vertices))
  if p.poly.r = q.poly.r then SObj.new p.poly.basis (List.zipWith op p.poly.coeff q.poly.coeff) p.vertices (some p.poly.r)
  else .error .runtime

/-- `__add__` (SB 113-133) with `op = +`, `__sub__` (SB 135-155) with `op = -`. -/
noncomputable def combine (op : V → V → V) (p q : SObj K V m) : Py (SObj K V m) := do
  pyAssert (decide (p.poly.basis = q.poly.basis ∧ p.vertices = q.vertices))
  if p.poly.r = q.poly.r then combineSame op p q
  else if p.poly.r > q.poly.r then
    let q' ← q.degreeElevate p.poly.r
    combineSame op p q'
  else
    let p' ← p.degreeElevate q.poly.r
    combineSame op p' q

/-- `__add__` (SB 113-133). -/
noncomputable def SObj.add (p q : SObj K V m) : Py (SObj K V m) := combine (· + ·) p q

/-- `__sub__` (SB 135-155). -/
noncomputable def SObj.sub (p q : SObj K V m) : Py (SObj K V m) := combine (· - ·) p q

/-- `multiply_with_constant` with a scalar (SB 167-169). -/
noncomputable def SObj.smul (c : K) (p : SObj K V m) : Py (SObj K V m) :=
  SObj.new p.poly.basis (p.poly.coeff.map (fun a => c • a)) p.vertices (some p.poly.r)

/-- `multiply_with_constant` with a vector (SB 170-174). -/
noncomputable def SObj.outer {n : Nat} (p : SObj K K m) (c : Fin n → K) : Py (SObj K (Fin n → K) m) :=
  SObj.new p.poly.basis (p.poly.coeff.map (fun a => a • c)) p.vertices (some p.poly.r)

/-- `__truediv__` (SB 177-187) for a non-zero divisor; for division by zero see `Verif.Model.NonFinite`. -/
noncomputable def SObj.divConst (p : SObj K V m) (s : K) : Py (SObj K V m) :=
  SObj.new p.poly.basis (p.poly.coeff.map (fun a => s⁻¹ • a)) p.vertices (some p.poly.r)

/-- `generate_lagrange_point_simplex` (SLB 58-82); the point of the unit simplex has `m` coordinates if `nu` has `m` entries. -/
def lagrangePointSimplex (vertices : Vertices K m m) (r : Nat) (nu : List Nat) : Py (Fin m → K) := do
  let phi ← affineFromUnit vertices
  return createAffineMap phi (fun i => (generateLagrangePoint K m r nu).getD i 0)

/-- `generate_lagrange_points_simplex` (SLB 85-111). -/
def lagrangePointsSimplex (vertices : Vertices K m m) (r : Nat) : Py (List (Fin m → K)) := do
  let phi ← affineFromUnit vertices
  return (generateLagrangePoints K m r).map (fun x => createAffineMap phi (fun i => x.getD i 0))

/-- `PolynomialBernsteinSimplex.__mul__` (SBB 105-126) for two polynomials. -/
noncomputable def mulBernsteinSimplex (p q : SObj K K m) : Py (SObj K K m) := do
  pyAssert (decide (p.poly.basis = q.poly.basis ∧ p.vertices = q.vertices))
  let c ← p.poly.mul q.poly
  SObj.new .bernstein c.coeff p.vertices (some (p.poly.r + q.poly.r))

/-- `PolynomialLagrangeSimplex.__mul__` (SLB 166-191) for two polynomials; `other` may be expressed in another basis or on another
simplex. -/
noncomputable def mulLagrangeSimplex (p q : SObj K K m) : Py (SObj K K m) := do
  let r := p.poly.r + q.poly.r
  let xs ← lagrangePointsSimplex p.vertices r
  let coeff ← fillLoop (fun (x : Fin m → K) => do
      let a ← p.call x
      let b ← q.call x
      return a * b) xs 0 (zeros K (getDimension r m))
  SObj.new .lagrange coeff p.vertices (some r)

/-- Method dispatch of `__mul__` for two polynomials. -/
noncomputable def SObj.mul (p q : SObj K K m) : Py (SObj K K m) :=
  match p.poly.basis with
  | .lagrange => mulLagrangeSimplex p q
  | _ => mulBernsteinSimplex p q

/-- `zero_polynomial_simplex` (SBB 707-729, SLB 734-756). -/
noncomputable def zeroPolynomialSimplex (basis : Basis) (V : Type) [AddCommGroup V] (vertices : Vertices K m m) (r : Nat) : Py (SObj K V m) :=
  SObj.new basis (zeros V (getDimension r m)) vertices (some r)

/-- `unit_polynomial_simplex` (SBB 732-754, SLB 759-782) for scalar valued polynomials. -/
noncomputable def unitPolynomialSimplex (basis : Basis) (vertices : Vertices K m m) (r : Nat) : Py (SObj K K m) :=
  SObj.new basis (List.replicate (getDimension r m) 1) vertices (some r)

/-- `PolynomialLagrangeSimplex.__pow__` with an integer exponent (SLB 207-214). -/
noncomputable def powNatLagrange (p : SObj K K m) : Nat → Py (SObj K K m)
  | 0 => unitPolynomialSimplex .lagrange p.vertices 1
  | 1 => SObj.new .lagrange p.poly.coeff p.vertices (some p.poly.r)
  | k + 2 => do
    let q ← powNatLagrange p (k + 1)
    p.mul q

/-- `__pow__` with an integer exponent (SBB 128-150, SLB 193-214). -/
noncomputable def SObj.powNat (p : SObj K K m) (k : Nat) : Py (SObj K K m) :=
  match p.poly.basis with
  | .lagrange => powNatLagrange p k
  | _ => do
    let c ← p.poly.powNat k
    SObj.new .bernstein c.coeff p.vertices (some (p.poly.r * k))

/-- The degree computed in SBB 147-149: the sum of `self[i].degree() * exp[i]`; `self[i]` has the same degree as `self`. -/
def powDegree (p : SObj K V m) (exp : List Nat) : Nat := exp.foldl (fun r e => r + p.poly.r * e) 0

/-- `__pow__` with a multi-index exponent (SBB 128-150, SLB 215-227) of a vector valued polynomial. -/
noncomputable def SObj.powMulti {n : Nat} (p : SObj K (Fin n → K) m) (exp : List Nat) : Py (SObj K K m) :=
  match p.poly.basis with
  | .lagrange => do
    pyAssert (decide (exp.length = n))
    let r := p.poly.r * MI.norm exp
    let xs ← lagrangePointsSimplex p.vertices r
    let coeff ← fillLoop (fun (x : Fin m → K) => do
        let v ← p.call x
        MI.power (List.ofFn v) exp) xs 0 (zeros K (getDimension r m))
    SObj.new .lagrange coeff p.vertices (some r)
  | _ => do
    let c ← p.poly.powMulti exp
    SObj.new .bernstein c.coeff p.vertices (some (powDegree p exp))

/-- The object `PolynomialBernsteinSimplex(gb[k].coeff, self.vertices, self.r - 1) * self._a[k, i]` (SBB 175, 185-187, SLB 252, 262-264): the `k`:th
partial derivative on the unit simplex, composed with the map to the unit simplex and multiplied with an entry of its matrix. -/
noncomputable def derivativeTerm (p : SObj K V m) (i k : Fin m) : Py (SObj K V m) := do
  let g ← p.poly.partialDerivative K k
  let d ← SObj.new p.poly.basis g.coeff p.vertices (some (p.poly.r - 1))
  d.smul (p.phi.1 k i)

/-- `partial_derivative` (SBB 152-196, SLB 229-273). For vector valued polynomials the program does the same for each component. -/
noncomputable def SObj.partialDerivative (p : SObj K V m) (i : Nat) : Py (SObj K V m) := do
  if h : i < m then
    if p.poly.r = 0 then zeroPolynomialSimplex p.poly.basis V p.vertices 0
    else
      let d ← derivativeTerm p ⟨i, h⟩ ⟨0, by omega⟩
      ((List.finRange m).drop 1).foldlM (fun d k => do
        let t ← derivativeTerm p ⟨i, h⟩ k
        d.add t) d
  else .error .assertion

/-- `bernstein_basis_fn_simplex` (SBB 326-355), `lagrange_basis_fn_simplex` (SLB 402-431) for a multi-index. -/
noncomputable def basisFnSimplex (basis : Basis) (nu : List Nat) (r : Nat) (vertices : Vertices K m m) : Py (SObj K K m) := do
  let i ← MI.getIndex nu r
  let coeff ← setE (zeros K (getDimension r nu.length)) i 1
  SObj.new basis coeff vertices (some r)

/-- `bernstein_basis_simplex` (SBB 358-372), `lagrange_basis_simplex` (SLB 434-448). -/
noncomputable def basisSimplex (basis : Basis) (r : Nat) (vertices : Vertices K m m) : Py (List (SObj K K m)) :=
  (MI.generateAll m r).mapM (fun mi => basisFnSimplex basis mi r vertices)

/-- `vector_valued_bernstein_basis_fn_simplex` (SBB 375-413), `vector_valued_lagrange_basis_fn_simplex` (SLB 451-489) for `n > 1`. -/
noncomputable def vectorBasisFnSimplex (basis : Basis) (nu : List Nat) (r : Nat) (i : Nat) (vertices : Vertices K m m) (n : Nat) :
    Py (SObj K (Fin n → K) m) := do
  pyAssert (decide (i < n))
  let j ← MI.getIndex nu r
  let coeff ← setE (zeros (Fin n → K) (getDimension r nu.length)) j (fun l => if (l : Nat) = i then 1 else 0)
  SObj.new basis coeff vertices (some r)

/-- `vector_valued_bernstein_basis_simplex` (SBB 416-443), `vector_valued_lagrange_basis_simplex` (SLB 492-519) for `n > 1`. -/
noncomputable def vectorBasisSimplex (basis : Basis) (r : Nat) (vertices : Vertices K m m) (n : Nat) (interleaved : Bool) :
    Py (List (SObj K (Fin n → K) m)) :=
  let pairs : List (List Nat × Nat) :=
    if interleaved then (MI.generateAll m r).flatMap (fun mi => (List.range n).map (fun i => (mi, i)))
    else (List.range n).flatMap (fun i => (MI.generateAll m r).map (fun mi => (mi, i)))
  pairs.mapM (fun e => vectorBasisFnSimplex basis e.1 r e.2 vertices n)

/-- `dual_lagrange_basis_fn_simplex` (SLB 564-601) applied to a polynomial on a simplex. -/
noncomputable def dualLagrangeFnSimplex (mu : List Nat) (r : Nat) (vertices : Vertices K m m) (p : SObj K V m) : Py V := do
  let x ← lagrangePointSimplex vertices r mu
  p.call x

/-- `dual_vector_valued_lagrange_basis_fn_simplex` (SLB 624-665) for `n > 1` applied to a polynomial. -/
noncomputable def dualVectorLagrangeFnSimplex {n : Nat} (mu : List Nat) (r : Nat) (i : Nat) (vertices : Vertices K m m)
    (p : SObj K (Fin n → K) m) : Py K := do
  if h : i < n then
    let c ← p.component ⟨i, h⟩
    dualLagrangeFnSimplex mu r vertices c
  else .error .assertion

end Verif.SPoly
