import Verif.Model.Piecewise
import Verif.Model.SimplexDual
/-!
# Model of the dual bases of piecewise polynomial spaces and of weak derivatives

`piecewise_polynomial_bernstein_basis.py` (PB below), `piecewise_polynomial_lagrange_basis.py` (PL), `continuous_piecewise_polynomial_bernstein_basis.py` (CB)
and `continuous_piecewise_polynomial_lagrange_basis.py` (CL) in `polynomials_on_simplices/piecewise_polynomial/`. The conventions are those of
`Verif/Model/Piecewise.lean`: only simplices with `m + 1` vertices in `Kᵐ` are modelled, and a vertex is a list of coordinates (for `m = 1` the functions
`dual_*_basis_fn` called on their own fail with TypeError if the vertices are plain numbers).
-/

namespace Verif.PP
open Verif Verif.Poly Verif.Simplex Verif.SPoly Verif.L2G

/-- The search for a pair of a simplex and a multi-index with a given number: `tau_inv` of the discontinuous spaces (PB 393-395, PL 398-400), and the preimage
map together with `_get_any_element_from_set` of the continuous spaces (CB 278-281 and 420-430, CL 274-277 and 417-427). Which element of a set a
loop yields first is not determined; it is the parameter `pick`. -/
def dofFinder (pick : List (Int × List Nat) → Option (Int × List Nat)) (cont : Bool) (M : L2G.Map) (numTriangles r m : Nat) :
    Py (Int → Py (Int × List Nat)) :=
  if cont then do
    let pre ← preimageMap M.tau numTriangles M.numDofs r m
    return fun i => do
      let s ← pre [i]
      pyAssert (decide (s.length > 0))
      match pick s with
      | some a => .ok a
      | none => .error .type
  else inverseMap M.tau numTriangles M.numDofs r m

/-- What a dual basis function can be applied to: a piecewise polynomial, or something else that can be called at a point. -/
inductive PArg (K V : Type) (m : Nat) (Tr : Type)
  | piecewise (p : PObj K V m Tr)
  | other (f : (Fin m → K) → Py V)

section Lagrange
variable {K V : Type} [Field K] [DecidableEq K] [AddCommGroup V] [DecidableEq V] [Module K V] {m : Nat} {Tr : Type}

/-- `dual_*_lagrange_basis_fn` (PL 400-411, CL 276-288) with given `tau_inv` or `tau_preim`. The index of the simplex is in range, so that using it as a natural number
changes nothing. -/
noncomputable def dualLagrangeFn (find : Int → Py (Int × List Nat)) (triangles : List (List Nat)) (vertices : List (Fin m → K)) (r : Nat) (i : Int) :
    Py (PArg K V m Tr → Py V) := do
  let a ← find i
  let v ← cell triangles vertices a.1.toNat
  let x ← lagrangePointSimplex v r a.2
  return fun
    | .piecewise p => p.evaluateOnSimplex a.1.toNat x
    | .other f => f x

/-- `dual_*_lagrange_basis` (PL 414-462, CL 291-340) without given maps. -/
noncomputable def dualLagrangeBasis (V : Type) [AddCommGroup V] [DecidableEq V] [Module K V] (Tr : Type)
    (pick : List (Int × List Nat) → Option (Int × List Nat)) (cont : Bool) (triangles : List (List Nat)) (vertices : List (Fin m → K)) (r : Nat)
    (boundary : Option (List (List Nat))) (keepLast : Bool) : Py (List (PArg K V m Tr → Py V)) := do
  let M ← genMap cont triangles r boundary keepLast
  let find ← dofFinder pick cont M triangles.length r m
  (List.range M.numDofs.toNat).mapM (fun (i : Nat) => dualLagrangeFn find triangles vertices r i)

/-- The loop over the multi-indices in `weak_partial_derivative` (CB 108-118, CL 107-114). The counter `l` is only used in CB; it is not increased
for degrees of freedom that are left out. -/
def weakLoop (tau : Int → List Nat → Py Int) (j : Nat) (val : Nat → List Nat → Py V) : List (List Nat) → Nat → List V → Py (List V)
  | [], _, coeff => .ok coeff
  | nu :: mis, l, coeff => do
    let k ← tau j nu
    if k = -1 then weakLoop tau j val mis l coeff
    else
      let c ← val l nu
      let coeff ← pySet coeff k c
      weakLoop tau j val mis (l + 1) coeff

/-- The part of `weak_partial_derivative` outside of the loop over the multi-indices (CB 88-123, CL 88-119): `step` is the body of the loop over the
simplices and `empty` is `np.empty`, a list with arbitrary entries. A continuous function has at least degree one. -/
noncomputable def weakDerivative (empty : Nat → List V) (step : L2G.Map → Nat → List V → Nat → Py (List V)) (p : PObj K V m Tr) : Py (PObj K V m Tr) := do
  let r := p.r - 1
  let M ← discMap p.triangles r p.boundary p.keepLast
  let coeff ← (List.range p.triangles.length).foldlM (step M r) (empty M.numDofs.toNat)
  PObj.new (fun _ => .ok p.tree) p.basis false coeff p.triangles p.vertices r (some M.tau) p.boundary p.keepLast (some p.support) (some p.tree) none

/-- `ContinuousPiecewisePolynomialLagrange.weak_partial_derivative` (CL 80-119). -/
noncomputable def weakPartialDerivativeLagrange (empty : Nat → List V) (p : PObj K V m Tr) (i : Nat) : Py (PObj K V m Tr) :=
  weakDerivative empty (fun M r coeff j => do
    let q ← p.restrictToSimplex j
    let v ← cell p.triangles p.vertices j
    weakLoop M.tau j (fun _ nu => do
      let x ← lagrangePointSimplex v r nu
      let d ← q.partialDerivative i
      d.call x) (MI.generateAll m r) 0 coeff) p

end Lagrange

section Bernstein
variable {K : Type} [Field K] [LinearOrder K] [DecidableEq K] {m : Nat} {Tr : Type}

/-- `dual_*_bernstein_basis_fn` (PB 395-403, CB 280-290) with given `tau_inv` or `tau_preim`, for scalar valued functions. An argument that is not a piecewise
polynomial has no method `restrict_to_simplex`; the continuous version rejects it with an assertion. -/
noncomputable def dualBernsteinFn (cont : Bool) (find : Int → Py (Int × List Nat)) (triangles : List (List Nat)) (vertices : List (Fin m → K)) (r : Nat)
    (i : Int) : Py (PArg K K m Tr → Py K) := do
  let a ← find i
  let v ← cell triangles vertices a.1.toNat
  let q ← dualBernsteinFnSimplex a.2 r v
  return fun
    | .piecewise p => do
      let s ← p.restrictToSimplex a.1.toNat
      q (.simplex s)
    | .other _ => .error (if cont then .assertion else .attribute)

/-- `dual_*_bernstein_basis` (PB 406-454, CB 293-343) without given maps. -/
noncomputable def dualBernsteinBasisPiecewise (Tr : Type) (pick : List (Int × List Nat) → Option (Int × List Nat)) (cont : Bool) (triangles : List (List Nat))
    (vertices : List (Fin m → K)) (r : Nat) (boundary : Option (List (List Nat))) (keepLast : Bool) : Py (List (PArg K K m Tr → Py K)) := do
  let M ← genMap cont triangles r boundary keepLast
  let find ← dofFinder pick cont M triangles.length r m
  (List.range M.numDofs.toNat).mapM (fun (i : Nat) => dualBernsteinFn cont find triangles vertices r i)

/-- `ContinuousPiecewisePolynomialBernstein.weak_partial_derivative` (CB 80-123) of a scalar valued function. -/
noncomputable def weakPartialDerivativeBernstein (empty : Nat → List K) (p : PObj K K m Tr) (i : Nat) : Py (PObj K K m Tr) :=
  weakDerivative empty (fun M r coeff j => do
    let q ← p.restrictToSimplex j
    let v ← cell p.triangles p.vertices j
    let duals ← dualBernsteinBasisSimplex r v
    weakLoop M.tau j (fun l _ => do
      let dual ← getE duals l
      let d ← q.partialDerivative i
      dual (.simplex d)) (MI.generateAll m r) 0 coeff) p

/-- The entries of a vector that are computed one after the other (CB 116-117). -/
def vectorM {n : Nat} (f : Fin n → Py K) : Py (Fin n → K) := do
  let l ← (List.finRange n).mapM f
  if h : l.length = n then .ok (fun i => l[(i : Nat)]'(by omega)) else .error .index

/-- `ContinuousPiecewisePolynomialBernstein.weak_partial_derivative` (CB 80-123) of a vector valued function. -/
noncomputable def weakPartialDerivativeBernsteinVector {n : Nat} (empty : Nat → List (Fin n → K)) (p : PObj K (Fin n → K) m Tr) (i : Nat) :
    Py (PObj K (Fin n → K) m Tr) :=
  weakDerivative empty (fun M r coeff j => do
    let q ← p.restrictToSimplex j
    let v ← cell p.triangles p.vertices j
    let duals ← dualBernsteinBasisSimplex r v
    weakLoop M.tau j (fun l _ => vectorM (fun k => do
      let dual ← getE duals l
      let c ← q.component k
      let d ← c.partialDerivative i
      dual (.simplex d))) (MI.generateAll m r) 0 coeff) p

end Bernstein

end Verif.PP
