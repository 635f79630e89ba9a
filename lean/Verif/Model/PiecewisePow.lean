import Verif.Model.Piecewise
/-!
# Powers of vector valued piecewise polynomials with multi-index exponents

`PB` is `piecewise_polynomial/piecewise_polynomial_bernstein_basis.py`, `PL` is `piecewise_polynomial/piecewise_polynomial_lagrange_basis.py`. The classes of
continuous functions inherit the method; they only differ in the unit function and the local-to-global map. Exponents are multi-indices with non-negative
entries (the assertion PB 161, PL 158 is about a non-empty list and never fails).
-/

namespace Verif.PP
open Verif Verif.Poly Verif.SPoly

variable {K : Type} [Field K] [DecidableEq K] {m n : Nat} {Tr : Type}

/-- The unit function that `__pow__` returns for the exponent zero (PB 164-166, PL 162-164). -/
noncomputable def PObj.unitPower {V : Type} (p : PObj K V m Tr) : Py (PObj K K m Tr) :=
  unitPiecewise (fun _ => .ok p.tree) p.basis p.cont p.triangles p.vertices none p.boundary p.keepLast (some p.tree)

/-- `PiecewisePolynomialBernstein.__pow__` with a multi-index (PB 158-174); the fuel bounds the recursion, which lowers the norm of the exponent. -/
noncomputable def PObj.powMultiBernsteinAux (p : PObj K (Fin n → K) m Tr) : Nat → List Nat → Py (PObj K K m Tr)
  | 0, _ => .error .runtime
  | fuel + 1, exp => do
    pyAssert (decide (exp.length = n))
    if MI.norm exp = 0 then p.unitPower
    else
      match ((List.finRange n).zip exp).find? (fun e => e.2 ≠ 0) with
      | none => .error .type
      | some (i, _) => do
        let e ← MI.unit n (i : Nat)
        let pi ← p.remake (p.coeff.map (fun c => c i)) (some p.support)
        let exp' ← MI.sub exp (e.map Int.ofNat)
        let rest ← p.powMultiBernsteinAux fuel exp'
        pi.mul rest

/-- The loop over the support in `PiecewisePolynomialLagrange.__pow__` (PL 172-177). -/
noncomputable def powLoopLagrange (p : PObj K (Fin n → K) m Tr) (exp : List Nat) (tau : Int → List Nat → Py Int) (r : Nat) (coeff : List K) (j : Nat) :
    Py (List K) := do
  let v ← cell p.triangles p.vertices j
  storeLoop tau j (fun _ nu => do
      let x ← lagrangePointSimplex v r nu
      let y ← p.evaluateOnSimplex j x
      MI.power (List.ofFn y) exp) (MI.generateAll m r) 0 coeff

/-- `PiecewisePolynomialLagrange.__pow__` with a multi-index (PL 156-179). -/
noncomputable def PObj.powMultiLagrange (p : PObj K (Fin n → K) m Tr) (exp : List Nat) : Py (PObj K K m Tr) := do
  pyAssert (decide (exp.length = n))
  let r := p.r * MI.norm exp
  if r = 0 then p.unitPower
  else
    let M ← genMap p.cont p.triangles r p.boundary p.keepLast
    let coeff ← p.support.foldlM (powLoopLagrange p exp M.tau r) (zeros K M.numDofs.toNat)
    PObj.new (fun _ => .ok p.tree) p.basis p.cont coeff p.triangles p.vertices r (some M.tau) p.boundary p.keepLast (some p.support) (some p.tree) none

/-- `__pow__` with a multi-index exponent (method dispatch). -/
noncomputable def PObj.powMulti (p : PObj K (Fin n → K) m Tr) (exp : List Nat) : Py (PObj K K m Tr) :=
  match p.basis with
  | .lagrange => p.powMultiLagrange exp
  | _ => p.powMultiBernsteinAux (MI.norm exp + 1) exp

end Verif.PP
