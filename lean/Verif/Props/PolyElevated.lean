import Verif.Lemmas.PolyElevated
/-!
# C24: Bernstein basis functions of a higher degree
-/

namespace Verif.Poly
open Verif

variable {K : Type} [Field K] [DecidableEq K] [CharZero K]

/-- C24: `degree_elevated_bernstein_basis_fn(nu, r, s)` is the Bernstein basis polynomial for `nu` of degree `r`, as a polynomial of degree `s` in the
Bernstein basis. -/
theorem C24_elevated_basis_fn (ν : List Nat) (r s : Nat) (hν : ν.sum ≤ r) (hrs : r < s) (hf : Fits s ν.length) :
    ∃ q, degreeElevatedBernsteinBasisFn K ν r s = .ok q ∧ q.basis = .bernstein ∧ q.r = s ∧
      Represents q ν.length (fun x : Fin ν.length → K => Spec.bernstein r (List.ofFn x) ν) := by
  obtain ⟨q, h1, h2, h3, h4⟩ := degreeElevatedBernsteinBasisFn_rep (K := K) ν r s hν hrs hf
  exact ⟨q, h1, h3, h4, h2⟩

/-- C24: the rejected arguments of `degree_elevated_bernstein_basis_fn(nu, r, s)`: an `s` that is not larger than `r`, an `s` of 20 or more, and a
multi-index outside the basis of degree `r`. -/
theorem C24_elevated_basis_fn_rejected (ν : List Nat) (r s : Nat) :
    (s ≤ r → degreeElevatedBernsteinBasisFn K ν r s = .error .assertion) ∧
    (r < s → ν.sum ≤ r → ¬ Fits s ν.length → degreeElevatedBernsteinBasisFn K ν r s = .error .assertion) ∧
    (r < s → r < ν.sum → degreeElevatedBernsteinBasisFn K ν r s = .error (if ν.length = 1 then .index else .assertion)) :=
  ⟨degreeElevatedBernsteinBasisFn_low ν r s, fun h1 h2 h3 => degreeElevatedBernsteinBasisFn_toobig ν r s h2 h1 h3,
    degreeElevatedBernsteinBasisFn_outside ν r s⟩

example : ([1, 1] : List Nat).sum ≤ 2 ∧ 2 < 4 ∧ Fits 4 ([1, 1] : List Nat).length := ⟨by decide, by decide, Or.inr (by decide)⟩
/-- `2 x (1 - x) = (2 b₁ + 2 b₂) / 3` in degree three. -/
example : (degreeElevatedBernsteinBasisFn ℚ [1] 2 3).toOption.map Obj.coeff = some [0, 2 / 3, 2 / 3, 0] := by decide +kernel

end Verif.Poly
