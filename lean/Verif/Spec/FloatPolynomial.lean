import Mathlib.Data.Real.Basic
import Verif.Model.MultiIndex
import Verif.Spec.Polynomial
/-!
# Specification: polynomials with coefficients that are only known up to rounding errors
-/

namespace Verif.Spec
open Verif

/-- The value at `x` of the polynomial of degree `r` with the coefficients `c` in the Bernstein basis. -/
noncomputable def bernsteinValue {m : Nat} (r : Nat) (c : List ℝ) (x : Fin m → ℝ) : ℝ := linComb (bernstein r (List.ofFn x)) (MI.generateAll m r) c

/-- The value at `x` of the polynomial whose coefficients are the absolute values of the coefficients `c`. -/
noncomputable def bernsteinSize {m : Nat} (r : Nat) (c : List ℝ) (x : Fin m → ℝ) : ℝ := bernsteinValue r (c.map (fun a => |a|)) x

/-- The value at `x` of the polynomial of degree `r` with the coefficients `c` in the monomial basis. -/
noncomputable def monomialValue {m : Nat} (r : Nat) (c : List ℝ) (x : Fin m → ℝ) : ℝ := linComb (monomial (List.ofFn x)) (MI.generateAll m r) c

/-- The value at the point with the coordinates `|xᵢ|` of the polynomial whose coefficients are the absolute values of the coefficients `c`. -/
noncomputable def monomialSize {m : Nat} (r : Nat) (c : List ℝ) (x : Fin m → ℝ) : ℝ := monomialValue r (c.map (fun a => |a|)) (fun i => |x i|)

/-- `c` is a list of coefficients that a computation can give, if `S` is the list of the sets of possible values of the coefficients. -/
def Possible (S : List (Set ℝ)) (c : List ℝ) : Prop := List.Forall₂ (fun a T => a ∈ T) c S

end Verif.Spec
