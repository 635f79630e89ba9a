import Verif.Model.FloatPolynomial
/-!
# Model of first order finite differences in floating point arithmetic (`calculus/finite_difference.py`)

Every operation on floats has a relative error of at most `ε` (`PyExpr.Rounded`), and the function that is differentiated is computed with an absolute error
of at most `δ`. A result is the set of its possible values. The two evaluations of the function and the entries of a gradient are rounded independently of
each other, which includes all possible behaviours of the code. Exceptions of the function are in `Verif.Model.FiniteDifference`.
-/

namespace Verif.FloatDifference
open Verif Verif.FloatPoly

/-- The possible values of `f(y)`, where `y` is one of the given numbers. -/
def eval (δ : ℝ) (F : ℝ → ℝ) (A : Set ℝ) : Set ℝ := {c | ∃ y ∈ A, |c - F y| ≤ δ}

/-- `forward_difference` (26-28) for a univariate function. -/
def forward1 (ε δ : ℝ) (F : ℝ → ℝ) (x h : ℝ) : Set ℝ :=
  div ε (sub ε (eval δ F (add ε {x} {h})) (eval δ F {x})) {h}

/-- `central_difference` (117-119) for a univariate function. -/
noncomputable def central1 (ε δ : ℝ) (F : ℝ → ℝ) (x h : ℝ) : Set ℝ :=
  div ε (sub ε (eval δ F (add ε {x} (mul ε {1 / 2} {h}))) (eval δ F (sub ε {x} (mul ε {1 / 2} {h})))) {h}

/-- The loop of `forward_difference` (32-37): the coordinate `x[i]` is the only one that is changed, and it is restored. -/
def forwardDifference (ε δ : ℝ) (F : List ℝ → ℝ) (x : List ℝ) (h : ℝ) : List (Set ℝ) :=
  (x.zipIdx).map (fun c => forward1 ε δ (fun t => F (x.set c.2 t)) c.1 h)

/-- The loop of `central_difference` (122-129). -/
noncomputable def centralDifference (ε δ : ℝ) (F : List ℝ → ℝ) (x : List ℝ) (h : ℝ) : List (Set ℝ) :=
  (x.zipIdx).map (fun c => central1 ε δ (fun t => F (x.set c.2 t)) c.1 h)

end Verif.FloatDifference
