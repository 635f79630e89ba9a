import Verif.Model.FloatDifference
/-!
# Model of second order finite differences in floating point arithmetic (`calculus/finite_difference.py`)

As in `Verif.Model.FloatDifference`: every operation has a relative error of at most `ε`, the function values have an absolute error of at most `δ`, and a
result is the set of its possible values. Arrays are functions on `Fin n`. The loops over the pairs `i ≤ j` are in `Verif.Model.FiniteDifference`; here
an entry below the diagonal has the possible values of the entry it is copied from.
-/

namespace Verif.FloatDifference
open Verif Verif.FloatPoly

/-- `second_forward_difference` (196-198) for a univariate function. -/
def secondForward1 (ε δ : ℝ) (F : ℝ → ℝ) (x h : ℝ) : Set ℝ :=
  div ε (add ε (sub ε (eval δ F (add ε {x} (mul ε {2} {h}))) (mul ε {2} (eval δ F (add ε {x} {h})))) (eval δ F {x})) (round ε (h ^ 2))

/-- `second_central_difference` (243-245) for a univariate function. -/
def secondCentral1 (ε δ : ℝ) (F : ℝ → ℝ) (x h : ℝ) : Set ℝ :=
  div ε (add ε (sub ε (eval δ F (add ε {x} {h})) (mul ε {2} (eval δ F {x}))) (eval δ F (sub ε {x} {h}))) (round ε (h ^ 2))

variable {n : Nat}

/-- The array `e_i`. -/
def unit (i : Fin n) (k : Fin n) : Set ℝ := {if k = i then 1 else 0}

/-- The possible values of `f(z)` for an array `z` with entries in the given sets. -/
def evalArray (δ : ℝ) (F : (Fin n → ℝ) → ℝ) (A : Fin n → Set ℝ) : Set ℝ := {c | ∃ z, (∀ k, z k ∈ A k) ∧ |c - F z| ≤ δ}

/-- The combination of four values in `second_forward_difference` (208-211) and `second_central_difference` (255-258), with `h2_inv = 1 / h**2` (203, 250). -/
def combineFour (ε h : ℝ) (A B C D : Set ℝ) : Set ℝ :=
  mul ε (add ε (sub ε (sub ε A B) C) D) (div ε {1} (round ε (h ^ 2)))

/-- The entry computed in `second_forward_difference` (208-211). -/
def forwardEntry (ε δ : ℝ) (F : (Fin n → ℝ) → ℝ) (x : Fin n → ℝ) (h : ℝ) (i j : Fin n) : Set ℝ :=
  combineFour ε h (evalArray δ F (fun k => add ε {x k} (mul ε {h} (add ε (unit i k) (unit j k)))))
    (evalArray δ F (fun k => add ε {x k} (mul ε {h} (unit i k))))
    (evalArray δ F (fun k => add ε {x k} (mul ε {h} (unit j k))))
    (evalArray δ F (fun k => {x k}))

/-- The entry computed in `second_central_difference` (255-258). -/
noncomputable def centralEntry (ε δ : ℝ) (F : (Fin n → ℝ) → ℝ) (x : Fin n → ℝ) (h : ℝ) (i j : Fin n) : Set ℝ :=
  combineFour ε h (evalArray δ F (fun k => add ε {x k} (mul ε (mul ε {1 / 2} {h}) (add ε (unit i k) (unit j k)))))
    (evalArray δ F (fun k => add ε {x k} (mul ε (mul ε {1 / 2} {h}) (sub ε (unit i k) (unit j k)))))
    (evalArray δ F (fun k => add ε {x k} (mul ε (mul ε {1 / 2} {h}) (sub ε (unit j k) (unit i k)))))
    (evalArray δ F (fun k => sub ε {x k} (mul ε (mul ε {1 / 2} {h}) (add ε (unit i k) (unit j k)))))

/-- The matrix returned by `second_forward_difference` (199-216). -/
def secondForwardDifference (ε δ : ℝ) (F : (Fin n → ℝ) → ℝ) (x : Fin n → ℝ) (h : ℝ) (i j : Fin n) : Set ℝ :=
  if i ≤ j then forwardEntry ε δ F x h i j else forwardEntry ε δ F x h j i

/-- The matrix returned by `second_central_difference` (246-263). -/
noncomputable def secondCentralDifference (ε δ : ℝ) (F : (Fin n → ℝ) → ℝ) (x : Fin n → ℝ) (h : ℝ) (i j : Fin n) : Set ℝ :=
  if i ≤ j then centralEntry ε δ F x h i j else centralEntry ε δ F x h j i

end Verif.FloatDifference
