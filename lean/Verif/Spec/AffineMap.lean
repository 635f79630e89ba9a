import Verif.Model.AffineMap
/-!
# How points and affine maps are represented by numpy values

The documentation of `affine_map.py`: a point of a space of dimension one is a number, any other point is an array; the matrix of a map between
spaces of dimension one is a number, a matrix with one row or one column may be a one dimensional array.
-/

namespace Verif.Spec
open Verif Verif.AffineMap

variable {K : Type}

/-- The numpy value for a point. -/
def pointArr {n : ℕ} (x : Fin n → K) : Arr K := if h : n = 1 then .num (x ⟨0, by omega⟩) else .vec n x

/-- The numpy values for the matrix of an affine map: a number if it has one row and one column; otherwise the matrix, or the array of its
entries if it has one column or one row. -/
inductive RepMatrix : {n m : ℕ} → Matrix (Fin n) (Fin m) K → Arr K → Prop
  | number (A : Matrix (Fin 1) (Fin 1) K) : RepMatrix A (.num (A 0 0))
  | column {n : ℕ} (hn : n ≠ 1) (A : Matrix (Fin n) (Fin 1) K) : RepMatrix A (.vec n fun i => A i 0)
  | row {m : ℕ} (hm : m ≠ 1) (A : Matrix (Fin 1) (Fin m) K) : RepMatrix A (.vec m (A 0))
  | matrix {n m : ℕ} (h : n ≠ 1 ∨ m ≠ 1) (A : Matrix (Fin n) (Fin m) K) : RepMatrix A (.mat n m A)

/-- The values `(a, b)` represent the map `x ↦ A x + c`. -/
def RepMap {n m : ℕ} (A : Matrix (Fin n) (Fin m) K) (c : Fin n → K) (ab : Arr K × Arr K) : Prop := RepMatrix A ab.1 ∧ ab.2 = pointArr c

end Verif.Spec
