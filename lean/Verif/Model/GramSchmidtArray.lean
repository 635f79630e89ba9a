import Verif.Model.Linalg
/-!
# `gram_schmidt_orthonormalization` for arrays of integers and of floats

The vectors of a basis are arrays, and the code updates them in place. numpy refuses to store the result of an in place operation in an array of
integers if the result is not an array of integers (the error it raises is a `TypeError`).
-/

namespace Verif.Linalg
open Verif

noncomputable section

variable {E : Type} [NormedAddCommGroup E] [InnerProductSpace ℝ E]

/-- An array: whether its element type is an integer type, and the vector it holds. -/
structure Arr (E : Type) where
  integer : Bool
  vec : E

/-- `w -= inner_product(w, q) * q` (basis.py 198). The right side is an array of integers iff both `w` and `q` are. -/
def Arr.subComponent (w q : Arr E) : Py (Arr E) :=
  if w.integer && !(w.integer && q.integer) then throw .type
  else return ⟨w.integer, w.vec - (inner ℝ w.vec q.vec : ℝ) • q.vec⟩

/-- `w /= np.sqrt(inner_product(w, w))` (basis.py 199). The quotient is never an array of integers. -/
def Arr.normalise (w : Arr E) : Py (Arr E) :=
  if w.integer then throw .type
  else return ⟨w.integer, (1 / √(inner ℝ w.vec w.vec : ℝ)) • w.vec⟩

/-- The inner loop (basis.py 197-198). -/
def gsReduceA (w : Arr E) : List (Arr E) → Py (Arr E)
  | [] => return w
  | q :: qs => do
    let w ← w.subComponent q
    gsReduceA w qs

/-- The outer loop (basis.py 196-199). The vectors already orthonormalised come first. -/
def gsLoopA (done : List (Arr E)) : List (Arr E) → Py (List (Arr E))
  | [] => return done
  | v :: vs => do
    let w ← gsReduceA v done
    let w ← w.normalise
    gsLoopA (done ++ [w]) vs

/-- `gram_schmidt_orthonormalization` (basis.py 183-200) of a list of arrays, or of a two dimensional array (then all its rows have the same
element type). The entries are exact numbers, and the division is defined for linearly independent vectors. -/
def gramSchmidtA (basis : List (Arr E)) : Py (List (Arr E)) := do
  pyAssert (decide (basis.length > 0))
  gsLoopA [] basis

end

end Verif.Linalg
