import Mathlib.Data.Nat.Choose.Basic
import Verif.Py
/-!
# Model of the dimension functions of `polynomial/polynomials_base.py`
-/

namespace Verif.Poly
open Verif

/-- `get_dimension` (polynomials_base.py:11-20); SciPy's `binom` (floating point) is modelled by the exact binomial. -/
def getDimension (r n : Nat) : Nat := (r + n).choose n

/-- The search loop `for r in range(stop)` of `get_degree_from_dimension` (34-37) over the remaining candidates. -/
def degreeSearch (dim n : Nat) : List Nat → Py Nat
  | [] => .error .assertion
  | r :: rs => if getDimension r n = dim then .ok r else degreeSearch dim n rs

/-- `get_degree_from_dimension` (polynomials_base.py:23-37). -/
def getDegreeFromDimension (dim n : Nat) : Py Nat := degreeSearch dim n (List.range 20)

end Verif.Poly
