import Verif.Model.Aabb
import Verif.Model.Equality
import Mathlib.Analysis.Real.Sqrt
/-!
# Model of `is_equal` and `diameter` of `geometry/proximity/aabb.py`

Floating point numbers are replaced by real numbers.
-/

namespace Verif.Aabb
open Verif Verif.Equality

noncomputable section

/-- The loop of `is_equal` (102-106) over the given coordinates. -/
def equalLoop (a b : Box ℝ) (relTol absTol : ℝ) : List Nat → Py Bool
  | [] => .ok true
  | i :: is => do
    let a0 ← getE a.1 i
    let b0 ← getE b.1 i
    let c0 ← isclose a0 b0 relTol absTol
    if !c0 then return false
    else do
      let a1 ← getE a.2 i
      let b1 ← getE b.2 i
      let c1 ← isclose a1 b1 relTol absTol
      if !c1 then return false else equalLoop a b relTol absTol is

/-- `is_equal` (94-107). -/
def isEqual (a b : Box ℝ) (relTol absTol : ℝ) : Py Bool := equalLoop a b relTol absTol (List.range a.1.length)

/-- `diameter` (155-165) for arrays. `aabb[1] - aabb[0]` (165) raises ValueError if the lengths differ; the broadcasting of arrays of length 1 is not
modelled. -/
def diameter (b : Box ℝ) : Py (Option ℝ) := do
  let v ← isValid b
  if !v then return none
  else if b.1.length = b.2.length then return some (Real.sqrt ((List.zipWith (fun hi lo => (hi - lo) ^ 2) b.2 b.1).sum))
  else .error .value

end

end Verif.Aabb
