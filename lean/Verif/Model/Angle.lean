import Mathlib.Algebra.Order.Floor.Ring
import Mathlib.Analysis.SpecialFunctions.Trigonometric.Basic
import Verif.Py
/-!
# Model of `calculus/real_interval.py` and of the scalar part of `calculus/angle.py`

Floating point numbers are replaced by the elements of an ordered field (real numbers where `math.pi` occurs).
-/

namespace Verif.Angle
open Verif

section RealInterval
variable {K : Type} [Field K] [LinearOrder K] [FloorRing K]

omit [Field K] [FloorRing K] in
/-- `constrain_to_range` (real_interval.py 6-16). -/
def constrainToRange (s minVal maxVal : K) : K := max (min s maxVal) minVal

omit [Field K] [FloorRing K] in
/-- `in_closed_range` (real_interval.py 19-29). -/
def inClosedRange (s minVal maxVal : K) : Bool := decide (minVal ≤ s) && decide (s ≤ maxVal)

omit [Field K] [FloorRing K] in
/-- `in_open_range` (real_interval.py 32-42). -/
def inOpenRange (s minVal maxVal : K) : Bool := decide (minVal < s) && decide (s < maxVal)

omit [Field K] [FloorRing K] in
/-- `in_left_closed_range` (real_interval.py 45-55). -/
def inLeftClosedRange (s minVal maxVal : K) : Bool := decide (minVal ≤ s) && decide (s < maxVal)

omit [Field K] [FloorRing K] in
/-- `in_right_closed_range` (real_interval.py 58-68). -/
def inRightClosedRange (s minVal maxVal : K) : Bool := decide (minVal < s) && decide (s ≤ maxVal)

/-- Python's `x // y` on floats: floor of the quotient, ZeroDivisionError for `y = 0`. -/
def floorDiv (x y : K) : Py K := if y = 0 then .error .zeroDivision else .ok ((⌊x / y⌋ : Int) : K)

/-- `math.fmod(x, y)`: remainder of the division truncated towards zero, ValueError for `y = 0`. -/
def fmod (x y : K) : Py K :=
  if y = 0 then .error .value
  else if 0 ≤ x / y then .ok (x - y * ((⌊x / y⌋ : Int) : K)) else .ok (x - y * ((⌈x / y⌉ : Int) : K))

/-- `equivalent_periodic_element` (real_interval.py 71-95). -/
def equivalentPeriodicElement (a t : K) : Py K :=
  if inLeftClosedRange a 0 t then .ok a
  else if a < 0 then do
    let n ← floorDiv (-a) t
    fmod (a + (n + 1) * t) t
  else fmod a t

end RealInterval

noncomputable section
open Real

/-- `degrees_to_radians` (angle.py 10-18). -/
def degreesToRadians (angle : ℝ) : ℝ := angle * π / 180

/-- `radians_to_degrees` (angle.py 21-29). -/
def radiansToDegrees (angle : ℝ) : ℝ := angle * 180 / π

/-- `to_positive_angle_interval` (angle.py 32-40). -/
def toPositiveAngleInterval (angle : ℝ) : Py ℝ := equivalentPeriodicElement angle (2 * π)

/-- `to_centered_angle_interval` (angle.py 43-56). -/
def toCenteredAngleInterval (angle : ℝ) : Py ℝ := do
  let angle ← toPositiveAngleInterval angle
  if angle ≥ π then return angle - 2 * π else return angle

/-- `distance` (angle.py 97-109). -/
def distance (a0 a1 : ℝ) : Py ℝ := do
  pyAssert (inLeftClosedRange a0 (-π) π)
  pyAssert (inLeftClosedRange a1 (-π) π)
  let delta := |a0 - a1|
  return min delta (2 * π - delta)

/-- `direction` (angle.py 112-133). The first argument bounds the depth of the recursion (Python: RecursionError). -/
def directionRec : Nat → ℝ → ℝ → Py ℤ
  | 0, _, _ => .error .runtime
  | fuel + 1, a0, a1 => do
    pyAssert (inLeftClosedRange a0 (-π) π)
    pyAssert (inLeftClosedRange a1 (-π) π)
    let delta := |a0 - a1|
    if delta ≤ 2 * π - delta then
      if a0 > a1 then return -1 else return 1
    else do
      let b0 ← toCenteredAngleInterval (a0 + π)
      let b1 ← toCenteredAngleInterval (a1 + π)
      directionRec fuel b0 b1

/-- `direction` (angle.py 112-133) with Python's default recursion limit. -/
def direction (a0 a1 : ℝ) : Py ℤ := directionRec 1000 a0 a1

/-- The state of a `Dial` (angle.py 208-244). -/
structure Dial where
  /-- `angle_pos` -/
  anglePos : ℝ
  /-- `num_laps` -/
  numLaps : ℤ

/-- `Dial.__init__` (angle.py 213-217). -/
def newDial : Dial := ⟨0, 0⟩

/-- `Dial.update_position` (angle.py 219-235): the state after the call. -/
def updatePosition (s : Dial) (newAnglePos : ℝ) : Py Dial := do
  let d ← toCenteredAngleInterval (newAnglePos - s.anglePos)
  let pos := s.anglePos + d
  let laps := if pos ≥ π then s.numLaps + 1 else s.numLaps
  let laps := if pos < -π then laps - 1 else laps
  let pos ← toCenteredAngleInterval pos
  return ⟨pos, laps⟩

/-- `Dial.get_total_position` (angle.py 237-244). -/
def getTotalPosition (s : Dial) : ℝ := s.anglePos + s.numLaps * 2 * π

/-- A history: a sequence of calls of `update_position` on one dial. -/
def updateAll (s : Dial) : List ℝ → Py Dial
  | [] => .ok s
  | a :: as => do
    let s ← updatePosition s a
    updateAll s as

end

end Verif.Angle
