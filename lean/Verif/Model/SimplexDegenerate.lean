import Verif.Model.SimplexGeometry
import Verif.Model.PiecewiseCall
/-!
# Model of `geometry/primitives/simplex.py`: barycentric coordinates with division by zero

`Verif/Model/Simplex.lean` gives a division by zero the value zero. Here it has the value that numpy computes: an infinite or an undefined number
(`Num`). So the functions are modelled for all simplices, also degenerate ones.
-/

namespace Verif.SimplexGeometry
open Verif Matrix Verif.Simplex Verif.Linalg

noncomputable section

variable {k n : ℕ}

/-- The loop of `_cartesian_to_barycentric_volume` (simplex.py:361-366), the array and the result. -/
def barycentricStepNum (x : Fin n → ℝ) (vol : ℝ) (s : Vertices ℝ n n × (Fin (n + 1) → Num)) (i : Fin (n + 1)) : Vertices ℝ n n × (Fin (n + 1) → Num) :=
  let vi := s.1 i
  let v := Function.update s.1 i x
  let b := Function.update s.2 i (Num.quot (signedVolume v) vol)
  (Function.update v i vi, b)

/-- `cartesian_to_barycentric` (simplex.py:387-396) with `_cartesian_to_barycentric_volume` (339-367) for a simplex of full dimension. -/
def cartesianToBarycentricNum (x : Fin n → ℝ) (v : Vertices ℝ n n) : Fin (n + 1) → Num :=
  ((List.finRange (n + 1)).foldl (barycentricStepNum x (Simplex.volume v)) (v, fun _ => .nan)).2

/-- `in_closed_range` (real_interval.py:19-29): an infinite number is beyond one of the ends, comparisons with an undefined number are False. -/
def inClosedRangeNum (a : Num) (lo hi : ℝ) : Bool :=
  match a with
  | .fin x => open Classical in decide (lo ≤ x) && decide (x ≤ hi)
  | .inf _ => false
  | .nan => false

/-- `in_open_range` (real_interval.py:32-42). -/
def inOpenRangeNum (a : Num) (lo hi : ℝ) : Bool :=
  match a with
  | .fin x => open Classical in decide (lo < x) && decide (x < hi)
  | .inf _ => false
  | .nan => false

/-- `inside_simplex` (simplex.py:651-663) after the barycentric coordinates are computed. -/
def insideOf (bary : Fin (k + 1) → Num) (includeBoundary : Bool) (tol : ℝ) : Bool := open Classical in
  if tol = 0 then
    if includeBoundary then (List.finRange (k + 1)).all (fun i => inClosedRangeNum (bary i) 0 1)
    else (List.finRange (k + 1)).all (fun i => inOpenRangeNum (bary i) 0 1)
  else (List.finRange (k + 1)).all (fun i => inOpenRangeNum (bary i) (0 - tol) (1 + tol))

/-- `inside_simplex` (simplex.py:634-663) for a simplex of full dimension. -/
def insideSimplexNum (x : Fin n → ℝ) (v : Vertices ℝ n n) (includeBoundary : Bool) (tol : ℝ) : Bool :=
  insideOf (cartesianToBarycentricNum x v) includeBoundary tol

/-- `cartesian_to_barycentric` (simplex.py:387-396) with `_cartesian_to_barycentric_volume` (339-367) for a simplex in a space of larger dimension. -/
def cartesianToBarycentricENum (qr : QR) (p : Fin n → ℝ) (v : Vertices ℝ k n) : Py (Fin (k + 1) → Num) := do
  let s ← inSubspace qr p v tol14
  pyAssert s
  let b ← orthonormalBasis qr v 0
  let x := transformToBasis (p - v 0) b
  let w ← localCoordinates qr v
  return cartesianToBarycentricNum x w

/-- `inside_simplex` (simplex.py:634-663) for a simplex in a space of larger dimension. -/
def insideSimplexENum (qr : QR) (p : Fin n → ℝ) (v : Vertices ℝ k n) (includeBoundary : Bool) (tol : ℝ) : Py Bool := do
  let bary ← cartesianToBarycentricENum qr p v
  return insideOf bary includeBoundary tol

end

end Verif.SimplexGeometry

namespace Verif.PP
open Verif Verif.Simplex

/-- `__call__` (piecewise_polynomial.py:618-644) of an object that holds a tree built by `create_kd_tree`; the mesh may have degenerate simplices. -/
noncomputable def PObj.callAtNum {V : Type} [AddCommGroup V] [DecidableEq V] [Module ℝ V] {m : ℕ} (p : PObj ℝ V m (Kd.MeshTree ℝ)) (x : Fin m → ℝ) : Py V :=
  p.call leafOf (fun x v => SimplexGeometry.insideSimplexNum x v true 0) x

end Verif.PP
