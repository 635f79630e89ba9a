import Verif.Model.Simplex
import Verif.Model.FiniteDifferenceArray
/-!
# Model of `geometry/primitives/simplex.py`: barycentric coordinates and the type of the array of vertices

`Verif/Model/Simplex.lean` models the array of vertices by exact numbers. `_cartesian_to_barycentric_volume` assigns the point to a row of this array;
numpy converts the assigned numbers to the type of its entries. Here this conversion is a parameter `store`: the identity for an array of floats, and
`FinDiff.truncate` for an array of integers (`np.array([[0, 0], [1, 0], [0, 1]])`). Only simplices of full dimension are affected: for others the code
works on a new array of floats (simplex.py:357-358).
-/

namespace Verif.Simplex
open Verif

variable {K : Type} [Field K] [LinearOrder K]

/-- One pass of the loop of `_cartesian_to_barycentric_volume` (simplex.py:361-366): both assignments `vertices[i] = point` (363) and `vertices[i] = v_i` (366)
convert the numbers. -/
def barycentricStepA {n : Nat} (store : K → K) (x : Fin n → K) (vol : K) (s : Vertices K n n × (Fin (n + 1) → K)) (i : Fin (n + 1)) :
    Vertices K n n × (Fin (n + 1) → K) :=
  let vi := s.1 i
  let v := Function.update s.1 i (fun j => store (x j))
  let b := Function.update s.2 i (signedVolume v / vol)
  (Function.update v i (fun j => store (vi j)), b)

/-- `_cartesian_to_barycentric_volume` (339-367) for a simplex of full dimension: the array afterwards and the result, which is an array of floats
(`np.empty`, line 359). -/
def cartesianToBarycentricStateA {n : Nat} (store : K → K) (x : Fin n → K) (v : Vertices K n n) : Vertices K n n × (Fin (n + 1) → K) :=
  (List.finRange (n + 1)).foldl (barycentricStepA store x (volume v)) (v, fun _ => 0)

/-- `cartesian_to_barycentric` (387-396). -/
def cartesianToBarycentricA {n : Nat} (store : K → K) (x : Fin n → K) (v : Vertices K n n) : Fin (n + 1) → K :=
  (cartesianToBarycentricStateA store x v).2

/-- `inside_simplex` (634-663). -/
def insideSimplexA {n : Nat} (store : K → K) (x : Fin n → K) (v : Vertices K n n) (includeBoundary : Bool) (tol : K) : Bool :=
  let bary := cartesianToBarycentricA store x v
  if tol = 0 then
    if includeBoundary then (List.finRange (n + 1)).all (fun i => inClosedRange (bary i) 0 1)
    else (List.finRange (n + 1)).all (fun i => inOpenRange (bary i) 0 1)
  else (List.finRange (n + 1)).all (fun i => inOpenRange (bary i) (0 - tol) (1 + tol))

end Verif.Simplex
