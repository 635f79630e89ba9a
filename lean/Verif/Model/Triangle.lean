import Verif.Model.Simplex
import Verif.Model.Linalg
/-!
# Model of `geometry/primitives/triangle.py`

A triangle is an array of three vertices in `ℝⁿ`. Floating point numbers are replaced by real numbers; a division by zero, which numpy answers with
an infinite or undefined number, has the value zero (it occurs for degenerate triangles only, and no theorem is about these unless it says so).
Indices modulo 3 are elements of `Fin 3`, whose addition is modulo 3.
-/

namespace Verif.Triangle
open Verif Matrix Verif.Simplex Verif.Linalg

noncomputable section

variable {n : ℕ}

/-- A triangle: a 3 by n array. -/
abbrev Tri (n : ℕ) := Fin 3 → Fin n → ℝ

/-- `edges` (triangle.py:10-23). -/
def edges (v : Tri n) : Fin 3 → Fin n → ℝ := fun i => v (i + 2) - v (i + 1)

/-- `edge_lengths` (triangle.py:26-36). -/
def edgeLengths (v : Tri n) : Fin 3 → ℝ := fun i => Linalg.norm (edges v i)

/-- `diameter` (triangle.py:39-55). -/
def diameter (v : Tri n) : ℝ :=
  let el := edgeLengths v
  max (el 0) (max (el 1) (el 2))

/-- `numpy.cross` of two vectors in the plane, a number. -/
def cross2 (a b : Fin 2 → ℝ) : ℝ := a 0 * b 1 - a 1 * b 0

/-- `numpy.linalg.norm(numpy.cross(a, b))`: the cross product of two vectors in the plane is a number, in space a vector; in every other dimension
`numpy.cross` raises ValueError. -/
def crossNorm : {n : ℕ} → (Fin n → ℝ) → (Fin n → ℝ) → Py ℝ
  | 2, a, b => .ok |cross2 a b|
  | 3, a, b => .ok (Linalg.norm (a ⨯₃ b))
  | _, _, _ => .error .value

/-- `area` (triangle.py:264-275). -/
def area (v : Tri n) : Py ℝ := do
  let c ← crossNorm (edges v 0) (edges v 1)
  return 1 / 2 * c

/-- `area_weighted_normal` (triangle.py:235-247) in the plane. -/
def areaWeightedNormal2 (v : Tri 2) : ℝ := cross2 (edges v 0) (edges v 1)

/-- `area_weighted_normal` (triangle.py:235-247) in space. -/
def areaWeightedNormal3 (v : Tri 3) : Fin 3 → ℝ := edges v 0 ⨯₃ edges v 1

/-- `area_weighted_normal` (triangle.py:235-247); the result in the plane, a number, is shown as a list of length one. -/
def areaWeightedNormal : {n : ℕ} → Tri n → Py (List ℝ)
  | 2, v => .ok [areaWeightedNormal2 v]
  | 3, v => .ok (List.ofFn (areaWeightedNormal3 v))
  | _, _ => .error .value

/-- `normal` (triangle.py:250-261) in the plane. -/
def normal2 (v : Tri 2) : ℝ :=
  let c := cross2 (edges v 0) (edges v 1)
  c / |c|

/-- `normal` (triangle.py:250-261) in space. -/
def normal3 (v : Tri 3) : Fin 3 → ℝ :=
  let c := edges v 0 ⨯₃ edges v 1
  divBy c (Linalg.norm c)

/-- `normal` (triangle.py:250-261); the result in the plane, a number, is shown as a list of length one. -/
def normal : {n : ℕ} → Tri n → Py (List ℝ)
  | 2, v => .ok [normal2 v]
  | 3, v => .ok (List.ofFn (normal3 v))
  | _, _ => .error .value

/-- `basis` (triangle.py:186-213). -/
def basis : {n : ℕ} → Tri n → Py (Fin 2 → Fin n → ℝ)
  | 2, v =>
    let b0 := divBy (edges v 0) (Linalg.norm (edges v 0))
    let b1 := edges v 1 - (edges v 1 ⬝ᵥ b0) • b0
    .ok ![b0, divBy b1 (Linalg.norm b1)]
  | 3, v =>
    let b0 := divBy (edges v 0) (Linalg.norm (edges v 0))
    .ok ![b0, normal3 v ⨯₃ b0]
  | _, _ => .error .assertion

/-- `edges_2` (triangle.py:58-75). -/
def edges2 (v : Tri n) : Py (Fin 3 → Fin 2 → ℝ) := do
  let b ← basis v
  return fun i j => edges v i ⬝ᵥ b j

/-- `in_triangleplane_coords` (triangle.py:216-232). -/
def inTriangleplaneCoords (v : Tri n) (x : Fin n → ℝ) : Py (Fin 2 → ℝ) := do
  let b ← basis v
  return fun i => x ⬝ᵥ b i

/-- A loop over the three indices that calls a function and stores the results as rows (triangle.py:181-182, 336-337). -/
def rows3 {α : Type} (f : Fin 3 → Py α) : Py (Fin 3 → α) := do
  let x ← f 0
  let y ← f 1
  let z ← f 2
  return ![x, y, z]

/-- The body of the loop of `dual_edges` in the plane (triangle.py:94-98). -/
def dualEdge2 (v : Tri 2) (i : Fin 3) : Fin 2 → ℝ :=
  open Classical in
  let t : Fin 2 → ℝ := ![-(edges v i 1), edges v i 0]
  if t ⬝ᵥ edges v (i + 1) > 0 then -1 • t else t

/-- `dual_edges` (triangle.py:78-106). -/
def dualEdges : {n : ℕ} → Tri n → Py (Fin 3 → Fin n → ℝ)
  | 2, v => .ok (dualEdge2 v)
  | 3, v => .ok fun i => edges v i ⨯₃ normal3 v
  | _, _ => .error .assertion

/-- `altitude_vectors` (triangle.py:109-127). -/
def altitudeVectors (v : Tri n) : Py (Fin 3 → Fin n → ℝ) := do
  let a ← area v
  let hv ← dualEdges v
  return fun i =>
    let h := 2 * a / Linalg.norm (v (i + 1) - v (i + 2))
    divBy (h • hv i) (Linalg.norm (hv i))

/-- `altitudes` (triangle.py:130-145). -/
def altitudes (v : Tri n) : Py (Fin 3 → ℝ) := do
  let a ← area v
  return fun i => 2 * a / Linalg.norm (v (i + 1) - v (i + 2))

/-- `altitude_feet` (triangle.py:148-165). -/
def altitudeFeet (v : Tri n) : Fin 3 → Fin n → ℝ := fun i =>
  let v0 := v i
  let v1 := v (i + 1)
  let v2 := v (i + 2)
  let s := -((v2 - v1) ⬝ᵥ (v1 - v0)) / ((v2 - v1) ⬝ᵥ (v2 - v1))
  (1 - s) • v1 + s • v2

/-- `dual_edges_2` (triangle.py:168-183). -/
def dualEdges2 (v : Tri n) : Py (Fin 3 → Fin 2 → ℝ) := do
  let t ← dualEdges v
  rows3 fun i => inTriangleplaneCoords v (t i)

/-- `perimeter` (triangle.py:278-287). -/
def perimeter (v : Tri n) : ℝ := 0 + edgeLengths v 0 + edgeLengths v 1 + edgeLengths v 2

/-- `angle` (triangle.py:290-303), for the index of a vertex modulo 3. -/
def angle (v : Tri n) (i : Fin 3) : Py ℝ :=
  let u0 := -(edges v (i + 1))
  let u1 := edges v (i + 2)
  computeAngle u0 u1

/-- `medians` (triangle.py:306-319). -/
def medians (v : Tri n) : Fin 3 → Fin n → ℝ := fun i => (1 / 2 : ℝ) • (v (i + 1) + v (i + 2)) - v i

/-- `medians_2` (triangle.py:322-338). -/
def medians2 (v : Tri n) : Py (Fin 3 → Fin 2 → ℝ) :=
  let m := medians v
  rows3 fun i => inTriangleplaneCoords v (m i)

/-- `barycentric_to_cartesian` (triangle.py:341-351). -/
def barycentricToCartesian (bary : Fin 3 → ℝ) (v : Tri n) : Fin n → ℝ := bary 0 • v 0 + bary 1 • v 1 + bary 2 • v 2

/-- `numpy.linalg.solve` with the regular matrix of triangle.py:376 (external: the solution of the linear system). -/
def solveA (b : Fin 2 → ℝ) : Fin 2 → ℝ := (!![1 / 2, -1 / 2; 1 / 2, 1] : Matrix (Fin 2) (Fin 2) ℝ)⁻¹ *ᵥ b

/-- `cartesian_to_barycentric` (triangle.py:354-383). -/
def cartesianToBarycentric (p : Fin n → ℝ) (v : Tri n) : Py (Fin 3 → ℝ) := do
  let ev ← edges2 v
  let mv ← medians2 v
  let v1 ← inTriangleplaneCoords v (p - v 0)
  let v1 := vectorObliqueProjection2 v1 (ev 2) (mv 2)
  let v2 ← inTriangleplaneCoords v (p - v 1)
  let v2 := vectorObliqueProjection2 v2 (ev 0) (mv 0)
  let r1 := (v1 ⬝ᵥ ev 2) / (ev 2 ⬝ᵥ ev 2)
  let r2 := (v2 ⬝ᵥ ev 0) / (ev 0 ⬝ᵥ ev 0)
  let x := solveA ![1 / 2 - r1, 1 - r2]
  return ![x 0, x 1, 1 - x 0 - x 1]

/-- `trilinear_to_side_distances` (triangle.py:425-443). -/
def trilinearToSideDistances (t : Fin 3 → ℝ) (v : Tri n) : Py (Fin 3 → ℝ) := do
  let el := edgeLengths v
  let denominator := 0 + el 0 * t 0 + el 1 * t 1 + el 2 * t 2
  let a ← area v
  let k := 2 * a / denominator
  return k • t

/-- `side_distances_to_trilinear` (triangle.py:446-457). -/
def sideDistancesToTrilinear (d : Fin 3 → ℝ) : Fin 3 → ℝ := d

/-- `normalize_trilinear_coordinates` (triangle.py:460-475). -/
def normalizeTrilinearCoordinates (t : Fin 3 → ℝ) (v : Tri n) : Py (Fin 3 → ℝ) := trilinearToSideDistances t v

/-- `barycentric_to_trilinear` (triangle.py:386-401). -/
def barycentricToTrilinear (bary : Fin 3 → ℝ) (v : Tri n) : Py (Fin 3 → ℝ) :=
  let e := edges v
  normalizeTrilinearCoordinates (fun i => bary i / Linalg.norm (e i)) v

/-- `trilinear_to_barycentric` (triangle.py:404-422). -/
def trilinearToBarycentric (t : Fin 3 → ℝ) (v : Tri n) : Fin 3 → ℝ :=
  let e := edges v
  let bary : Fin 3 → ℝ := fun i => t i * Linalg.norm (e i)
  (1 / (0 + bary 0 + bary 1 + bary 2)) • bary

/-- `centroid` (triangle.py:478-487). -/
def centroid (v : Tri n) : Fin n → ℝ := divBy (v 0 + v 1 + v 2) 3

/-- `circumcenter` (triangle.py:490-505). -/
def circumcenter (v : Tri n) : Py (Fin n → ℝ) := do
  let t ← rows3 fun i => do
    let a ← angle v i
    return Real.cos a
  let bary := trilinearToBarycentric t v
  return barycentricToCartesian bary v

/-- `circumradius` (triangle.py:508-523). -/
def circumradius (v : Tri n) : ℝ :=
  let a := edgeLengths v 0
  let b := edgeLengths v 1
  let c := edgeLengths v 2
  a * b * c / √((a + b + c) * (b + c - a) * (c + a - b) * (a + b - c))

/-- The loop of `orthocenter` (triangle.py:537-544) over the remaining indices. -/
def orthoLoop (v : Tri n) : List (Fin 3) → (Fin 3 → ℝ) → Py (Fin 3 → ℝ)
  | [], t => .ok t
  | i :: is, t => open Classical in do
    let alpha ← angle v i
    if alpha ≠ Real.pi / 2 then
      let alpha' ← angle v i
      orthoLoop v is (Function.update t i (1 / Real.cos alpha'))
    else return Function.update (fun _ => 0) i 1

/-- `orthocenter` (triangle.py:526-546). -/
def orthocenter (v : Tri n) : Py (Fin n → ℝ) := do
  let t ← orthoLoop v [0, 1, 2] (fun _ => 0)
  let bary := trilinearToBarycentric t v
  return barycentricToCartesian bary v

/-- `incenter` (triangle.py:549-561). -/
def incenter (v : Tri n) : Fin n → ℝ :=
  let bary := trilinearToBarycentric ![1, 1, 1] v
  barycentricToCartesian bary v

/-- `inradius` (triangle.py:564-576). -/
def inradius (v : Tri n) : Py ℝ := do
  let a ← area v
  let s := perimeter v / 2
  return a / s

/-- `inside_triangle` (triangle.py:579-597). -/
def insideTriangle (p : Fin n → ℝ) (v : Tri n) (includeBoundary : Bool) : Py Bool := do
  let bary ← cartesianToBarycentric p v
  let inRange : ℝ → Bool := fun b => if includeBoundary then inClosedRange b 0 1 else inOpenRange b 0 1
  return inRange (bary 0) && inRange (bary 1) && inRange (bary 2)

/-- `is_degenerate` (triangle.py:600-621). -/
def isDegenerate (v : Tri n) (eps : ℝ) : Bool :=
  open Classical in
  let d := Real.cos eps ^ 2
  let e := edges v
  let sl : Fin 3 → ℝ := fun i => e i ⬝ᵥ e i
  let dp : Fin 3 → ℝ := fun i => (e (i + 1) ⬝ᵥ e (i + 2)) ^ 2
  [0, 1, 2].any fun (i : Fin 3) => decide (dp i / (sl (i + 1) * sl (i + 2)) > d)

end

end Verif.Triangle
