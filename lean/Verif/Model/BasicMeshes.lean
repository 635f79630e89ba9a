import Mathlib.Algebra.Field.Defs
import Mathlib.Algebra.Order.Floor.Ring
import Mathlib.Data.Rat.Floor
import Verif.Model.OrderCache
/-!
# Model of `geometry/mesh/basic_meshes/triangle_meshes.py` and `tet_meshes.py`

The functions fill the rows of an `np.empty` array one after the other. The model collects the rows in order and `fillRows` puts them into the array:
rows that are never written stay uninitialised (`none`) and a row too many raises IndexError.
-/

namespace Verif.Mesh
open Verif

/-- An array with `num` rows filled with `rows` one after the other, see above. -/
def fillRows {α : Type} (num : Nat) (rows : List α) : Py (List (Option α)) :=
  if rows.length ≤ num then .ok (rows.map some ++ List.replicate (num - rows.length) none) else .error .index

/-- The rows written in `rectangle_triangulation` (triangle_meshes.py 22-32). -/
def rectangleRows (w h : Nat) : List (List Nat) :=
  (List.range (h - 1)).flatMap fun (i : Nat) => (List.range (w - 1)).flatMap fun (j : Nat) =>
    [[i * w + j, i * w + j + 1, (i + 1) * w + j], [i * w + j + 1, (i + 1) * w + j + 1, (i + 1) * w + j]]

/-- `rectangle_triangulation` (triangle_meshes.py 8-34). -/
def rectangleTriangulation (w h : Nat) : Py (List (Option (List Nat))) := do
  pyAssert (decide (1 < w ∧ 1 < h))
  fillRows (2 * (w - 1) * (h - 1)) (rectangleRows w h)

section
variable {K : Type} [Field K]

/-- The rows written in `rectangle_vertices` (triangle_meshes.py 54-63). -/
def rectangleVertexRows (width height : K) (w h : Nat) : List (List K) :=
  (List.range h).flatMap fun (i : Nat) =>
    let s : K := (i : K) / ((h : K) - 1)
    let y := (1 - s) * -height / 2 + s * height / 2
    (List.range w).map fun (j : Nat) =>
      let t : K := (j : K) / ((w : K) - 1)
      let x := (1 - t) * -width / 2 + t * width / 2
      [x, y, 0]

/-- `rectangle_vertices` (triangle_meshes.py 37-65). -/
def rectangleVertices (width height : K) (w h : Nat) : Py (List (Option (List K))) := do
  pyAssert (decide (1 < w ∧ 1 < h))
  fillRows (w * h) (rectangleVertexRows width height w h)

/-- The rows written in `unit_square_vertices` (triangle_meshes.py 82-91). -/
def unitSquareVertexRows (K : Type) [Field K] (w h : Nat) : List (List K) :=
  (List.range h).flatMap fun (i : Nat) =>
    let s : K := (i : K) / ((h : K) - 1)
    (List.range w).map fun (j : Nat) =>
      let t : K := (j : K) / ((w : K) - 1)
      [t, s, 0]

/-- `unit_square_vertices` (triangle_meshes.py 68-93). -/
def unitSquareVertices (K : Type) [Field K] (w h : Nat) : Py (List (Option (List K))) := do
  pyAssert (decide (1 < w ∧ 1 < h))
  fillRows (w * h) (unitSquareVertexRows K w h)

end

/-- The rows written in `annulus_triangulation` (triangle_meshes.py 145-155). -/
def annulusRows (a r : Nat) : List (List Nat) :=
  (List.range (r - 1)).flatMap fun (i : Nat) => (List.range a).flatMap fun (j : Nat) =>
    [[i * a + j, (i + 1) * a + j, (i + 1) * a + (j + 1) % a], [i * a + j, (i + 1) * a + (j + 1) % a, i * a + (j + 1) % a]]

/-- `annulus_triangulation` (triangle_meshes.py 127-157). -/
def annulusTriangulation (a r : Nat) : Py (List (Option (List Nat))) :=
  if a < 3 then .error .value
  else if r < 2 then .error .value
  else fillRows (2 * (r - 1) * a) (annulusRows a r)

/-- `offset_triangulation_vertices` (triangle_meshes.py 332-342), on triangles that have been written. -/
def offsetTriangulation (ts : List (Option (List Nat))) (offset : Nat) : List (Option (List Nat)) :=
  ts.map (Option.map (fun t => t.map (· + offset)))

/-- The rows around the center in `disc_triangulation` (triangle_meshes.py 113-116). -/
def discCenterRows (a : Nat) : List (List Nat) := (List.range a).map fun (i : Nat) => [0, 1 + i, 1 + (i + 1) % a]

/-- `disc_triangulation` (triangle_meshes.py 96-124). The slice assignment raises ValueError if the sizes differ. -/
def discTriangulation (a r : Nat) : Py (List (Option (List Nat))) :=
  if a < 3 then .error .value
  else if r < 2 then .error .value
  else do
    let num := a + 2 * (r - 2) * a
    let ts ← fillRows num (discCenterRows a)
    if 2 < r then do
      let outer ← annulusTriangulation a (r - 1)
      if outer.length = num - a then return ts.take a ++ offsetTriangulation outer 1 else .error .value
    else return ts

/-- Assignment of a float to an entry of an integer array: truncation. -/
def truncQ (q : ℚ) : Nat := ⌊q⌋.toNat

/-- The rows written in `triangle_triangulation` (triangle_meshes.py 172-187): true division, the results are truncated. -/
def triangleRows (n : Nat) : List (List Nat) :=
  (MI.generateAll 2 (n - 1)).flatMap fun mi =>
    let a := mi.getD 0 0
    let b := mi.getD 1 0
    if (MI.norm mi : Int) < (n : Int) - 1 then
      let i0 : ℚ := (2 * (n : ℚ) - b + 1) / 2 * b + a
      let i1 : ℚ := (2 * (n : ℚ) - ((b : ℚ) + 1) + 1) / 2 * ((b : ℚ) + 1) + a
      [truncQ i0, truncQ (i0 + 1), truncQ i1] ::
        (if (MI.norm mi : Int) < (n : Int) - 2 then [[truncQ (i0 + 1), truncQ (i1 + 1), truncQ i1]] else [])
    else []

/-- `triangle_triangulation` (triangle_meshes.py 160-189), for `edge_resolution ≥ 1`. -/
def triangleTriangulation (n : Nat) : Py (List (Option (List Nat))) := fillRows ((n - 1) ^ 2) (triangleRows n)

section
variable {K : Type} [Field K]

/-- The rows written in `triangle_vertices` (triangle_meshes.py 206-211). -/
def triangleVertexRows (width height : K) (n : Nat) : List (List K) :=
  (List.range n).flatMap fun (row : Nat) =>
    let y : K := ((row : K) / ((n : K) - 1)) * height
    (List.range (n - row)).map fun (col : Nat) =>
      let x : K := ((col : K) / ((n : K) - 1)) * width
      [x, y, 0]

/-- `triangle_vertices` (triangle_meshes.py 192-213); `int(n * (n + 1) / 2)` is exact. The first row divides by `n - 1`. -/
def triangleVertices (width height : K) (n : Nat) : Py (List (Option (List K))) :=
  if n = 1 then .error .zeroDivision else fillRows (n * (n + 1) / 2) (triangleVertexRows width height n)

/-- The rows written in `equilateral_triangle_vertices` (triangle_meshes.py 232-237); `height` is `sqrt(3) / 2 * edge_length`. -/
def equilateralVertexRows (width height : K) (n : Nat) : List (List K) :=
  (List.range n).flatMap fun (row : Nat) =>
    let y : K := ((row : K) / ((n : K) - 1)) * height
    (List.range (n - row)).map fun (col : Nat) =>
      let x : K := ((col : K) / ((n : K) - 1)) * width + (row : K) * width / ((n : K) - 1) / 2
      [x, y, 0]

/-- `equilateral_triangle_vertices` (triangle_meshes.py 216-239); the square root of 3 is an argument of the model. -/
def equilateralTriangleVertices (sqrt3 edgeLength : K) (n : Nat) : Py (List (Option (List K))) :=
  if n = 1 then .error .zeroDivision else fillRows (n * (n + 1) / 2) (equilateralVertexRows edgeLength (sqrt3 / 2 * edgeLength) n)

/-- The rows written in `general_triangle_vertices` (triangle_meshes.py 257-263). -/
def generalTriangleVertexRows (v0 v1 v2 : List K) (n : Nat) : List (List K) :=
  (List.range n).flatMap fun (row : Nat) =>
    let w : K := (row : K) / ((n : K) - 1)
    (List.range (n - row)).map fun (col : Nat) =>
      let v : K := (col : K) / ((n : K) - 1)
      let u : K := 1 - v - w
      List.zipWith (· + ·) (List.zipWith (· + ·) (v0.map (u * ·)) (v1.map (v * ·))) (v2.map (w * ·))

/-- `general_triangle_vertices` (triangle_meshes.py 242-265) for three vertices of the same dimension. -/
def generalTriangleVertices (v0 v1 v2 : List K) (n : Nat) : Py (List (Option (List K))) :=
  if n = 1 then .error .zeroDivision else fillRows (n * (n + 1) / 2) (generalTriangleVertexRows v0 v1 v2 n)

end

/-- `triangle_mesh_triangulation` (triangle_meshes.py 268-297): the package `python_math_library` imported in the first line does not exist. -/
def triangleMeshTriangulation (_triangles : List (List Nat)) (_n : Nat) : Py (List (List Nat)) := .error .moduleNotFound

/-- `triangle_mesh_vertices` (triangle_meshes.py 300-329): the same. -/
def triangleMeshVertices {K : Type} (_triangles : List (List Nat)) (_vertices : List (List K)) (_n : Nat) : Py (List (List K)) :=
  .error .moduleNotFound

/-! ## `tet_meshes.py` -/

/-- `_create_cut_triangular_prism_triangulation` (tet_meshes.py 174-188). -/
def cutPrism (i0 i1 i2 i3 i4 : Nat) : List (List Nat) := [[i0, i2, i1, i3], [i3, i2, i1, i4]]

/-- `_create_triangular_prism_triangulation` (tet_meshes.py 191-207). -/
def prism (i0 i1 i2 i3 i4 i5 : Nat) : List (List Nat) := [[i0, i1, i2, i3], [i3, i4, i1, i2], [i3, i4, i2, i5]]

/-- `_create_rectangular_box_triangulation` (tet_meshes.py 210-231). -/
def box (i0 i1 i2 i3 i4 i5 i6 i7 : Nat) : List (List Nat) :=
  [[i0, i1, i2, i4], [i4, i5, i1, i2], [i4, i5, i2, i6], [i1, i3, i2, i5], [i5, i3, i2, i6], [i5, i7, i3, i6]]

/-- The rows written in `rectangular_box_triangulation` (tet_meshes.py 30-48). -/
def boxRows (w h d : Nat) : List (List Nat) :=
  (List.range (d - 1)).flatMap fun (i : Nat) => (List.range (h - 1)).flatMap fun (j : Nat) => (List.range (w - 1)).flatMap fun (k : Nat) =>
    let p := w * h
    let a1 := i * p + j * w + k
    let a2 := a1 + 1
    let a3 := a1 + w
    let a4 := a1 + w + 1
    let a5 := a1 + p
    let a6 := a1 + p + 1
    let a7 := a1 + p + w
    let a8 := a1 + p + w + 1
    [[a1, a2, a3, a5], [a5, a6, a2, a3], [a5, a6, a3, a7], [a2, a4, a3, a6], [a6, a4, a3, a7], [a6, a8, a4, a7]]

/-- `rectangular_box_triangulation` (tet_meshes.py 9-49). -/
def rectangularBoxTriangulation (w h d : Nat) : Py (List (Option (List Nat))) :=
  if w < 2 then .error .value
  else if h < 2 then .error .value
  else if d < 2 then .error .value
  else fillRows (6 * (w - 1) * (h - 1) * (d - 1)) (boxRows w h d)

section
variable (K : Type) [Field K]

/-- The rows written in `unit_cube_vertices` (tet_meshes.py 72-79). -/
def unitCubeVertexRows (w h d : Nat) : List (List K) :=
  (List.range d).flatMap fun (i : Nat) =>
    let z : K := (i : K) / ((d : K) - 1)
    (List.range h).flatMap fun (j : Nat) =>
      let y : K := (j : K) / ((h : K) - 1)
      (List.range w).map fun (k : Nat) =>
        let x : K := (k : K) / ((w : K) - 1)
        [x, y, z]

/-- `unit_cube_vertices` (tet_meshes.py 52-80). -/
def unitCubeVertices (w h d : Nat) : Py (List (Option (List K))) :=
  if w < 2 then .error .value
  else if h < 2 then .error .value
  else if d < 2 then .error .value
  else fillRows (w * h * d) (unitCubeVertexRows K w h d)

end

/-- The rows written for a multi-index with a full box in `tetrahedron_triangulation` (tet_meshes.py 98-106). -/
def tetBox (n : Nat) (mi : List Nat) : Py (List (List Nat)) := do
  let i0 ← MI.getIndex mi ((n : Int) - 1)
  let i1 := i0 + 1
  let i2 ← MI.getIndex (← MI.add mi [0, 1, 0]) ((n : Int) - 1)
  let i3 := i2 + 1
  let i4 ← MI.getIndex (← MI.add mi [0, 0, 1]) ((n : Int) - 1)
  let i5 := i4 + 1
  let i6 ← MI.getIndex (← MI.add mi [0, 1, 1]) ((n : Int) - 1)
  let i7 := i6 + 1
  return box i0 i1 i2 i3 i4 i5 i6 i7

/-- The rows written for a multi-index with a cut box in `tetrahedron_triangulation` (tet_meshes.py 109-119). -/
def tetCut (n : Nat) (mi : List Nat) : Py (List (List Nat)) := do
  let i0 ← MI.getIndex mi ((n : Int) - 1)
  let i1 := i0 + 1
  let i2 ← MI.getIndex (← MI.add mi [0, 1, 0]) ((n : Int) - 1)
  let i3 := i2 + 1
  let i4 ← MI.getIndex (← MI.add mi [0, 0, 1]) ((n : Int) - 1)
  let i5 := i4 + 1
  let i6 ← MI.getIndex (← MI.add mi [0, 1, 1]) ((n : Int) - 1)
  return prism i0 i1 i2 i4 i5 i6 ++ cutPrism i1 i2 i3 i5 i6

/-- The row written for a multi-index at the slanted face in `tetrahedron_triangulation` (tet_meshes.py 121-126). -/
def tetCorner (n : Nat) (mi : List Nat) : Py (List (List Nat)) := do
  let i0 ← MI.getIndex mi ((n : Int) - 1)
  let i1 := i0 + 1
  let i2 ← MI.getIndex (← MI.add mi [0, 1, 0]) ((n : Int) - 1)
  let i3 ← MI.getIndex (← MI.add mi [0, 0, 1]) ((n : Int) - 1)
  return [[i0, i1, i2, i3]]

/-- The rows written for one multi-index in `tetrahedron_triangulation` (tet_meshes.py 97-126). -/
def tetCell (n : Nat) (mi : List Nat) : Py (List (List Nat)) := do
  let first ← (if (MI.norm mi : Int) < (n : Int) - 3 then tetBox n mi else .ok [])
  let second ← (if (MI.norm mi : Int) = (n : Int) - 3 then tetCut n mi else .ok [])
  let third ← (if (MI.norm mi : Int) = (n : Int) - 2 then tetCorner n mi else .ok [])
  return first ++ second ++ third

/-- `tetrahedron_triangulation` (tet_meshes.py 83-128). -/
def tetrahedronTriangulation (n : Nat) : Py (List (Option (List Nat))) := do
  pyAssert (decide (2 ≤ n))
  let rows ← (MI.generateAll 3 (n - 1)).mapM (tetCell n)
  fillRows ((n - 1) ^ 3) rows.flatten

section
variable (K : Type) [Field K]

/-- The rows written in `tetrahedron_vertices` (tet_meshes.py 144-151). -/
def tetrahedronVertexRows (n : Nat) : List (List K) :=
  (List.range n).flatMap fun (w : Nat) =>
    let z : K := (w : K) / ((n : K) - 1)
    (List.range (n - w)).flatMap fun (v : Nat) =>
      let y : K := (v : K) / ((n : K) - 1)
      (List.range (n - v - w)).map fun (u : Nat) =>
        let x : K := (u : K) / ((n : K) - 1)
        [x, y, z]

/-- `tetrahedron_vertices` (tet_meshes.py 131-153); the division by 6 is exact. -/
def tetrahedronVertices (n : Nat) : Py (List (Option (List K))) := do
  pyAssert (decide (2 ≤ n))
  fillRows ((n + 2) * (n + 1) * n / 6) (tetrahedronVertexRows K n)

end

end Verif.Mesh
