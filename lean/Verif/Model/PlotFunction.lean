import Verif.Model.Plot
import Verif.Model.BasicMeshes
/-!
# Model of `calculus/plot_function.py`, `piecewise_polynomial/plot_piecewise_polynomial.py` and `plot_continuous_piecewise_polynomial.py`

The commands are those of `Model/Plot`. Points are lists of numbers, numbers are elements of a field (no rounding). The functions that are plotted are total. The assertions
on the dimensions of a piecewise polynomial are part of the types: `ev i x` is `p.evaluate_on_simplex(i, x)` for a scalar valued `p`. If the computation raises, the
figure that may have been created is not part of the result.
-/

namespace Verif.Plot
open Verif Verif.Mesh

section
variable {K : Type} [Field K]

/-- `np.linspace(a, b, num)`. -/
def linspace (a b : K) (num : Nat) : List K := (List.range num).map fun (i : Nat) => a + (i : K) * ((b - a) / ((num : K) - 1))

/-- `vertices[i] = y` for a row of length `n` of an array: numpy repeats a sequence of length one, and refuses other lengths. -/
def storeRow (n : Nat) (y : List K) : Py (List K) :=
  if y.length = n then return y
  else if y.length = 1 then return List.replicate n (y.getD 0 0)
  else throw .value

/-- `evaluate_curve` (plot_function.py 28-42): the number of columns and the array. -/
def evaluateCurve (gamma : K → List K) (t : List K) : Py (Nat × List (List K)) := do
  let t0 ← pyGet t 0
  let n := (gamma t0).length
  let vertices ← t.mapM fun x => storeRow n (gamma x)
  return (n, vertices)

/-- `plot_curve` of a parametric curve (plot_function.py 45-62); `num` is 50 by default. -/
def plotParametric (gamma : K → List K) (a b : K) (num : Nat) (style : Option String) (fig : Option Nat) (s : St (List K)) : Py (St (List K)) := do
  let t := linspace a b num
  let (m, vertices) ← evaluateCurve gamma t
  plotCurve m vertices style fig s

/-- `plot_function` (plot_function.py 12-25). -/
def plotFunction (f : K → K) (a b : K) (num : Nat) (style : Option String) (fig : Option Nat) (s : St (List K)) : Py (St (List K)) :=
  plotParametric (fun x => [x, f x]) a b num style fig s

/-- The rows of an array that has been written completely (see `C49_triangle` and `C49_general_triangle`). -/
def written {α : Type} (rows : List (Option α)) : List α := rows.filterMap id

/-- A row of an array of triangles. -/
def toTriangle (row : List Nat) : Fin 3 → Int := fun j => (row.getD j.val 0 : Int)

/-- Append the value of the function to a point in the plane (plot_function.py 83-86, plot_piecewise_polynomial.py 84-87). -/
def withValue (f : K → K → K) (p : List K) : List K := [p.getD 0 0, p.getD 1 0, f (p.getD 0 0) (p.getD 1 0)]

/-- `plot_bivariate_function` (plot_function.py 65-87) for vertices in the plane; `n` is `edge_resolution`, 50 by default. -/
def plotBivariate (f : K → K → K) (v0 v1 v2 : List K) (n : Nat) (color : Option String) (fig : Option Nat) (s : St (List K)) : Py (St (List K)) := do
  let triangles ← triangleTriangulation n
  let vertices ← generalTriangleVertices v0 v1 v2 n
  return plotMesh 3 ((written triangles).map toTriangle) ((written vertices).map (withValue f)) color fig s

/-- The points drawn for one line of the mesh (plot_piecewise_polynomial.py 47-51). -/
def linePoints (ev : K → K) (v0 v1 : K) (num : Nat) : List (List K) :=
  (linspace 0 1 num).map fun t =>
    let x := (1 - t) * v0 + t * v1
    [x, ev x]

/-- The loop of `plot_univariate_piecewise_polynomial` (plot_piecewise_polynomial.py 38-53) from line number `i` on. -/
def plotLines (verts : List K) (ev : Nat → K → K) (num : Nat) (f : Nat) : Nat → List (Int × Int) → St (List K) → Py (St (List K))
  | _, [], s => return s
  | i, line :: lines, s => do
    let v0 ← pyGet verts line.1
    let v1 ← pyGet verts line.2
    let s := plotPlaneCurve (linePoints (ev i) v0 v1 num) none (some f) s
    plotLines verts ev num f (i + 1) lines s

/-- `plot_univariate_piecewise_polynomial` (plot_piecewise_polynomial.py 16-56). The color, by default random, is left out. -/
def plotUnivariatePiecewise (lines : List (Int × Int)) (verts : List K) (ev : Nat → K → K) (num : Nat) (fig : Option Nat) (s : St (List K)) :
    Py (St (List K)) := do
  let (f, s) := figureOf fig s
  let s ← plotLines verts ev num f 0 lines s
  return finish fig s

/-- The loop of `plot_bivariate_piecewise_polynomial` (plot_piecewise_polynomial.py 81-89) from triangle number `i` on. `c` is the random color, `color` the argument of the
caller: passing both is a TypeError. -/
def plotTriangles (verts : List (List K)) (ev : Nat → K → K → K) (T : List (List Nat)) (n : Nat) (c : String) (color : Option String) (f : Nat) :
    Nat → List (Int × Int × Int) → St (List K) → Py (St (List K))
  | _, [], s => return s
  | i, tri :: tris, s => do
    let v0 ← pyGet verts tri.1
    let v1 ← pyGet verts tri.2.1
    let v2 ← pyGet verts tri.2.2
    let vertices ← generalTriangleVertices v0 v1 v2 n
    if color.isSome then throw .type
    let s := mesh3d (T.map toTriangle) ((written vertices).map (withValue (ev i))) (some c) (some f) s
    plotTriangles verts ev T n c color f (i + 1) tris s

/-- `plot_bivariate_piecewise_polynomial` (plot_piecewise_polynomial.py 59-92). -/
def plotBivariatePiecewise (tris : List (Int × Int × Int)) (verts : List (List K)) (ev : Nat → K → K → K) (n : Nat) (c : String) (color : Option String)
    (fig : Option Nat) (s : St (List K)) : Py (St (List K)) := do
  let (f, s) := figureOf fig s
  let triangles ← triangleTriangulation n
  let s ← plotTriangles verts ev (written triangles) n c color f 0 tris s
  return finish fig s

/-- `plot_bivariate_continuous_piecewise_polynomial` (plot_continuous_piecewise_polynomial.py 13-42); `p x` is the value at the point `x`. -/
def plotBivariateContinuous (tris : List (List Nat)) (verts : List (List K)) (p : K → K → K) (n : Nat) (color : Option String) (fig : Option Nat) (s : St (List K)) :
    Py (St (List K)) := do
  let (f, s) := figureOf fig s
  let triangles ← triangleMeshTriangulation tris n
  let vertices ← triangleMeshVertices tris verts n
  let s := mesh3d (triangles.map toTriangle) (vertices.map (withValue p)) color (some f) s
  return finish fig s

end

end Verif.Plot
