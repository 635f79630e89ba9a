import Verif.Py
import Mathlib.Data.Fin.Basic
/-!
# Model of `visualization/plot_lines.py` and `visualization/plot_triangles.py`

The functions issue commands to matplotlib. The model records these commands: creation of a figure, drawing commands with the figure they draw in, `plt.show()`.
pyplot has a current figure: `plt.figure()` creates a figure and makes it current; `plt.plot`, `plt.tripcolor` and `plt.triplot` draw in the current figure (and create one
if there is none), whereas `fig.gca(...)` gives axes of the figure `fig`. Simplifications: what matplotlib does with the commands is not modelled; of the optional
arguments only `fig` and `color` are modelled, all others are passed on unchanged; figures that the user closes while `plt.show()` waits stay in the model.
-/

namespace Verif.Plot
open Verif

/-- The commands. `P` is the type of points. -/
inductive Event (P : Type) where
  /-- `plt.figure()` creates figure `f` -/
  | newFigure (f : Nat)
  /-- a polygonal line in figure `f`, with the format `style` if there is one -/
  | line (f : Nat) (style : Option String) (points : List P)
  /-- `plt.tripcolor` in figure `f`, with the arguments `figure` and `color` -/
  | tripcolor (f : Nat) (figure : Nat) (color : Option String) (triangles : List (Fin 3 → Int)) (points : List P)
  /-- `plt.triplot` in figure `f`, with the argument `figure` -/
  | triplot (f : Nat) (figure : Nat) (style : String) (triangles : List (Fin 3 → Int)) (points : List P)
  /-- `ax.plot_trisurf` in figure `f` -/
  | trisurf (f : Nat) (color : Option String) (triangles : List (Fin 3 → Int)) (points : List P)
  /-- `plt.show()` -/
  | show

/-- The state of pyplot: the current figure, the number of the next figure and the commands so far. -/
structure St (P : Type) where
  cur : Option Nat
  next : Nat
  log : List (Event P)

variable {P : Type}

/-- Issue a command. -/
def St.emit (s : St P) (e : Event P) : St P := { s with log := s.log ++ [e] }

/-- `plt.figure()`. -/
def newFig (s : St P) : Nat × St P := (s.next, ⟨some s.next, s.next + 1, s.log ++ [.newFigure s.next]⟩)

/-- The figure in which `plt.plot` and the like draw. -/
def current (s : St P) : Nat × St P :=
  match s.cur with
  | some f => (f, s)
  | none => newFig s

/-- `fig = kwargs.pop("fig", None)`, `if fig is None: fig = plt.figure()` (e.g. plot_lines.py 35-38, plot_triangles.py 36-39). -/
def figureOf (fig : Option Nat) (s : St P) : Nat × St P :=
  match fig with
  | some f => (f, s)
  | none => newFig s

/-- `unique = (fig is None)`, `if unique: plt.show()` (e.g. plot_lines.py 36, 41-42). -/
def finish (fig : Option Nat) (s : St P) : St P := if fig.isNone then s.emit .show else s

/-- `plot_space_curve` (plot_lines.py 23-42); `style` is the first of the further arguments. -/
def plotSpaceCurve (pts : List P) (style : Option String) (fig : Option Nat) (s : St P) : St P :=
  let (f, s) := figureOf fig s
  let s := s.emit (.line f style pts)
  finish fig s

/-- `plot_plane_curve` (plot_lines.py 45-62). -/
def plotPlaneCurve (pts : List P) (style : Option String) (fig : Option Nat) (s : St P) : St P :=
  let (_, s) := figureOf fig s
  let (f, s) := current s
  let s := s.emit (.line f style pts)
  finish fig s

/-- `plot_curve` (plot_lines.py 7-20); `m` is `vertices.shape[1]`. -/
def plotCurve (m : Nat) (pts : List P) (style : Option String) (fig : Option Nat) (s : St P) : Py (St P) :=
  if m = 2 then return plotPlaneCurve pts style fig s
  else if m = 3 then return plotSpaceCurve pts style fig s
  else throw .value

/-- `plot_triangle_mesh_wireframe_2d` (plot_triangles.py 85-105). -/
def wireframe2d (tris : List (Fin 3 → Int)) (pts : List P) (color : Option String) (fig : Option Nat) (s : St P) : St P :=
  let color := color.getD "k"
  let (g, s) := figureOf fig s
  let (f, s) := current s
  let s := s.emit (.triplot f g (color ++ "-") tris pts)
  finish fig s

/-- `plot_triangle_mesh_2d` (plot_triangles.py 26-47). -/
def mesh2d (tris : List (Fin 3 → Int)) (pts : List P) (color : Option String) (fig : Option Nat) (s : St P) : St P :=
  let (g, s) := figureOf fig s
  let (f, s) := current s
  let s := s.emit (.tripcolor f g color tris pts)
  let s := wireframe2d tris pts color (some g) s
  finish fig s

/-- `plot_triangle_mesh_3d` (plot_triangles.py 50-67) for vertices in space. -/
def mesh3d (tris : List (Fin 3 → Int)) (pts : List P) (color : Option String) (fig : Option Nat) (s : St P) : St P :=
  let (f, s) := figureOf fig s
  let s := s.emit (.trisurf f color tris pts)
  finish fig s

/-- One turn of the inner loop of `plot_triangle_mesh_wireframe_3d` (plot_triangles.py 126-133). -/
def drawEdge (pts : List P) (style : String) (f : Nat) (t : Fin 3 → Int) (s : St P) (j : Fin 3) : Py (St P) := do
  let p0 ← pyGet pts (t j)
  let p1 ← pyGet pts (t (j + 1))
  return plotSpaceCurve [p0, p1] (some style) (some f) s

/-- `plot_triangle_mesh_wireframe_3d` (plot_triangles.py 108-135) for vertices in space. -/
def wireframe3d (tris : List (Fin 3 → Int)) (pts : List P) (color : Option String) (fig : Option Nat) (s : St P) : Py (St P) := do
  let color := color.getD "k"
  let (f, s) := figureOf fig s
  let s ← tris.foldlM (fun s t => [0, 1, 2].foldlM (drawEdge pts (color ++ "-") f t) s) s
  return finish fig s

/-- `plot_triangle_mesh` (plot_triangles.py 10-23) for vertices in the plane (`m = 2`) or in space (`m = 3`). -/
def plotMesh (m : Nat) (tris : List (Fin 3 → Int)) (pts : List P) (color : Option String) (fig : Option Nat) (s : St P) : St P :=
  if m = 2 then mesh2d tris pts color fig s else mesh3d tris pts color fig s

/-- `plot_triangle_mesh_wireframe` (plot_triangles.py 70-82) for vertices in the plane (`m = 2`) or in space (`m = 3`). -/
def plotWireframe (m : Nat) (tris : List (Fin 3 → Int)) (pts : List P) (color : Option String) (fig : Option Nat) (s : St P) : Py (St P) :=
  if m = 2 then return wireframe2d tris pts color fig s else wireframe3d tris pts color fig s

end Verif.Plot
