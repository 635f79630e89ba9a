import Verif.Model.Plot
import Mathlib.Data.List.Basic
import Mathlib.Tactic.IntervalCases
import Mathlib.Data.Fin.VecNotation
/-!
# C106: what the plot functions draw, and where
-/

namespace Verif.Plot
open Verif

variable {P : Type}

/-! ## Specification -/

/-- The figure used by a call in the state `s`: the one passed by the caller, otherwise a new one. -/
def target (fig : Option Nat) (s : St P) : Nat := fig.getD s.next

/-- The commands of a call that draws `body`: without a figure of the caller a new figure comes first and `plt.show()` comes last,
with a figure of the caller there is neither. -/
def Wrapped (fig : Option Nat) (s : St P) (body : List (Event P)) : List (Event P) :=
  match fig with
  | some _ => body
  | none => .newFigure s.next :: body ++ [.show]

/-- pyplot's current figure is the figure to be used: there is no figure of the caller, or it is the current one. -/
def IsCurrent (fig : Option Nat) (s : St P) : Prop := ∀ f, fig = some f → s.cur = some f

/-- The three edges of a triangle as segments in figure `f`. -/
def edges (pts : Nat → P) (style : String) (f : Nat) (t : Fin 3 → Nat) : List (Event P) :=
  [.line f (some style) [pts (t 0), pts (t 1)], .line f (some style) [pts (t 1), pts (t 2)], .line f (some style) [pts (t 2), pts (t 0)]]

/-! ## Curves -/

/-- **C106** `plot_space_curve` draws the curve in the figure of the caller, or in a new figure, which it shows. -/
theorem C106_space_curve (pts : List P) (style : Option String) (fig : Option Nat) (s : St P) :
    (plotSpaceCurve pts style fig s).log = s.log ++ Wrapped fig s [.line (target fig s) style pts] := by
  cases fig <;> simp [plotSpaceCurve, figureOf, newFig, finish, St.emit, Wrapped, target]

/-- **C106** `plot_plane_curve` does so if the figure of the caller is pyplot's current figure. -/
theorem C106_plane_curve (pts : List P) (style : Option String) (fig : Option Nat) (s : St P) (hc : IsCurrent fig s) :
    (plotPlaneCurve pts style fig s).log = s.log ++ Wrapped fig s [.line (target fig s) style pts] := by
  cases fig with
  | none => simp [plotPlaneCurve, figureOf, current, newFig, finish, St.emit, Wrapped, target]
  | some f => simp [plotPlaneCurve, figureOf, current, hc f rfl, finish, St.emit, Wrapped, target]

/-- **C106** Otherwise `plot_plane_curve` draws in the current figure `g` instead of the figure `f` of the caller, who finds `f` empty; if there is no current figure,
it even creates one, and does not show it. -/
theorem C106_plane_curve_other_figure (pts : List P) (style : Option String) (f : Nat) (s : St P) :
    (∀ g, s.cur = some g → (plotPlaneCurve pts style (some f) s).log = s.log ++ [.line g style pts]) ∧
    (s.cur = none → (plotPlaneCurve pts style (some f) s).log = s.log ++ [.newFigure s.next, .line s.next style pts]) := by
  refine ⟨fun g hg => ?_, fun hg => ?_⟩ <;> simp [plotPlaneCurve, figureOf, current, newFig, hg, finish, St.emit]

/-- **C106** `plot_curve` chooses the function by the dimension and raises a ValueError, without any command, if it is neither two nor three. -/
theorem C106_curve (m : Nat) (pts : List P) (style : Option String) (fig : Option Nat) (s : St P) :
    (m = 2 ∨ m = 3 → IsCurrent fig s → ∃ s', plotCurve m pts style fig s = .ok s' ∧ s'.log = s.log ++ Wrapped fig s [.line (target fig s) style pts]) ∧
    (m ≠ 2 → m ≠ 3 → plotCurve m pts style fig s = .error .value) := by
  refine ⟨?_, fun h2 h3 => by simp [plotCurve, h2, h3]; rfl⟩
  rintro (rfl | rfl) hc
  · exact ⟨_, rfl, C106_plane_curve pts style fig s hc⟩
  · exact ⟨_, rfl, C106_space_curve pts style fig s⟩

/-! ## Triangle meshes -/

/-- **C106** `plot_triangle_mesh_wireframe_2d`: one `triplot` of the mesh. -/
theorem C106_wireframe_2d (tris : List (Fin 3 → Int)) (pts : List P) (color : Option String) (fig : Option Nat) (s : St P) (hc : IsCurrent fig s) :
    (wireframe2d tris pts color fig s).log = s.log ++ Wrapped fig s [.triplot (target fig s) (target fig s) (color.getD "k" ++ "-") tris pts] := by
  cases fig with
  | none => simp [wireframe2d, figureOf, current, newFig, finish, St.emit, Wrapped, target]
  | some f => simp [wireframe2d, figureOf, current, hc f rfl, finish, St.emit, Wrapped, target]

/-- **C106** `plot_triangle_mesh` draws the triangles, in the plane together with the wireframe, in one figure, which is shown exactly once, and only if it is new. -/
theorem C106_mesh (tris : List (Fin 3 → Int)) (pts : List P) (color : Option String) (fig : Option Nat) (s : St P) :
    (IsCurrent fig s → (plotMesh 2 tris pts color fig s).log = s.log ++ Wrapped fig s
      [.tripcolor (target fig s) (target fig s) color tris pts, .triplot (target fig s) (target fig s) (color.getD "k" ++ "-") tris pts]) ∧
    (plotMesh 3 tris pts color fig s).log = s.log ++ Wrapped fig s [.trisurf (target fig s) color tris pts] := by
  refine ⟨fun hc => ?_, ?_⟩
  · cases fig with
    | none => simp [plotMesh, mesh2d, wireframe2d, figureOf, current, newFig, finish, St.emit, Wrapped, target]
    | some f => simp [plotMesh, mesh2d, wireframe2d, figureOf, current, hc f rfl, finish, St.emit, Wrapped, target]
  · cases fig <;> simp [plotMesh, mesh3d, figureOf, newFig, finish, St.emit, Wrapped, target]

theorem pyGet_nat (pts : List P) (i : Nat) (p : P) (h : pts[i]? = some p) : pyGet pts (i : Int) = .ok p := by
  simp [pyGet, h]

theorem drawEdge_ok (pts : List P) (v : Nat → P) (style : String) (f : Nat) (t : Fin 3 → Nat) (s : St P) (j : Fin 3)
    (hv : ∀ j, pts[t j]? = some (v (t j))) :
    drawEdge pts style f (fun j => (t j : Int)) s j = .ok (s.emit (.line f (some style) [v (t j), v (t (j + 1))])) := by
  unfold drawEdge
  rw [pyGet_nat pts _ _ (hv j), Py.bind_ok, pyGet_nat pts _ _ (hv (j + 1)), Py.bind_ok]
  rfl

theorem edges_loop (pts : List P) (v : Nat → P) (style : String) (f : Nat) (tris : List (Fin 3 → Nat)) : ∀ s : St P,
    (∀ t ∈ tris, ∀ j, pts[t j]? = some (v (t j))) →
    (tris.map fun t j => (t j : Int)).foldlM (fun s t => [0, 1, 2].foldlM (drawEdge pts style f t) s) s =
      (.ok { s with log := s.log ++ tris.flatMap (edges v style f) } : Py (St P)) := by
  induction tris with
  | nil => intro s _; simp
  | cons t tris ih =>
    intro s h
    have ht := h t (by simp)
    have h3 : [0, 1, 2].foldlM (drawEdge pts style f fun j => (t j : Int)) s =
        (.ok { s with log := s.log ++ edges v style f t } : Py (St P)) := by
      simp only [List.foldlM_cons, List.foldlM_nil, drawEdge_ok pts v style f t _ _ ht, Py.bind_ok, Py.pure_eq]
      simp [St.emit, edges]
    rw [List.map_cons, List.foldlM_cons, h3, Py.bind_ok, ih _ fun t ht => h t (by simp [ht])]
    simp

/-- **C106** `plot_triangle_mesh_wireframe` in space draws, for every triangle, its three edges as closed boundary, each once and in order, all in one figure, which is
shown exactly once, and only if it is new. `v i` is the `i`-th vertex. -/
theorem C106_wireframe_3d (tris : List (Fin 3 → Nat)) (pts : List P) (v : Nat → P) (hv : ∀ i, i < pts.length → pts[i]? = some (v i))
    (ht : ∀ t ∈ tris, ∀ j, t j < pts.length) (color : Option String) (fig : Option Nat) (s : St P) :
    ∃ s', plotWireframe 3 (tris.map fun t j => (t j : Int)) pts color fig s = .ok s' ∧
      s'.log = s.log ++ Wrapped fig s (tris.flatMap (edges v (color.getD "k" ++ "-") (target fig s))) := by
  have h := fun f => edges_loop pts v (color.getD "k" ++ "-") f tris
  have h' := h (target fig s) (figureOf fig s).2 fun t htt j => hv _ (ht t htt j)
  refine ⟨finish fig { (figureOf fig s).2 with log := (figureOf fig s).2.log ++ tris.flatMap (edges v (color.getD "k" ++ "-") (target fig s)) }, ?_, ?_⟩
  · have hf : (figureOf fig s).1 = target fig s := by cases fig <;> rfl
    simp only [plotWireframe, wireframe3d]
    rw [if_neg (by decide), hf, h', Py.bind_ok]
    rfl
  · cases fig <;> simp [finish, figureOf, newFig, St.emit, Wrapped, target]

/-- **C106** In the plane `plot_triangle_mesh_wireframe` is `plot_triangle_mesh_wireframe_2d`. -/
theorem C106_wireframe_plane (tris : List (Fin 3 → Int)) (pts : List P) (color : Option String) (fig : Option Nat) (s : St P) (hc : IsCurrent fig s) :
    ∃ s', plotWireframe 2 tris pts color fig s = .ok s' ∧
      s'.log = s.log ++ Wrapped fig s [.triplot (target fig s) (target fig s) (color.getD "k" ++ "-") tris pts] :=
  ⟨_, rfl, C106_wireframe_2d tris pts color fig s hc⟩

/-- **C106** A vertex index beyond the end of the array raises an IndexError. -/
theorem C106_wireframe_index (t : Fin 3 → Nat) (tris : List (Fin 3 → Int)) (pts : List P) (h : pts.length ≤ t 0) (color : Option String) (fig : Option Nat) (s : St P) :
    plotWireframe 3 ((fun j => (t j : Int)) :: tris) pts color fig s = .error .index := by
  have h0 : pyGet pts (t 0 : Int) = .error .index := by simp [pyGet, h]
  simp only [plotWireframe, wireframe3d]
  rw [if_neg (by decide)]
  simp only [List.foldlM_cons, drawEdge, h0, Py.bind_error]

/-! ## Examples -/

/-- No figure of the caller; a figure of the caller that is current; one that is not. -/
example : IsCurrent none (⟨some 0, 1, []⟩ : St Nat) ∧ IsCurrent (some 0) (⟨some 0, 1, []⟩ : St Nat) ∧ ¬ IsCurrent (some 0) (⟨some 1, 2, []⟩ : St Nat) := by
  refine ⟨by simp [IsCurrent], by simp [IsCurrent], by simp [IsCurrent]⟩

/-- Two figures, the second is current: the curve the caller wants in figure 0 appears in figure 1. -/
example : (plotPlaneCurve [10, 20] none (some 0) ⟨some 1, 2, []⟩).log = [.line 1 none [10, 20]] :=
  (C106_plane_curve_other_figure [10, 20] none 0 ⟨some 1, 2, []⟩).1 1 rfl

/-- Two triangles with four vertices. -/
example : (∀ i, i < [10, 20, 30, 40].length → [10, 20, 30, 40][i]? = some (10 * (i + 1))) ∧ ∀ t ∈ [(![0, 1, 2] : Fin 3 → Nat), ![0, 2, 3]], ∀ j, t j < 4 := by
  refine ⟨fun i hi => ?_, by decide⟩
  have : i < 4 := hi
  interval_cases i <;> rfl

end Verif.Plot
