import Verif.Model.PlotFunction
import Verif.Props.Plot
import Verif.Props.BasicMeshes
/-!
# C107: plots of functions, curves and piecewise polynomials show their graphs
-/

namespace Verif.Plot
open Verif Verif.Mesh Verif.Spec

variable {K : Type} [Field K] [LinearOrder K] [IsStrictOrderedRing K]

/-! ## Specification -/

/-- The `i`-th of `num` equally spaced numbers from `a` to `b`. -/
def sample (a b : K) (num i : Nat) : K := a + (b - a) * (i / (num - 1))

/-- **C107** The samples run from `a` to `b`, and all of them lie in between. -/
theorem C107_samples (a b : K) (num : Nat) (hn : 2 ≤ num) :
    sample a b num 0 = a ∧ sample a b num (num - 1) = b ∧ (a ≤ b → ∀ i < num, a ≤ sample a b num i ∧ sample a b num i ≤ b) := by
  have h1 : (0 : K) < (num : K) - 1 := by
    have : (2 : K) ≤ (num : K) := by exact_mod_cast hn
    linarith
  refine ⟨by simp [sample], ?_, fun hab i hi => ?_⟩
  · unfold sample
    rw [Nat.cast_sub (by omega), Nat.cast_one, div_self h1.ne']
    ring
  · have hi' : (i : K) ≤ (num : K) - 1 := by
      have : ((i + 1 : ℕ) : K) ≤ (num : K) := by exact_mod_cast hi
      push_cast at this
      linarith
    have h0 : (0 : K) ≤ (i : K) / ((num : K) - 1) := div_nonneg (Nat.cast_nonneg i) h1.le
    have h2 : (i : K) / ((num : K) - 1) ≤ 1 := (div_le_one h1).2 hi'
    have hba : 0 ≤ b - a := sub_nonneg.2 hab
    unfold sample
    constructor
    · nlinarith [mul_nonneg hba h0]
    · nlinarith [mul_le_of_le_one_right hba h2]

theorem linspace_eq (a b : K) (num : Nat) : linspace a b num = (List.range num).map (sample a b num) := by
  unfold linspace sample
  refine List.map_congr_left fun i _ => ?_
  ring

/-! ## Functions and curves -/

theorem evaluateCurve_ok (gamma : K → List K) (m : Nat) (hg : ∀ x, (gamma x).length = m) (a b : K) (num : Nat) (hn : 1 ≤ num) :
    evaluateCurve gamma (linspace a b num) = .ok (m, (List.range num).map fun i => gamma (sample a b num i)) := by
  rw [linspace_eq]
  have h0 : pyGet ((List.range num).map (sample a b num)) 0 = .ok (sample a b num 0) := by
    simp [pyGet, List.getElem?_map, List.getElem?_range (show 0 < num by omega)]
  unfold evaluateCurve
  have hm : ((List.range num).map (sample a b num)).mapM (fun x => storeRow m (gamma x)) = .ok (((List.range num).map (sample a b num)).map gamma) :=
    mapM_eq_ok gamma _ fun x _ => by simp [storeRow, hg x]
  simp only [h0, Py.bind_ok, hg, hm, List.map_map]
  rfl

/-- **C107** `plot_curve` of a parametric curve in the plane or in space draws the line through `num` equally spaced points of the curve, from the start to the end. -/
theorem C107_parametric (gamma : K → List K) (m : Nat) (hm : m = 2 ∨ m = 3) (hg : ∀ x, (gamma x).length = m) (a b : K) (num : Nat) (hn : 1 ≤ num)
    (style : Option String) (fig : Option Nat) (s : St (List K)) (hc : IsCurrent fig s) :
    ∃ s', plotParametric gamma a b num style fig s = .ok s' ∧
      s'.log = s.log ++ Wrapped fig s [.line (target fig s) style ((List.range num).map fun i => gamma (sample a b num i))] := by
  obtain ⟨s', h1, h2⟩ := (C106_curve m ((List.range num).map fun i => gamma (sample a b num i)) style fig s).1 hm hc
  refine ⟨s', ?_, h2⟩
  unfold plotParametric
  simp only [evaluateCurve_ok gamma m hg a b num hn, Py.bind_ok]
  exact h1

/-- **C107** Curves in other dimensions raise a ValueError, and zero points an IndexError. -/
theorem C107_parametric_error (gamma : K → List K) (m : Nat) (hg : ∀ x, (gamma x).length = m) (a b : K) (style : Option String) (fig : Option Nat) (s : St (List K)) :
    (∀ num, 1 ≤ num → m ≠ 2 → m ≠ 3 → plotParametric gamma a b num style fig s = .error .value) ∧
    plotParametric gamma a b 0 style fig s = .error .index := by
  refine ⟨fun num hn h2 h3 => ?_, rfl⟩
  unfold plotParametric
  simp only [evaluateCurve_ok gamma m hg a b num hn, Py.bind_ok]
  exact (C106_curve m _ style fig s).2 h2 h3

/-- **C107** `plot_function` draws the line through the points `(x, f(x))` for `num` equally spaced `x` from the beginning to the end of the range. -/
theorem C107_function (f : K → K) (a b : K) (num : Nat) (hn : 1 ≤ num) (style : Option String) (fig : Option Nat) (s : St (List K)) (hc : IsCurrent fig s) :
    ∃ s', plotFunction f a b num style fig s = .ok s' ∧
      s'.log = s.log ++ Wrapped fig s [.line (target fig s) style ((List.range num).map fun i => [sample a b num i, f (sample a b num i)])] :=
  C107_parametric (fun x => [x, f x]) 2 (.inl rfl) (fun _ => rfl) a b num hn style fig s hc

theorem written_some {α : Type} (l : List α) : written (l.map some) = l := by
  simp [written, List.filterMap_map]

/-- **C107** `plot_bivariate_function` draws a surface over a triangulation with vertices `V` and triangles `T` that tiles the triangle; every vertex of the surface is a point
`(x, y, f(x, y))` over a vertex of the triangulation. -/
theorem C107_bivariate (f : K → K → K) (v0 v1 v2 : List K) (h0 : v0.length = 2) (h1 : v1.length = 2) (h2 : v2.length = 2) (hnc : NotCollinear 2 v0 v1 v2)
    (n : Nat) (hn : 2 ≤ n) (color : Option String) (fig : Option Nat) (s : St (List K)) :
    ∃ s' T V, plotBivariate f v0 v1 v2 n color fig s = .ok s' ∧ V.length = n * (n + 1) / 2 ∧ Tiles V T {x | InCell [v0, v1, v2] [0, 1, 2] x} ∧
      s'.log = s.log ++ Wrapped fig s [.trisurf (target fig s) color (T.map toTriangle) (V.map fun p => [p.getD 0 0, p.getD 1 0, f (p.getD 0 0) (p.getD 1 0)])] := by
  obtain ⟨T, V, hT, hV, hl, ht, -⟩ := C49_general_triangle n hn 2 v0 v1 v2 h0 h1 h2 hnc
  refine ⟨_, T, V, ?_, hl, ht, (C106_mesh _ _ color fig s).2⟩
  unfold plotBivariate
  rw [hT, Py.bind_ok, hV, Py.bind_ok, written_some, written_some]
  rfl

/-- **C107** The resolution one raises a ZeroDivisionError. -/
theorem C107_bivariate_error (f : K → K → K) (v0 v1 v2 : List K) (color : Option String) (fig : Option Nat) (s : St (List K)) :
    plotBivariate f v0 v1 v2 1 color fig s = .error .zeroDivision := by
  obtain ⟨T, hT, -⟩ := C49_triangle 1 le_rfl
  unfold plotBivariate
  rw [hT, Py.bind_ok]
  rfl

/-! ## Piecewise polynomials -/

theorem plotLines_ok (verts : List K) (v : Nat → K) (ev : Nat → K → K) (num f : Nat) (lines : List (Nat × Nat)) : ∀ (i : Nat) (s : St (List K)), s.cur = some f →
    (∀ l ∈ lines, verts[l.1]? = some (v l.1) ∧ verts[l.2]? = some (v l.2)) →
    plotLines verts ev num f i (lines.map fun l => ((l.1 : Int), (l.2 : Int))) s =
      .ok { s with log := s.log ++ (lines.zipIdx i).map fun l => .line f none (linePoints (ev l.2) (v l.1.1) (v l.1.2) num) } := by
  induction lines with
  | nil => intro i s _ _; simp [plotLines]
  | cons l lines ih =>
    intro i s hs h
    obtain ⟨h1, h2⟩ := h l (by simp)
    rw [List.map_cons, plotLines, pyGet_nat verts _ _ h1, Py.bind_ok, pyGet_nat verts _ _ h2, Py.bind_ok]
    have hp : plotPlaneCurve (linePoints (ev i) (v l.1) (v l.2) num) none (some f) s =
        { s with log := s.log ++ [.line f none (linePoints (ev i) (v l.1) (v l.2) num)] } := by
      simp [plotPlaneCurve, figureOf, current, hs, finish, St.emit]
    simp only [hp]
    have ih' := ih (i + 1) { s with log := s.log ++ [.line f none (linePoints (ev i) (v l.1) (v l.2) num)] } hs fun l hl => h l (by simp [hl])
    refine ih'.trans ?_
    simp [List.zipIdx_cons]

theorem linePoints_eq (ev : K → K) (v0 v1 : K) (num : Nat) :
    linePoints ev v0 v1 num = (List.range num).map fun i => [sample v0 v1 num i, ev (sample v0 v1 num i)] := by
  unfold linePoints
  rw [linspace_eq, List.map_map]
  refine List.map_congr_left fun i _ => ?_
  have : (1 - sample 0 1 num i) * v0 + sample 0 1 num i * v1 = sample v0 v1 num i := by unfold sample; ring
  simp [this]

/-- **C107** `plot_univariate_piecewise_polynomial` draws one line for every interval of the mesh: the points `(x, p(x))` for equally spaced `x` from the first to the second
vertex of the interval, where `p(x)` is the value of the polynomial of this interval. All lines are in one figure. -/
theorem C107_univariate_piecewise (lines : List (Nat × Nat)) (verts : List K) (v : Nat → K) (hv : ∀ i, i < verts.length → verts[i]? = some (v i))
    (hl : ∀ l ∈ lines, l.1 < verts.length ∧ l.2 < verts.length) (ev : Nat → K → K) (num : Nat) (fig : Option Nat) (s : St (List K)) (hc : IsCurrent fig s) :
    ∃ s', plotUnivariatePiecewise (lines.map fun l => ((l.1 : Int), (l.2 : Int))) verts ev num fig s = .ok s' ∧
      s'.log = s.log ++ Wrapped fig s (lines.zipIdx.map fun l => .line (target fig s) none
        ((List.range num).map fun i => [sample (v l.1.1) (v l.1.2) num i, ev l.2 (sample (v l.1.1) (v l.1.2) num i)])) := by
  have hcur : (figureOf fig s).2.cur = some (target fig s) := by
    cases fig with
    | none => rfl
    | some f => exact hc f rfl
  have hf : (figureOf fig s).1 = target fig s := by cases fig <;> rfl
  have h := plotLines_ok verts v ev num (target fig s) lines 0 (figureOf fig s).2 hcur fun l hll => ⟨hv _ (hl l hll).1, hv _ (hl l hll).2⟩
  simp only [linePoints_eq] at h
  refine ⟨finish fig ⟨(figureOf fig s).2.cur, (figureOf fig s).2.next, (figureOf fig s).2.log ++ lines.zipIdx.map fun l => Event.line (target fig s) none
        ((List.range num).map fun i => [sample (v l.1.1) (v l.1.2) num i, ev l.2 (sample (v l.1.1) (v l.1.2) num i)])⟩, ?_, ?_⟩
  · unfold plotUnivariatePiecewise
    simp only [hf, h, Py.bind_ok]
    rfl
  · cases fig <;> simp [finish, figureOf, newFig, St.emit, Wrapped, target]

/-- The vertices of the triangulation of triangle `t`. -/
def meshRows (v : Nat → List K) (n : Nat) (t : Nat × Nat × Nat) : List (List K) := generalTriangleVertexRows (v t.1) (v t.2.1) (v t.2.2) n

theorem plotTriangles_ok (verts : List (List K)) (v : Nat → List K) (ev : Nat → K → K → K) (T : List (List Nat)) (n : Nat) (c : String) (f : Nat)
    (tris : List (Nat × Nat × Nat)) : ∀ (i : Nat) (s : St (List K)),
    (∀ t ∈ tris, verts[t.1]? = some (v t.1) ∧ verts[t.2.1]? = some (v t.2.1) ∧ verts[t.2.2]? = some (v t.2.2) ∧
      generalTriangleVertices (v t.1) (v t.2.1) (v t.2.2) n = .ok ((meshRows v n t).map some)) →
    plotTriangles verts ev T n c none f i (tris.map fun t => ((t.1 : Int), (t.2.1 : Int), (t.2.2 : Int))) s =
      .ok { s with log := s.log ++ (tris.zipIdx i).map fun t => .trisurf f (some c) (T.map toTriangle) ((meshRows v n t.1).map (withValue (ev t.2))) } := by
  induction tris with
  | nil => intro i s _; simp [plotTriangles]
  | cons t tris ih =>
    intro i s h
    obtain ⟨h1, h2, h3, h4⟩ := h t (by simp)
    rw [List.map_cons, plotTriangles, pyGet_nat verts _ _ h1, Py.bind_ok, pyGet_nat verts _ _ h2, Py.bind_ok, pyGet_nat verts _ _ h3, Py.bind_ok, h4, Py.bind_ok,
      written_some]
    have hp : mesh3d (T.map toTriangle) ((meshRows v n t).map (withValue (ev i))) (some c) (some f) s =
        { s with log := s.log ++ [.trisurf f (some c) (T.map toTriangle) ((meshRows v n t).map (withValue (ev i)))] } := by
      simp [mesh3d, figureOf, finish, St.emit]
    simp only [hp, Option.isSome_none, Bool.false_eq_true, if_false]
    rw [ih (i + 1) _ fun t ht => h t (by simp [ht])]
    simp [List.zipIdx_cons]

/-- **C107** `plot_bivariate_piecewise_polynomial` draws one surface for every triangle of the mesh: over a triangulation with the triangles `T` and the vertices `V t` that tiles the
triangle `t`, with the values of the polynomial of this triangle. All surfaces are in one figure. -/
theorem C107_bivariate_piecewise (tris : List (Nat × Nat × Nat)) (verts : List (List K)) (v : Nat → List K) (hv : ∀ i, i < verts.length → verts[i]? = some (v i))
    (hd : ∀ i, i < verts.length → (v i).length = 2)
    (ht : ∀ t ∈ tris, t.1 < verts.length ∧ t.2.1 < verts.length ∧ t.2.2 < verts.length ∧ NotCollinear 2 (v t.1) (v t.2.1) (v t.2.2))
    (ev : Nat → K → K → K) (n : Nat) (hn : 2 ≤ n) (c : String) (fig : Option Nat) (s : St (List K)) :
    ∃ (s' : St (List K)) (T : List (List Nat)) (V : Nat × Nat × Nat → List (List K)),
      plotBivariatePiecewise (tris.map fun t => ((t.1 : Int), (t.2.1 : Int), (t.2.2 : Int))) verts ev n c none fig s = .ok s' ∧
      (∀ t ∈ tris, (V t).length = n * (n + 1) / 2 ∧ Tiles (V t) T {x | InCell [v t.1, v t.2.1, v t.2.2] [0, 1, 2] x}) ∧
      s'.log = s.log ++ Wrapped fig s (tris.zipIdx.map fun t => .trisurf (target fig s) (some c) (T.map toTriangle)
        ((V t.1).map fun p => [p.getD 0 0, p.getD 1 0, ev t.2 (p.getD 0 0) (p.getD 1 0)])) := by
  obtain ⟨T, hT, -⟩ := C49_triangle n (by omega)
  have hg : ∀ t ∈ tris, generalTriangleVertices (v t.1) (v t.2.1) (v t.2.2) n = .ok ((meshRows v n t).map some) ∧
      (meshRows v n t).length = n * (n + 1) / 2 ∧ Tiles (meshRows v n t) T {x | InCell [v t.1, v t.2.1, v t.2.2] [0, 1, 2] x} := by
    intro t htt
    obtain ⟨k0, k1, k2, k3⟩ := ht t htt
    obtain ⟨T', V, g1, g2, g3, g4, -⟩ := C49_general_triangle n hn 2 (v t.1) (v t.2.1) (v t.2.2) (hd _ k0) (hd _ k1) (hd _ k2) k3
    have hTT : T' = T := by
      have := Except.ok.inj (g1.symm.trans hT)
      exact List.map_injective_iff.2 (Option.some_injective _) this
    have hVV : V = meshRows v n t := by
      unfold generalTriangleVertices fillRows at g2
      rw [if_neg (by omega)] at g2
      split at g2
      · have := Except.ok.inj g2
        have hw := congrArg written this
        rw [written_some] at hw
        simpa [written, List.filterMap_append, List.filterMap_map, List.filterMap_replicate, meshRows] using hw.symm
      · cases g2
    subst hTT hVV
    exact ⟨g2, g3, g4⟩
  have hf : (figureOf fig s).1 = target fig s := by cases fig <;> rfl
  have h := plotTriangles_ok verts v ev T n c (target fig s) tris 0 (figureOf fig s).2 fun t htt =>
    ⟨hv _ (ht t htt).1, hv _ (ht t htt).2.1, hv _ (ht t htt).2.2.1, (hg t htt).1⟩
  refine ⟨finish fig ⟨(figureOf fig s).2.cur, (figureOf fig s).2.next, (figureOf fig s).2.log ++ tris.zipIdx.map fun t => .trisurf (target fig s) (some c)
        (T.map toTriangle) ((meshRows v n t.1).map (withValue (ev t.2)))⟩, T, meshRows v n, ?_, fun t htt => (hg t htt).2, ?_⟩
  · unfold plotBivariatePiecewise
    simp only [hf, hT, Py.bind_ok, written_some, h]
    rfl
  · cases fig <;> simp [finish, figureOf, newFig, St.emit, Wrapped, target, withValue]

/-- **C107** `plot_bivariate_piecewise_polynomial` with a color: a TypeError, as soon as there is a triangle. -/
theorem C107_bivariate_color (t : Nat × Nat × Nat) (tris : List (Int × Int × Int)) (verts : List (List K)) (v : Nat → List K)
    (ht : verts[t.1]? = some (v t.1) ∧ verts[t.2.1]? = some (v t.2.1) ∧ verts[t.2.2]? = some (v t.2.2)) (hd : ∀ i, (v i).length = 2)
    (hnc : NotCollinear 2 (v t.1) (v t.2.1) (v t.2.2))
    (ev : Nat → K → K → K) (n : Nat) (hn : 2 ≤ n) (c color : String) (fig : Option Nat) (s : St (List K)) :
    plotBivariatePiecewise (((t.1 : Int), (t.2.1 : Int), (t.2.2 : Int)) :: tris) verts ev n c (some color) fig s = .error .type := by
  obtain ⟨T, V, hT, hV, -⟩ := C49_general_triangle n hn 2 (v t.1) (v t.2.1) (v t.2.2) (hd _) (hd _) (hd _) hnc
  unfold plotBivariatePiecewise
  simp only [hT, Py.bind_ok, plotTriangles, pyGet_nat verts _ _ ht.1, pyGet_nat verts _ _ ht.2.1, pyGet_nat verts _ _ ht.2.2, hV]
  rfl

/-- **C107** `plot_bivariate_continuous_piecewise_polynomial` never draws anything: it ends with a ModuleNotFoundError for all arguments. -/
theorem C107_bivariate_continuous (tris : List (List Nat)) (verts : List (List K)) (p : K → K → K) (n : Nat) (color : Option String) (fig : Option Nat)
    (s : St (List K)) : plotBivariateContinuous tris verts p n color fig s = .error .moduleNotFound := rfl

/-! ## Examples -/

example : NotCollinear 2 [(0 : ℚ), 0] [1, 0] [0, 1] := by
  intro s t h
  have h0 := h 0 (by norm_num)
  have h1 := h 1 (by norm_num)
  simp at h0 h1
  exact ⟨h0, h1⟩

/-- A mesh of one triangle. -/
example : (∀ i, i < [[(0 : ℚ), 0], [1, 0], [0, 1]].length → [[(0 : ℚ), 0], [1, 0], [0, 1]][i]? = some ([[(0 : ℚ), 0], [1, 0], [0, 1]].getD i [0, 0])) ∧
    (∀ i, ([[(0 : ℚ), 0], [1, 0], [0, 1]].getD i [0, 0]).length = 2) := by
  refine ⟨fun i hi => by simp [List.getElem?_eq_getElem hi], fun i => ?_⟩
  rcases i with _ | _ | _ | i <;> simp

/-- Two intervals with three vertices. -/
example : (∀ i, i < [(0 : ℚ), 1, 2].length → [(0 : ℚ), 1, 2][i]? = some (i : ℚ)) ∧ ∀ l ∈ [(0, 1), (1, 2)], l.1 < 3 ∧ l.2 < 3 := by
  refine ⟨fun i hi => ?_, by decide⟩
  have : i < 3 := hi
  interval_cases i <;> simp

end Verif.Plot
