import Verif.Lemmas.MeshFunctions
import Verif.Lemmas.Integration
import Verif.Props.Midpoint
/-!
# C83: continuous piecewise polynomials on the meshes of the package

`MeshOf` and `columns` are defined in `Verif/Spec/MeshFunctions.lean`.
-/

namespace Verif.Props
open Verif Verif.Poly Verif.Simplex Verif.SPoly Verif.L2G Verif.PP Verif.Spec Verif.Mesh Verif.Midpoint

/-! ## The functions -/

section Functions
open PointCloud
variable [Sub (Kd.Ext ℝ)] [Mul (Kd.Ext ℝ)] [One (Kd.Ext ℝ)] {k r : Nat} {W : Type} [NormedAddCommGroup W] [DecidableEq W] [NormedSpace ℝ W]

omit [Sub (Kd.Ext ℝ)] [Mul (Kd.Ext ℝ)] [One (Kd.Ext ℝ)] in
theorem _root_.Verif.Spec.MeshOf.space {m : Nat} {T : List (List ℕ)} {V : List (Fin m → ℝ)} {D : Set (Fin m → ℝ)} (h : MeshOf T V D) (cont : Bool) (hr : r ≠ 0)
    {boundary : Option (List (List ℕ))} (hb : AreSimplices (boundary.getD [])) : IsSpace cont T V r boundary :=
  ⟨h.mesh, fun j hj => (h.positive j hj).imp fun _ hv => ⟨hv.1, hv.2.ne'⟩, hb, fun _ => ⟨h.single, hr⟩⟩

theorem _root_.Verif.Spec.MeshOf.oriented {m : Nat} {T : List (List ℕ)} {V : List (Fin m → ℝ)} {D : Set (Fin m → ℝ)} (h : MeshOf T V D) : PositivelyOriented T V := by
  intro j v hv
  obtain ⟨v', hv', h0⟩ := h.positive j (cell_lt hv)
  obtain rfl := Except.ok.inj (hv.symm.trans hv')
  exact h0

theorem isClosed_cell {m : ℕ} {T : List (List ℕ)} {V : List (Fin m → ℝ)} {D : Set (Fin m → ℝ)} (h : MeshOf T V D) (j : ℕ) (hj : j < T.length) :
    IsClosed {x | PP.InCell T V j x} := by
  obtain ⟨v, hv, h0⟩ := h.positive j hj
  have e : {x | PP.InCell T V j x} = {x | ∀ i : Fin (m + 1), 0 ≤ lam v x i} := by
    ext x
    constructor
    · rintro ⟨v', hv', w, hw, hb⟩
      obtain rfl := Except.ok.inj (hv'.symm.trans hv)
      rw [Set.mem_ofPred_eq, ← (isBarycentric_iff v' h0.ne' x w).1 hb]
      exact hw
    · intro hx
      exact ⟨v, hv, _, hx, (isBarycentric_iff v h0.ne' x _).2 rfl⟩
  have hlam : Continuous (lam v) := by
    have h1 : Continuous fun x : Fin m → ℝ => (E v)⁻¹.mulVec (x - v 0) := Continuous.matrix_mulVec continuous_const (by fun_prop)
    refine continuous_pi fun i => ?_
    refine Fin.cases ?_ (fun i => ?_) i
    · exact continuous_const.sub (continuous_finsetSum _ fun i _ => (continuous_apply i).comp h1)
    · exact (continuous_apply i).comp h1
  rw [e, show {x | ∀ i : Fin (m + 1), 0 ≤ lam v x i} = ⋂ i, {x | 0 ≤ lam v x i} by ext; simp]
  exact isClosed_iInter fun i => isClosed_le continuous_const ((continuous_apply i).comp hlam)

/-- **C83** On every mesh of a domain: the degrees of freedom of the continuous space of every degree `r ≥ 1` can be numbered, the constructor accepts
every list with one coefficient for each of them, and the object can be called at every point. The values are a continuous function on the domain,
and zero outside of it. On each simplex it is the combination of the basis polynomials with the coefficients of the simplex. -/
theorem C83_function {eigh : Eigh (k + 1)} (he : IsEigh eigh) {b : Basis} (hb : b ≠ .monomial) {T : List (List ℕ)} {V : List (Fin (k + 1) → ℝ)}
    {D : Set (Fin (k + 1) → ℝ)} (h : MeshOf T V D) (hr : r ≠ 0) (hf : Fits r (k + 1)) {boundary : Option (List (List ℕ))}
    (hbd : AreSimplices (boundary.getD [])) (keepLast : Bool) :
    ∃ (M : L2G.Map) (N : ℕ), genMap true T r boundary keepLast = .ok M ∧ M.numDofs = N ∧ ∀ coeff : List W, coeff.length = N → coeff ≠ [] →
      ∃ (p : PObj ℝ W (k + 1) (Kd.MeshTree ℝ)) (f : (Fin (k + 1) → ℝ) → W),
        PObj.new (buildTree (splitPlane eigh (meshOf T V)) T V) b true coeff T V r none boundary keepLast none none none = .ok p ∧
        (∀ x, p.callAt x = .ok (f x)) ∧ ContinuousOn f D ∧ (∀ x, x ∉ D → f x = 0) ∧
        ∀ j v, cell T V j = .ok v → ∀ w : Fin (k + 2) → ℝ, (∀ i, 0 ≤ w i) → ∑ i, w i = 1 → f (∑ i, w i • v i) = combination b r (coeffAt M.tau coeff j) w := by
  have hsp := h.space (r := r) true hr hbd
  obtain ⟨M, N, t, hM, ht⟩ := genMap_spec hsp keepLast
  refine ⟨M, N, hM, ht.num, fun coeff hc hne => ?_⟩
  obtain ⟨p, h1, h2, h3, h4, h5, h6, h7⟩ := C81_construct he hb hsp hf hM (coeff := coeff) (by rw [hc]; exact ht.num) hne (tau := none)
    (Or.inl ⟨rfl, Or.inl rfl⟩)
  have hcall := fun x => h7 h.oriented x (Or.inl ⟨h4, by rw [h5, h6]; exact h.conforming⟩)
  have hall : ∀ x, ∃ a, p.callAt x = .ok a := by
    intro x
    by_cases hx : ∃ j, PP.InCell T V j x
    · obtain ⟨j, v, hv, w, h0, hw⟩ := hx
      exact ⟨_, (hcall x).1 j v w hv hw h0⟩
    · exact ⟨_, (hcall x).2 (fun j hj => hx ⟨j, hj⟩)⟩
  choose f hfx using hall
  have hval : ∀ j v, cell T V j = .ok v → ∀ x w, (∀ i, 0 ≤ w i) → IsBarycentric v x w → f x = combination b r (coeffAt M.tau coeff j) w := by
    intro j v hv x w h0 hw
    exact Except.ok.inj ((hfx x).symm.trans ((hcall x).1 j v w hv hw h0))
  refine ⟨p, f, h1, hfx, ?_, fun x hx => ?_, fun j v hv w h0 h1 => hval j v hv _ w h0 ⟨h1, rfl⟩⟩
  · have e : D = ⋃ j : Fin T.length, {x | PP.InCell T V j x} := by
      ext x
      rw [← h.points x, Set.mem_iUnion]
      constructor
      · rintro ⟨j, v, hv, hx⟩
        exact ⟨⟨j, cell_lt hv⟩, v, hv, hx⟩
      · rintro ⟨j, hx⟩
        exact ⟨j, hx⟩
    rw [e]
    refine (locallyFinite_of_finite _).continuousOn_iUnion (fun j => isClosed_cell h j j.2) (fun j => ?_)
    obtain ⟨v, hv, h0⟩ := h.positive j j.2
    have hpoly : IsPoly (K := ℝ) (k + 1) r (fun x => val b (k + 1) r (coeffAt M.tau coeff j) (createAffineMap (down v) x)) := isPoly_comp (val_isPoly b (k + 1) r _) (down v)
    refine hpoly.continuous.continuousOn.congr ?_
    rintro x ⟨v', hv', w, hw0, hw⟩
    obtain rfl := Except.ok.inj (hv'.symm.trans hv)
    simp only
    rw [hval j v' hv' x w hw0 hw, down_bary v' h0.ne' hw]
    rfl
  · exact Except.ok.inj ((hfx x).symm.trans ((hcall x).2 (fun j hj => hx ((h.points x).1 ⟨j, hj⟩))))

end Functions

/-! ## The meshes -/

/-- A triangulation with the first two columns of its array of vertices. -/
theorem planar_mesh (k : Nat) {T : List (List ℕ)} {V : List (List ℝ)} {D : Set (List ℝ)} {A : ℝ} (hV : ∀ p ∈ V, p = padded k (fun i : Fin 2 => p.getD i 0))
    (hne : T ≠ []) (hT : Spec.WellFormed V.length 3 T) (ht : Tiles V T D) (ha : AllArea2 V T A) (hA : 0 < A) :
    MeshOf T (columns 2 V) {x | padded k x ∈ D} := by
  have e := eq_padded k hV
  have hl : (columns 2 V).length = V.length := by simp [columns]
  refine meshOf_of_tiles k hne (by rw [hl]; exact hT) (by rw [← e]; exact ht) (positive_of_area k hA (by rw [← e]; exact ha))

theorem flat_rows {V : List (List ℝ)} (h : ∀ p ∈ V, ∃ x y : ℝ, p = [x, y, 0]) : ∀ p ∈ V, p = padded 1 (fun i : Fin 2 => p.getD i 0) := by
  intro p hp
  obtain ⟨x, y, rfl⟩ := h p hp
  simp [padded, List.ofFn_succ]

theorem padded_plane (x : Fin 2 → ℝ) : padded 1 x = [x 0, x 1, 0] := by simp [padded, List.ofFn_succ]

/-- **C83** `rectangle_triangulation` with the first two columns of `rectangle_vertices` is a mesh of the rectangle, for all resolutions. -/
theorem C83_rectangle (w h : Nat) (hw : 1 < w) (hh : 1 < h) (width height : ℝ) (hwidth : 0 < width) (hheight : 0 < height) :
    ∃ T V, rectangleTriangulation w h = .ok (T.map some) ∧ rectangleVertices width height w h = .ok (V.map some) ∧
      MeshOf T (columns 2 V) {x | -(width / 2) ≤ x 0 ∧ x 0 ≤ width / 2 ∧ -(height / 2) ≤ x 1 ∧ x 1 ≤ height / 2} := by
  obtain ⟨T, V, h1, h2, h3, h4, h5, h6⟩ := C49_rectangle_vertices w h hw hh width height hwidth hheight
  obtain ⟨T', e1, e2, e3⟩ := (C49_rectangle w h).2 ⟨hw, hh⟩
  obtain rfl : T = T' := List.map_injective_iff.2 (Option.some_injective _) (Except.ok.inj (h1.symm.trans e1))
  have hV : V = rectangleVertexRows width height w h := by
    unfold rectangleVertices at h2
    rw [decide_eq_true ⟨hw, hh⟩, pyAssert_true, Py.bind_ok] at h2
    exact fillRows_written h2
  refine ⟨T, V, h1, h2, ?_⟩
  have hm := planar_mesh 1 (flat_rows (V := V) (by
    intro p hp
    rw [hV] at hp
    simp only [rectangleVertexRows, List.mem_flatMap, List.mem_map] at hp
    obtain ⟨i, -, j, -, rfl⟩ := hp
    exact ⟨_, _, rfl⟩)) (by rw [← List.length_pos_iff, e2]; exact Nat.mul_pos (by omega) (by omega)) (by rw [h3]; exact e3) h4 h5 h6
  convert hm using 1
  ext x
  simp only [Set.mem_ofPred_eq, padded_plane, List.cons.injEq, and_true]
  constructor
  · intro hx
    exact ⟨_, _, ⟨rfl, rfl⟩, hx⟩
  · rintro ⟨X, Y, ⟨rfl, rfl⟩, hx⟩
    exact hx

/-- **C83** `rectangle_triangulation` with the first two columns of `unit_square_vertices` is a mesh of the unit square, for all resolutions. -/
theorem C83_unit_square (w h : Nat) (hw : 1 < w) (hh : 1 < h) :
    ∃ T V, rectangleTriangulation w h = .ok (T.map some) ∧ unitSquareVertices ℝ w h = .ok (V.map some) ∧
      MeshOf T (columns 2 V) {x | 0 ≤ x 0 ∧ x 0 ≤ 1 ∧ 0 ≤ x 1 ∧ x 1 ≤ 1} := by
  obtain ⟨T, V, h1, h2, h3, h4, h5, h6⟩ := C49_unit_square (K := ℝ) w h hw hh
  obtain ⟨T', e1, e2, e3⟩ := (C49_rectangle w h).2 ⟨hw, hh⟩
  obtain rfl : T = T' := List.map_injective_iff.2 (Option.some_injective _) (Except.ok.inj (h1.symm.trans e1))
  have hV : V = unitSquareVertexRows ℝ w h := by
    unfold unitSquareVertices at h2
    rw [decide_eq_true ⟨hw, hh⟩, pyAssert_true, Py.bind_ok] at h2
    exact fillRows_written h2
  refine ⟨T, V, h1, h2, ?_⟩
  have hm := planar_mesh 1 (flat_rows (V := V) (by
    intro p hp
    rw [hV] at hp
    simp only [unitSquareVertexRows, List.mem_flatMap, List.mem_map] at hp
    obtain ⟨i, -, j, -, rfl⟩ := hp
    exact ⟨_, _, rfl⟩)) (by rw [← List.length_pos_iff, e2]; exact Nat.mul_pos (by omega) (by omega)) (by rw [h3]; exact e3) h4 h5 h6
  convert hm using 1
  ext x
  simp only [Set.mem_ofPred_eq, padded_plane, List.cons.injEq, and_true]
  constructor
  · intro hx
    exact ⟨_, _, ⟨rfl, rfl⟩, hx⟩
  · rintro ⟨X, Y, ⟨rfl, rfl⟩, hx⟩
    exact hx

theorem triangle_ok {n : Nat} (hn : 2 ≤ n) {T : List (List ℕ)} (h1 : triangleTriangulation n = .ok (T.map some)) :
    T ≠ [] ∧ Spec.WellFormed (n * (n + 1) / 2) 3 T := by
  obtain ⟨T', e1, e2, e3⟩ := C49_triangle n (by omega)
  obtain rfl : T = T' := List.map_injective_iff.2 (Option.some_injective _) (Except.ok.inj (h1.symm.trans e1))
  exact ⟨by rw [← List.length_pos_iff, e2]; exact Nat.pow_pos (by omega), e3⟩

/-- **C83** `triangle_triangulation` with the first two columns of `triangle_vertices` is a mesh of the triangle with the legs `width` and `height`. -/
theorem C83_triangle (n : Nat) (hn : 2 ≤ n) (width height : ℝ) (hwidth : 0 < width) (hheight : 0 < height) :
    ∃ T V, triangleTriangulation n = .ok (T.map some) ∧ triangleVertices width height n = .ok (V.map some) ∧
      MeshOf T (columns 2 V) (Spec.simplex ![![0, 0], ![width, 0], ![0, height]]) := by
  obtain ⟨T, V, h1, h2, h3, h4, h5, h6⟩ := C49_triangle_vertices n hn width height hwidth hheight
  obtain ⟨e1, e2⟩ := triangle_ok hn h1
  have hV : V = triangleVertexRows width height n := by
    unfold triangleVertices at h2
    rw [if_neg (by omega)] at h2
    exact fillRows_written h2
  refine ⟨T, V, h1, h2, ?_⟩
  have hm := planar_mesh 1 (flat_rows (V := V) (by
    intro p hp
    rw [hV] at hp
    simp only [triangleVertexRows, List.mem_flatMap, List.mem_map] at hp
    obtain ⟨i, -, j, -, rfl⟩ := hp
    exact ⟨_, _, rfl⟩)) e1 (by rw [h3]; exact e2) h4 h5 h6
  convert hm using 1
  ext x
  rw [← simplex_iff 1]
  simp [padded_plane]

/-- **C83** `triangle_triangulation` with the first two columns of `equilateral_triangle_vertices` is a mesh of the equilateral triangle. -/
theorem C83_equilateral (n : Nat) (hn : 2 ≤ n) (edge : ℝ) (hedge : 0 < edge) :
    ∃ T V, triangleTriangulation n = .ok (T.map some) ∧ equilateralTriangleVertices (√3) edge n = .ok (V.map some) ∧
      MeshOf T (columns 2 V) (Spec.simplex ![![0, 0], ![edge, 0], ![edge / 2, √3 / 2 * edge]]) := by
  obtain ⟨-, T, V, h1, h2, h3, h4, h5, h6⟩ := C49_equilateral n hn (√3) edge (by positivity) (Real.mul_self_sqrt (by norm_num)) hedge
  obtain ⟨e1, e2⟩ := triangle_ok hn h1
  have hV : V = equilateralVertexRows edge (√3 / 2 * edge) n := by
    unfold equilateralTriangleVertices at h2
    rw [if_neg (by omega)] at h2
    exact fillRows_written h2
  refine ⟨T, V, h1, h2, ?_⟩
  have hm := planar_mesh 1 (flat_rows (V := V) (by
    intro p hp
    rw [hV] at hp
    simp only [equilateralVertexRows, List.mem_flatMap, List.mem_map] at hp
    obtain ⟨i, -, j, -, rfl⟩ := hp
    exact ⟨_, _, rfl⟩)) e1 (by rw [h3]; exact e2) h4 h5 h6
  convert hm using 1
  ext x
  rw [← simplex_iff 1]
  simp [padded_plane]

/-- **C83** `triangle_triangulation` with `general_triangle_vertices` is a mesh of the triangle, if this is positively oriented. -/
theorem C83_general_triangle (n : Nat) (hn : 2 ≤ n) (v : Fin 3 → Fin 2 → ℝ) (hv : 0 < edgeDet v) :
    ∃ T V, triangleTriangulation n = .ok (T.map some) ∧
      generalTriangleVertices (List.ofFn (v 0)) (List.ofFn (v 1)) (List.ofFn (v 2)) n = .ok (V.map some) ∧
      MeshOf T (columns 2 V) (Spec.simplex v) := by
  have hdet : edgeDet v = (v 1 0 - v 0 0) * (v 2 1 - v 0 1) - (v 2 0 - v 0 0) * (v 1 1 - v 0 1) := by
    unfold edgeDet
    rw [Matrix.det_fin_two]
    simp
  have hnc : NotCollinear 2 (List.ofFn (v 0)) (List.ofFn (v 1)) (List.ofFn (v 2)) := by
    intro s t hst
    have k0 := hst 0 (by omega)
    have k1 := hst 1 (by omega)
    simp [List.ofFn_succ] at k0 k1
    have hs : s * edgeDet v = 0 := by rw [hdet]; linear_combination (v 2 1 - v 0 1) * k0 - (v 2 0 - v 0 0) * k1
    have ht : t * edgeDet v = 0 := by rw [hdet]; linear_combination (v 1 0 - v 0 0) * k1 - (v 1 1 - v 0 1) * k0
    exact ⟨(mul_eq_zero.1 hs).resolve_right hv.ne', (mul_eq_zero.1 ht).resolve_right hv.ne'⟩
  obtain ⟨T, V, h1, h2, h3, h4, h5⟩ := C49_general_triangle n hn 2 (List.ofFn (v 0)) (List.ofFn (v 1)) (List.ofFn (v 2)) (by simp) (by simp) (by simp) hnc
  obtain ⟨e1, e2⟩ := triangle_ok hn h1
  have hV : V = generalTriangleVertexRows (List.ofFn (v 0)) (List.ofFn (v 1)) (List.ofFn (v 2)) n := by
    unfold generalTriangleVertices at h2
    rw [if_neg (by omega)] at h2
    exact fillRows_written h2
  refine ⟨T, V, h1, h2, ?_⟩
  have hpos : (1 : ℝ) < n := by exact_mod_cast hn
  have harea : area2 (List.ofFn (v 0)) (List.ofFn (v 1)) (List.ofFn (v 2)) = edgeDet v := by
    rw [hdet]
    simp [area2, List.ofFn_succ]
  have hA : 0 < area2 (List.ofFn (v 0)) (List.ofFn (v 1)) (List.ofFn (v 2)) / ((n : ℝ) - 1) ^ 2 := by
    rw [harea]
    have : (0 : ℝ) < n - 1 := by linarith
    positivity
  have hm := planar_mesh 0 (V := V) (by
    intro p hp
    rw [hV] at hp
    simp only [generalTriangleVertexRows, List.mem_flatMap, List.mem_map] at hp
    obtain ⟨i, -, j, -, rfl⟩ := hp
    simp [padded, List.ofFn_succ]) e1 (by rw [h3]; exact e2) h4 (h5 le_rfl) hA
  convert hm using 1
  ext x
  rw [← simplex_iff 0]
  simp [padded]

/-- **C83** `rectangular_box_triangulation` with `unit_cube_vertices` is a mesh of the unit cube, for all resolutions. -/
theorem C83_unit_cube (w h d : Nat) (hw : 2 ≤ w) (hh : 2 ≤ h) (hd : 2 ≤ d) :
    ∃ T V, rectangularBoxTriangulation w h d = .ok (T.map some) ∧ unitCubeVertices ℝ w h d = .ok (V.map some) ∧
      MeshOf T (columns 3 V) {x | ∀ i, 0 ≤ x i ∧ x i ≤ 1} := by
  obtain ⟨T, V, h1, h2, h3, h4, h5, h6⟩ := (C49_unit_cube (K := ℝ) w h d).2 ⟨hw, hh, hd⟩
  obtain ⟨T', e1, e2, e3⟩ := (C49_box w h d).2 ⟨hw, hh, hd⟩
  obtain rfl : T = T' := List.map_injective_iff.2 (Option.some_injective _) (Except.ok.inj (h1.symm.trans e1))
  have hV : V = unitCubeVertexRows ℝ w h d := by
    unfold unitCubeVertices at h2
    rw [if_neg (by omega), if_neg (by omega), if_neg (by omega)] at h2
    exact fillRows_written h2
  have e : V = (columns 3 V).map (padded 0) := eq_padded 0 (by
    intro p hp
    rw [hV] at hp
    simp only [unitCubeVertexRows, List.mem_flatMap, List.mem_map] at hp
    obtain ⟨i, -, j, -, l, -, rfl⟩ := hp
    simp [padded, List.ofFn_succ])
  have hl : (columns 3 V).length = V.length := by simp [columns]
  refine ⟨T, V, h1, h2, ?_⟩
  have hm := meshOf_of_tiles 0 (V := columns 3 V) (T := T) (by rw [← List.length_pos_iff, e2]; exact Nat.mul_pos (Nat.mul_pos (by omega) (by omega)) (by omega))
    (by rw [hl, h3]; exact e3) (by rw [← e]; exact h4) (positive_of_volume 0 h6 (by rw [← e]; exact h5))
  convert hm using 1
  ext x
  have hx3 : padded 0 x = [x 0, x 1, x 2] := by simp [padded, List.ofFn_succ]
  simp only [Set.mem_ofPred_eq, hx3, List.cons.injEq, and_true]
  constructor
  · intro hx
    exact ⟨_, _, _, ⟨rfl, rfl, rfl⟩, hx 0, hx 1, hx 2⟩
  · rintro ⟨X, Y, Z, ⟨rfl, rfl, rfl⟩, h0, h1, h2⟩ i
    fin_cases i
    · exact h0
    · exact h1
    · exact h2

theorem tetrahedron_ok {n : Nat} (hn : 2 ≤ n) {T : List (List ℕ)} (h1 : tetrahedronTriangulation n = .ok (T.map some)) :
    T ≠ [] ∧ Spec.WellFormed ((n + 2) * (n + 1) * n / 6) 4 T := by
  obtain ⟨T', e1, e2, e3⟩ := (C49_tetrahedron n).2 hn
  obtain rfl : T = T' := List.map_injective_iff.2 (Option.some_injective _) (Except.ok.inj (h1.symm.trans e1))
  exact ⟨by rw [← List.length_pos_iff, e2]; exact Nat.pow_pos (by omega), e3⟩

/-- **C83** `tetrahedron_triangulation` with `tetrahedron_vertices` is a mesh of the unit tetrahedron, for all resolutions. -/
theorem C83_tetrahedron (n : Nat) (hn : 2 ≤ n) :
    ∃ T V, tetrahedronTriangulation n = .ok (T.map some) ∧ tetrahedronVertices ℝ n = .ok (V.map some) ∧
      MeshOf T (columns 3 V) {x | (∀ i, 0 ≤ x i) ∧ ∑ i, x i ≤ 1} := by
  obtain ⟨T, V, h1, h2, h3, h4, h5, h6⟩ := (C49_tetrahedron_vertices (K := ℝ) n).2 hn
  obtain ⟨e2, e3⟩ := tetrahedron_ok hn h1
  have hV : V = tetrahedronVertexRows ℝ n := by
    unfold tetrahedronVertices at h2
    rw [decide_eq_true hn, pyAssert_true, Py.bind_ok] at h2
    exact fillRows_written h2
  have e : V = (columns 3 V).map (padded 0) := eq_padded 0 (by
    intro p hp
    rw [hV] at hp
    simp only [tetrahedronVertexRows, List.mem_flatMap, List.mem_map] at hp
    obtain ⟨i, -, j, -, l, -, rfl⟩ := hp
    simp [padded, List.ofFn_succ])
  have hl : (columns 3 V).length = V.length := by simp [columns]
  refine ⟨T, V, h1, h2, ?_⟩
  have hm := meshOf_of_tiles 0 (V := columns 3 V) (T := T) e2
    (by rw [hl, h3]; exact e3) (by rw [← e]; exact h4) (positive_of_volume 0 h6 (by rw [← e]; exact h5))
  convert hm using 1
  ext x
  have hx3 : padded 0 x = [x 0, x 1, x 2] := by simp [padded, List.ofFn_succ]
  simp only [Set.mem_ofPred_eq, hx3, List.cons.injEq, and_true, Fin.sum_univ_three]
  constructor
  · rintro ⟨h0, hx⟩
    exact ⟨_, _, _, ⟨rfl, rfl, rfl⟩, h0 0, h0 1, h0 2, hx⟩
  · rintro ⟨X, Y, Z, ⟨rfl, rfl, rfl⟩, h0, h1, h2, hx⟩
    refine ⟨fun i => ?_, hx⟩
    fin_cases i
    · exact h0
    · exact h1
    · exact h2

/-- **C83** `tetrahedron_triangulation` with `general_tetrahedron_vertices` is a mesh of the tetrahedron, if this is positively oriented. -/
theorem C83_general_tetrahedron (n : Nat) (hn : 2 ≤ n) (v : Fin 4 → Fin 3 → ℝ) (hv : 0 < edgeDet v) :
    ∃ T V, tetrahedronTriangulation n = .ok (T.map some) ∧ generalTetrahedronVertices v n = .ok V ∧ MeshOf T V (Spec.simplex v) := by
  obtain ⟨T, V, h1, h2, h3, h4, h5⟩ := (C72_general_tetrahedron n v hv.ne').2 hn
  obtain ⟨e2, e3⟩ := tetrahedron_ok hn h1
  have e : V.map List.ofFn = V.map (padded 0) := List.map_congr_left fun x _ => by simp [padded]
  refine ⟨T, V, h1, h2, ?_⟩
  have hpos : (1 : ℝ) < n := by exact_mod_cast hn
  have hA : 0 < edgeDet v / ((n : ℝ) - 1) ^ 3 := by
    have : (0 : ℝ) < n - 1 := by linarith
    positivity
  have hm := meshOf_of_tiles 0 (V := V) (T := T) e2 (by rw [h3]; exact e3) (by rw [← e]; exact h4) (positive_of_volume 0 hA (by rw [← e]; exact h5))
  convert hm using 1
  ext x
  simp only [Set.mem_ofPred_eq, padded, List.replicate_zero, List.append_nil]
  constructor
  · intro hx
    exact ⟨x, hx, rfl⟩
  · rintro ⟨y, hy, hxy⟩
    rw [List.ofFn_inj.1 hxy]
    exact hy

/-! ### A function on the unit square -/

/-- The function on the mesh of the unit square with `3 × 2` vertices that is 1 in the first vertex and 0 in the other vertices. -/
example [Sub (Kd.Ext ℝ)] [Mul (Kd.Ext ℝ)] [One (Kd.Ext ℝ)] {eigh : PointCloud.Eigh 2} (he : PointCloud.IsEigh eigh) :
    ∃ (T : List (List ℕ)) (V : List (List ℝ)) (p : PObj ℝ ℝ 2 (Kd.MeshTree ℝ)) (f : (Fin 2 → ℝ) → ℝ),
      rectangleTriangulation 3 2 = .ok (T.map some) ∧ unitSquareVertices ℝ 3 2 = .ok (V.map some) ∧
      PObj.new (buildTree (PointCloud.splitPlane eigh (meshOf T (columns 2 V))) T (columns 2 V)) .bernstein true [1, 0, 0, 0, 0, 0] T (columns 2 V) 1 none none false
        none none none = .ok p ∧ (∀ x, p.callAt x = .ok (f x)) ∧ ContinuousOn f {x | 0 ≤ x 0 ∧ x 0 ≤ 1 ∧ 0 ≤ x 1 ∧ x 1 ≤ 1} ∧
      f ![1 / 4, 1 / 4] = 1 / 4 ∧ f ![2, 0] = 0 := by
  obtain ⟨T, V, h1, h2, hm⟩ := C83_unit_square 3 2 (by norm_num) (by norm_num)
  obtain rfl : T = [[0, 1, 3], [1, 4, 3], [1, 2, 4], [2, 5, 4]] := fillRows_written (num := 4) (rows := [[0, 1, 3], [1, 4, 3], [1, 2, 4], [2, 5, 4]]) h1
  have hV : V = unitSquareVertexRows ℝ 3 2 := fillRows_written (num := 6) h2
  obtain ⟨M, N, hM, hN, hf⟩ := C83_function (W := ℝ) he (b := .bernstein) (by simp) hm one_ne_zero (Or.inr (by norm_num)) (boundary := none) (by simp [AreSimplices]) false
  obtain ⟨M', hM', hn, t0, t1, t2⟩ : ∃ M, genMap true [[0, 1, 3], [1, 4, 3], [1, 2, 4], [2, 5, 4]] 1 none false = .ok M ∧ M.numDofs = 6 ∧ M.tau 0 [0, 0] = .ok 0 ∧
    M.tau 0 [1, 0] = .ok 1 ∧ M.tau 0 [0, 1] = .ok 2 := ⟨_, rfl, rfl, rfl, rfl, rfl⟩
  obtain rfl := Except.ok.inj (hM.symm.trans hM')
  obtain ⟨p, f, g1, g2, g3, g4, g5⟩ := hf [1, 0, 0, 0, 0, 0] (by simp; omega) (by simp)
  refine ⟨_, V, p, f, h1, h2, g1, g2, g3, ?_, g4 _ (by norm_num)⟩
  have hc : cell [[0, 1, 3], [1, 4, 3], [1, 2, 4], [2, 5, 4]] (columns 2 V) 0 = .ok ![![0, 0], ![1 / 2, 0], ![0, 1]] := by
    rw [cell_ok (by simp) rfl (by simp [hV, columns, unitSquareVertexRows])]
    refine congrArg Except.ok ?_
    funext i j
    fin_cases i <;> fin_cases j <;> simp [hV, columns, unitSquareVertexRows, List.range_succ] <;> norm_num
  have := g5 0 _ hc ![1 / 4, 1 / 2, 1 / 4] (by intro i; fin_cases i <;> norm_num) (by simp [Fin.sum_univ_three]; norm_num)
  have e : ∑ i, (![1 / 4, 1 / 2, 1 / 4] : Fin 3 → ℝ) i • (![![0, 0], ![1 / 2, 0], ![0, 1]] : Fin 3 → Fin 2 → ℝ) i = ![1 / 4, 1 / 4] := by
    funext i
    fin_cases i <;> simp [Fin.sum_univ_three] <;> norm_num
  rw [e] at this
  rw [this]
  have e : (Fintype.piFinset fun _ : Fin 2 => Finset.range 2).filter (fun ν => ∑ i, ν i ≤ 1) = {![0, 0], ![1, 0], ![0, 1]} := by decide
  unfold combination
  rw [e]
  simp [coeffAt, t0, t1, t2, List.ofFn_succ]
  norm_num [Poly.basisFn, Spec.bernstein, Spec.monomial, Spec.multinomial]

end Verif.Props
