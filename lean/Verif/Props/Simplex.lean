import Verif.Lemmas.Simplex
import Mathlib.Algebra.Order.Ring.Rat
import Mathlib.Tactic.NormNum
import Mathlib.Algebra.BigOperators.Field
/-!
# C37-C39, C57: affine maps between simplices, barycentric coordinates, point-in-simplex test
-/

namespace Verif.Props
open Verif Verif.Spec Verif.Simplex

variable {K : Type} [Field K]

/-! ## C37

The map from the unit simplex exists for simplices of dimension at least 1; for a point see `C67_point`. -/

/-- C37: `affine_map_from_unit(vertices)` maps the i:th vertex of the unit simplex to `vertices[i]`. -/
theorem C37_from_unit_vertices {k n : ℕ} (v : Vertices K k n) (_h1 : 1 ≤ k) (hk : k ≤ n) :
    ∃ phi, affineFromUnit v = .ok phi ∧ ∀ i, createAffineMap phi (Simplex.unit K k i) = v i := by
  refine ⟨(Matrix.of fun j i => v i.succ j - v 0 j, v 0), ?_, ?_⟩
  · unfold affineFromUnit; simp [hk]
  · intro i
    funext j
    simp only [createAffineMap, Simplex.unit, Pi.add_apply, Matrix.mulVec, dotProduct, Matrix.of_apply]
    refine Fin.cases ?_ (fun i => ?_) i
    · have : ∀ x : Fin k, (0 : Fin (k + 1)) ≠ x.succ := fun x => (Fin.succ_ne_zero x).symm
      simp [this]
    · simp [Fin.succ_inj]

/-- C37: a simplex of too high dimension for its space is rejected. -/
theorem C37_from_unit_dimension {k n : ℕ} (v : Vertices K k n) (hk : n < k) : affineFromUnit v = .error .assertion := by
  unfold affineFromUnit; simp [Nat.not_le.2 hk]

/-- C37: on all points, `affine_map_from_unit` is the barycentric combination of the vertices. -/
theorem C37_from_unit_points {k n : ℕ} (v : Vertices K k n) (_h1 : 1 ≤ k) (hk : k ≤ n) :
    ∃ phi, affineFromUnit v = .ok phi ∧
      ∀ u : Fin k → K, createAffineMap phi u = (1 - ∑ i, u i) • v 0 + ∑ i, u i • v i.succ := by
  refine ⟨(Matrix.of fun j i => v i.succ j - v 0 j, v 0), ?_, fun u => ?_⟩
  · unfold affineFromUnit; simp [hk]
  · funext j
    simp only [createAffineMap, Pi.add_apply, Matrix.mulVec, dotProduct, Matrix.of_apply, Pi.smul_apply, Finset.sum_apply, smul_eq_mul,
      sub_mul, one_mul, Finset.sum_sub_distrib, Finset.sum_mul]
    rw [show ∑ i, v i.succ j * u i = ∑ i, u i * v i.succ j from Finset.sum_congr rfl fun _ _ => mul_comm _ _,
      show ∑ i, v 0 j * u i = ∑ i, u i * v 0 j from Finset.sum_congr rfl fun _ _ => mul_comm _ _]
    ring

/-- C37: the map to the unit simplex and the map from it are inverses of each other, for every non-degenerate simplex. -/
theorem C37_to_unit_inverse [DecidableEq K] {n : ℕ} (v : Vertices K n n) (_h1 : 1 ≤ n) (hd : edgeDet v ≠ 0) :
    ∃ phi psi, affineFromUnit v = .ok phi ∧ affineToUnit v = .ok psi ∧
      (∀ x, createAffineMap phi (createAffineMap psi x) = x) ∧ (∀ x, createAffineMap psi (createAffineMap phi x) = x) := by
  have hu : IsUnit (E v).det := isUnit_iff_ne_zero.2 hd
  have h1 : affineFromUnit v = .ok (E v, v 0) := by unfold affineFromUnit; simp; rfl
  refine ⟨(E v, v 0), ((E v)⁻¹, -((E v)⁻¹.mulVec (v 0))), h1, ?_, fun x => ?_, fun x => ?_⟩
  · unfold affineToUnit
    rw [h1]
    simp only [Py.bind_ok, inverseAffine]
    rw [if_neg (show (E v).det ≠ 0 from hd)]
  · simp only [createAffineMap, Matrix.mulVec_add, Matrix.mulVec_neg, Matrix.mulVec_mulVec, Matrix.mul_nonsing_inv _ hu, Matrix.one_mulVec]
    abel
  · simp only [createAffineMap, Matrix.mulVec_add, Matrix.mulVec_mulVec, Matrix.nonsing_inv_mul _ hu, Matrix.one_mulVec]
    abel

/-- C37: a degenerate simplex has no map to the unit simplex: LinAlgError (ZeroDivisionError on the line). -/
theorem C37_to_unit_degenerate [DecidableEq K] {n : ℕ} (v : Vertices K n n) (hd : edgeDet v = 0) :
    affineToUnit v = .error (if n = 1 then .zeroDivision else .value) := by
  have h1 : affineFromUnit v = .ok (E v, v 0) := by unfold affineFromUnit; simp; rfl
  unfold affineToUnit
  rw [h1]
  simp only [Py.bind_ok, inverseAffine]
  rw [if_pos (show (E v).det = 0 from hd)]

theorem affineComposition_apply {l m n : ℕ} (phi1 : Affine K l m) (phi2 : Affine K m n) (x : Fin l → K) :
    createAffineMap (affineComposition phi1 phi2) x = createAffineMap phi2 (createAffineMap phi1 x) := by
  simp only [createAffineMap, affineComposition, Matrix.mulVec_add, Matrix.mulVec_mulVec, add_assoc]

/-- C37: `affine_composition(phi1, phi2)` evaluates to `phi2(phi1(x))`. The dimensions of the spaces `phi2` maps between are both one or both
different from one: otherwise the code represents numbers by arrays of length one or conversely, and the result depends on the
representation (`C93_composition`). -/
theorem C37_composition {l m n : ℕ} (phi1 : Affine K l m) (phi2 : Affine K m n) (_hd : m = 1 ↔ n = 1) (x : Fin l → K) :
    createAffineMap (affineComposition phi1 phi2) x = createAffineMap phi2 (createAffineMap phi1 x) :=
  affineComposition_apply phi1 phi2 x

/-- C37: `inverse_affine_transformation` inverts every transformation with an invertible matrix and rejects all others. -/
theorem C37_inverse [DecidableEq K] {n : ℕ} (phi : Affine K n n) :
    (phi.1.det ≠ 0 → ∃ psi, inverseAffine phi = .ok psi ∧ (∀ x, createAffineMap psi (createAffineMap phi x) = x) ∧
      (∀ x, createAffineMap phi (createAffineMap psi x) = x)) ∧
    (phi.1.det = 0 → ∃ e, inverseAffine phi = .error e) := by
  refine ⟨fun h => ⟨(phi.1⁻¹, -(phi.1⁻¹.mulVec phi.2)), ?_, fun x => ?_, fun x => ?_⟩, fun h => ⟨if n = 1 then .zeroDivision else .value, ?_⟩⟩
  · unfold inverseAffine; rw [if_neg h]
  · simp only [createAffineMap, Matrix.mulVec_add, Matrix.mulVec_mulVec, Matrix.nonsing_inv_mul _ (isUnit_iff_ne_zero.2 h), Matrix.one_mulVec]
    abel
  · simp only [createAffineMap, Matrix.mulVec_add, Matrix.mulVec_neg, Matrix.mulVec_mulVec, Matrix.mul_nonsing_inv _ (isUnit_iff_ne_zero.2 h),
      Matrix.one_mulVec]
    abel
  · unfold inverseAffine; rw [if_pos h]

/-- C37: `affine_transformation(vertices1, vertices2)` maps vertex i of the first simplex to vertex i of the second. The second one is not a line
in a space of dimension greater than one, for which the code is wrong (`C93_line`). -/
theorem C37_between_simplices [DecidableEq K] {n m : ℕ} (v1 : Vertices K n n) (v2 : Vertices K n m) (h1 : 1 ≤ n) (hd : edgeDet v1 ≠ 0) (hm : n ≤ m)
    (_hl : 2 ≤ n ∨ m = 1) :
    ∃ phi, affineTransformation v1 v2 = .ok phi ∧ ∀ i, createAffineMap phi (v1 i) = v2 i := by
  obtain ⟨p1, q1, h1', h2, h3, h4⟩ := C37_to_unit_inverse v1 h1 hd
  obtain ⟨p1', h1'', h5⟩ := C37_from_unit_vertices v1 h1 (le_refl n)
  rw [h1'] at h1''
  obtain rfl := Except.ok.inj h1''
  obtain ⟨p2, h6, h7⟩ := C37_from_unit_vertices v2 h1 hm
  refine ⟨affineComposition q1 p2, ?_, fun i => ?_⟩
  · unfold affineTransformation
    rw [h2, h6]; rfl
  · rw [affineComposition_apply, ← h5 i, h4, h7]

example : edgeDet (![![1, 0], ![3, 1], ![1, 2]] : Fin 3 → Fin 2 → ℚ) ≠ 0 := by
  simp [edgeDet, Matrix.det_fin_two]; norm_num

/-! ## C38 -/

section Ordered
variable [LinearOrder K] [IsStrictOrderedRing K]

omit [LinearOrder K] [IsStrictOrderedRing K] in
theorem barycentricToCartesian_eq {k n : ℕ} (b : Fin (k + 1) → K) (v : Vertices K k n) :
    barycentricToCartesian b v = ∑ i, b i • v i := by
  unfold barycentricToCartesian
  have h : ∀ (l : List (Fin (k + 1))) (c : Fin n → K), l.foldl (fun p i => p + b i • v i) c = c + (l.map (fun i => b i • v i)).sum := by
    intro l
    induction l with
    | nil => simp
    | cons a l ih => intro c; rw [List.foldl_cons, ih]; simp [add_assoc]
  rw [h, zero_add]
  rw [← List.ofFn_eq_map, List.sum_ofFn]

/-- C38: for a positively oriented simplex, `cartesian_to_barycentric` returns the barycentric coordinates: they sum to one and
combine the vertices to the point. Missing: negatively oriented simplices, for which this is false (`C38_negative_orientation`). -/
theorem C38_barycentric_partial {n : ℕ} (v : Vertices K n n) (hd : 0 < edgeDet v) (x : Fin n → K) :
    IsBarycentric v x (cartesianToBarycentric x v) := by
  rw [isBarycentric_iff v hd.ne', cartesianToBarycentric_eq x v hd.ne']
  funext i
  rw [if_pos hd, one_mul]

/-- C38: the round trip for positively oriented simplices. -/
theorem C38_round_trip_partial {n : ℕ} (v : Vertices K n n) (hd : 0 < edgeDet v) (x : Fin n → K) :
    barycentricToCartesian (cartesianToBarycentric x v) v = x := by
  rw [barycentricToCartesian_eq]
  exact ((C38_barycentric_partial v hd x).2).symm

/-- C38 (negation): for every negatively oriented simplex and every point the result is minus the barycentric coordinates; they sum
to -1, and the round trip returns `-x`. -/
theorem C38_negative_orientation {n : ℕ} (v : Vertices K n n) (hd : edgeDet v < 0) (x : Fin n → K) :
    (∀ w, IsBarycentric v x w → cartesianToBarycentric x v = -w) ∧ ∑ i, cartesianToBarycentric x v i = -1 ∧
    barycentricToCartesian (cartesianToBarycentric x v) v = -x := by
  have h1 : cartesianToBarycentric x v = -lam v x := by
    rw [cartesianToBarycentric_eq x v hd.ne]
    funext i
    rw [if_neg (not_lt.2 hd.le), neg_one_mul]; rfl
  have h2 := (isBarycentric_iff v hd.ne x (lam v x)).2 rfl
  refine ⟨fun w hw => ?_, ?_, ?_⟩
  · rw [h1, (isBarycentric_iff v hd.ne x w).1 hw]
  · rw [h1]
    simp only [Pi.neg_apply, Finset.sum_neg_distrib, h2.1]
  · rw [barycentricToCartesian_eq, h1]
    simp only [Pi.neg_apply, neg_smul, Finset.sum_neg_distrib]
    rw [← h2.2]

/-- C38: the other direction: if the coordinates sum to one, `cartesian_to_barycentric` recovers them (positive orientation). -/
theorem C38_inverse_partial {n : ℕ} (v : Vertices K n n) (hd : 0 < edgeDet v) (w : Fin (n + 1) → K) (hw : ∑ i, w i = 1) :
    cartesianToBarycentric (barycentricToCartesian w v) v = w := by
  have h1 := (isBarycentric_iff v hd.ne' _ _).1 (C38_barycentric_partial v hd (barycentricToCartesian w v))
  rw [h1]
  exact ((isBarycentric_iff v hd.ne' _ _).1 ⟨hw, barycentricToCartesian_eq w v⟩).symm

/-- C38: the caller's vertex array, which is overwritten during the computation, is restored. -/
theorem C38_vertices_restored {n : ℕ} (v : Vertices K n n) (x : Fin n → K) : (cartesianToBarycentricState x v).1 = v := by
  rw [cartesianToBarycentricState_eq]

omit [LinearOrder K] [IsStrictOrderedRing K] in
/-- C38: the variant `_cartesian_to_barycentric_basis` is correct for both orientations. -/
theorem C38_basis_variant {n : ℕ} (v : Vertices K n n) (hd : edgeDet v ≠ 0) (x : Fin n → K) :
    IsBarycentric v x (cartesianToBarycentricBasis x v) := (isBarycentric_iff v hd x _).2 rfl

omit [LinearOrder K] [IsStrictOrderedRing K] in
/-- C38: the unit simplex versions compute barycentric coordinates with respect to the unit simplex and invert each other. -/
theorem C38_unit {n : ℕ} (x : Fin n → K) :
    IsBarycentric (Simplex.unit K n) x (cartesianToBarycentricUnit x) ∧
    barycentricToCartesianUnit (cartesianToBarycentricUnit x) = x ∧
    ∀ w : Fin (n + 1) → K, ∑ i, w i = 1 → cartesianToBarycentricUnit (barycentricToCartesianUnit w) = w := by
  refine ⟨⟨?_, ?_⟩, ?_, ?_⟩
  · rw [Fin.sum_univ_succ]; simp [cartesianToBarycentricUnit]
  · funext j
    rw [Fin.sum_univ_succ]
    have : (0 : Fin (n + 1)) ≠ j.succ := (Fin.succ_ne_zero j).symm
    simp [cartesianToBarycentricUnit, Simplex.unit, this, Fin.succ_inj]
  · funext i; simp [cartesianToBarycentricUnit, barycentricToCartesianUnit]
  · intro w hw
    rw [Fin.sum_univ_succ] at hw
    funext i
    refine Fin.cases ?_ (fun i => ?_) i
    · simp only [cartesianToBarycentricUnit, barycentricToCartesianUnit, Fin.cons_zero]
      rw [← hw]; ring
    · simp [cartesianToBarycentricUnit, barycentricToCartesianUnit]

/-- The triangle (0,0), (0,1), (1,0) is negatively oriented. -/
example : edgeDet (![![0, 0], ![0, 1], ![1, 0]] : Fin 3 → Fin 2 → ℚ) < 0 := by
  simp [edgeDet, Matrix.det_fin_two]

/-! ## C39 -/

/-- C39: for a positively oriented simplex, `inside_simplex(x, vertices)` is True exactly for the convex combinations of the
vertices. Missing: negative orientation (`C39_negative_orientation`). -/
theorem C39_inside_partial {n : ℕ} (v : Vertices K n n) (hd : 0 < edgeDet v) (x : Fin n → K) :
    insideSimplex x v true 0 = true ↔ ∃ w : Fin (n + 1) → K, (∀ i, 0 ≤ w i) ∧ IsBarycentric v x w := by
  have hb := C38_barycentric_partial v hd x
  simp only [insideSimplex, if_true, List.all_eq_true, List.mem_finRange, true_implies, inClosedRange, Bool.and_eq_true, decide_eq_true_eq]
  constructor
  · intro h; exact ⟨_, fun i => (h i).1, hb⟩
  · rintro ⟨w, h0, hw⟩ i
    have h1 : cartesianToBarycentric x v = w := by
      rw [(isBarycentric_iff v hd.ne' x w).1 hw, (isBarycentric_iff v hd.ne' x _).1 hb]
    rw [h1]
    refine ⟨h0 i, ?_⟩
    rw [← hw.1]
    exact Finset.single_le_sum (fun j _ => h0 j) (Finset.mem_univ i)

/-- C39: without the boundary, `inside_simplex` is True exactly for the combinations with positive weights (`n ≥ 1`). -/
theorem C39_interior_partial {n : ℕ} (hn : 1 ≤ n) (v : Vertices K n n) (hd : 0 < edgeDet v) (x : Fin n → K) :
    insideSimplex x v false 0 = true ↔ ∃ w : Fin (n + 1) → K, (∀ i, 0 < w i) ∧ IsBarycentric v x w := by
  have hb := C38_barycentric_partial v hd x
  simp only [insideSimplex, if_true, Bool.false_eq_true, if_false, List.all_eq_true, List.mem_finRange, true_implies, inOpenRange,
    Bool.and_eq_true, decide_eq_true_eq]
  constructor
  · intro h; exact ⟨_, fun i => (h i).1, hb⟩
  · rintro ⟨w, h0, hw⟩ i
    have h1 : cartesianToBarycentric x v = w := by
      rw [(isBarycentric_iff v hd.ne' x w).1 hw, (isBarycentric_iff v hd.ne' x _).1 hb]
    rw [h1]
    refine ⟨h0 i, ?_⟩
    rw [← hw.1]
    obtain ⟨j, hj⟩ : ∃ j, j ≠ i := by
      haveI : Nontrivial (Fin (n + 1)) := Fin.nontrivial_iff_two_le.2 (by omega)
      exact exists_ne i
    exact Finset.single_lt_sum hj (Finset.mem_univ i) (Finset.mem_univ j) (h0 j) (fun k _ _ => (h0 k).le)

/-- C39 (tolerance): with a tolerance `tol > 0` the accepted points of a positively oriented simplex are those whose barycentric
coordinates all lie strictly between `-tol` and `1 + tol`; `include_boundary` is ignored. -/
theorem C39_tolerance_partial {n : ℕ} (v : Vertices K n n) (hd : 0 < edgeDet v) (x : Fin n → K) (tol : K) (ht : 0 < tol) (b : Bool) :
    insideSimplex x v b tol = true ↔ ∃ w : Fin (n + 1) → K, IsBarycentric v x w ∧ ∀ i, -tol < w i ∧ w i < 1 + tol := by
  have hb := C38_barycentric_partial v hd x
  have e : insideSimplex x v b tol =
      (List.finRange (n + 1)).all (fun i => inOpenRange (cartesianToBarycentric x v i) (0 - tol) (1 + tol)) := by
    unfold insideSimplex
    rw [if_neg ht.ne']
  rw [e]
  simp only [List.all_eq_true, List.mem_finRange, true_implies, inOpenRange, Bool.and_eq_true, decide_eq_true_eq, zero_sub]
  constructor
  · intro h; exact ⟨_, hb, h⟩
  · rintro ⟨w, hw, h0⟩
    have h1 : cartesianToBarycentric x v = w := by
      rw [(isBarycentric_iff v hd.ne' x w).1 hw, (isBarycentric_iff v hd.ne' x _).1 hb]
    rwa [h1]

/-- C39 (negation): a negatively oriented simplex contains no point according to `inside_simplex`, not even its own vertices. -/
theorem C39_negative_orientation {n : ℕ} (v : Vertices K n n) (hd : edgeDet v < 0) (x : Fin n → K) (b : Bool) :
    insideSimplex x v b 0 = false := by
  have hs := (C38_negative_orientation v hd x).2.1
  rw [Bool.eq_false_iff]
  intro h
  have h0 : ∀ i, 0 ≤ cartesianToBarycentric x v i := by
    intro i
    unfold insideSimplex at h
    rw [if_pos rfl] at h
    cases b
    · simp only [Bool.false_eq_true, if_false, List.all_eq_true, List.mem_finRange, true_implies, inOpenRange, Bool.and_eq_true, decide_eq_true_eq] at h
      exact (h i).1.le
    · simp only [if_true, List.all_eq_true, List.mem_finRange, true_implies, inClosedRange, Bool.and_eq_true, decide_eq_true_eq] at h
      exact (h i).1
  have := Finset.sum_nonneg (fun i (_ : i ∈ Finset.univ) => h0 i)
  rw [hs] at this
  linarith

/-! ## C57: volumes, orientation, trilinear coordinates -/

/-- C57: `volume` is the absolute value of `signed_volume`; `orientation` is the sign of the determinant of the edges (1 for a
degenerate simplex). -/
theorem C57_volume_orientation {n : ℕ} (v : Vertices K n n) :
    Simplex.volume v = |signedVolume v| ∧ 0 ≤ Simplex.volume v ∧ (Simplex.orientation v = 1 ↔ 0 ≤ edgeDet v) ∧
    (Simplex.orientation v = -1 ↔ edgeDet v < 0) := by
  have hf : (0 : K) < n.factorial := Nat.cast_pos.2 (Nat.factorial_pos n)
  have h1 : 0 ≤ signedVolume v ↔ 0 ≤ edgeDet v := by
    rw [signedVolume_eq, le_div_iff₀ hf, zero_mul]
  refine ⟨rfl, abs_nonneg _, ?_, ?_⟩
  · unfold Simplex.orientation
    split <;> rename_i h <;> rw [h1] at h <;> simp [h]
  · unfold Simplex.orientation
    split <;> rename_i h <;> rw [h1] at h
    · simp [not_lt.2 h]
    · simp [not_le.1 h]

omit [LinearOrder K] [IsStrictOrderedRing K] in
/-- C57: the volume of the unit simplex given by `volume_unit(n)` is `1 / n!` and agrees with `signed_volume(unit(n))`. -/
theorem C57_volume_unit (n : ℕ) : signedVolume (Simplex.unit K n) = volumeUnit K n ∧ volumeUnit K n = 1 / (n.factorial : K) := by
  refine ⟨?_, rfl⟩
  rw [signedVolume_eq, volumeUnit]
  congr 1
  have : (Matrix.of fun (j i : Fin n) => Simplex.unit K n i.succ j - Simplex.unit K n 0 j) = 1 := by
    ext j i
    have h0 : (0 : Fin (n + 1)) ≠ j.succ := (Fin.succ_ne_zero j).symm
    simp [Simplex.unit, Fin.succ_inj, Matrix.one_apply, h0, eq_comm]
  rw [edgeDet, this, Matrix.det_one]

omit [IsStrictOrderedRing K] in
/-- C57: converting barycentric to trilinear coordinates and back returns the barycentric coordinates, also after scaling the
trilinear coordinates by any non-zero factor, whatever (non-zero) values the face volumes have (`n ≥ 1`). -/
theorem C57_trilinear_round_trip [IsStrictOrderedRing K] {n : ℕ} (hn : 1 ≤ n) (v : Vertices K n n) (hd : edgeDet v ≠ 0) (fv : Fin (n + 1) → K)
    (hfv : ∀ i, fv i ≠ 0) (b : Fin (n + 1) → K) (hb : ∑ i, b i = 1) (t : K) (ht : t ≠ 0) :
    trilinearToBarycentric (fun i => t * barycentricToTrilinear b v fv i) v fv = b := by
  have hv : Simplex.volume v ≠ 0 := by
    unfold Simplex.volume
    rw [signedVolume_eq, abs_ne_zero]
    exact div_ne_zero hd (Nat.cast_ne_zero.2 (Nat.factorial_ne_zero _))
  have hn' : (n : K) ≠ 0 := Nat.cast_ne_zero.2 (by omega)
  have h1 : ∀ i, t * barycentricToTrilinear b v fv i * fv i / Simplex.volume v = t * n * b i := by
    intro i
    have := hfv i
    unfold barycentricToTrilinear
    field_simp
  unfold trilinearToBarycentric
  simp only [h1]
  rw [← Finset.mul_sum, hb, mul_one]
  funext i
  field_simp

end Ordered

/-- C57: permuting the vertices multiplies `signed_volume` by the sign of the permutation. -/
theorem C57_permute_vertices {n : ℕ} (v : Vertices K n n) (σ : Equiv.Perm (Fin (n + 1))) :
    signedVolume (v ∘ σ) = (Equiv.Perm.sign σ : ℤ) * signedVolume v := by
  rw [signedVolume_eq, signedVolume_eq, edgeDet_perm, mul_div_assoc]

/-- C57: translating the simplex keeps `signed_volume`; a linear map multiplies it by its determinant. -/
theorem C57_affine_image {n : ℕ} (v : Vertices K n n) (phi : Affine K n n) :
    signedVolume (fun i => createAffineMap phi (v i)) = phi.1.det * signedVolume v := by
  rw [signedVolume_eq, signedVolume_eq, ← mul_div_assoc]
  congr 1
  unfold edgeDet
  rw [← Matrix.det_mul]
  congr 1
  ext j i
  simp only [createAffineMap, Matrix.of_apply, Matrix.mul_apply, Pi.add_apply, Matrix.mulVec, dotProduct, mul_sub, Finset.sum_sub_distrib]
  ring

/-- C57: the centroid is the point all of whose barycentric coordinates are equal. -/
theorem C57_centroid [CharZero K] {k n : ℕ} (v : Vertices K k n) :
    IsBarycentric v (centroid v) (fun _ => 1 / ((k + 1 : ℕ) : K)) := by
  have h : ((k + 1 : ℕ) : K) ≠ 0 := Nat.cast_ne_zero.2 (by omega)
  constructor
  · rw [Finset.sum_const, Finset.card_univ, Fintype.card_fin, nsmul_eq_mul, mul_one_div, div_self h]
  · funext j
    simp only [centroid, Finset.sum_apply, Pi.smul_apply, smul_eq_mul]
    rw [Finset.sum_div]
    exact Finset.sum_congr rfl (fun i _ => by ring)

end Verif.Props
