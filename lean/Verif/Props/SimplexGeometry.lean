import Verif.Lemmas.SimplexGeometry4
/-!
# C67, C68: simplices embedded in a space of higher dimension; special points, normals, distances

`QRContract qr` is the contract of the external function `np.linalg.qr` (its first result is the orthonormal factor of a QR decomposition);
`exists_qrContract` shows that it can be met.
-/

namespace Verif.Props
open Verif Verif.Spec Verif.Simplex Verif.SimplexGeometry

variable {k n : ℕ}

/-! ## C67 -/

/-- **C67** `orthonormal_basis` from a base vertex: orthonormal vectors such that the edge to the `i`-th following vertex is a combination of the
first `i + 1` of them, with a positive last coefficient (the Gram-Schmidt process). -/
theorem C67_orthonormal_basis (qr : QR) (hqr : QRContract qr) (v : Vertices ℝ k n) (hk : 1 ≤ k) (h : NonDegenerate v) (base : Fin (k + 1)) :
    ∃ b, orthonormalBasis qr v base = .ok b ∧
      (∀ i j, ∑ a, b a i * b a j = if i = j then 1 else 0) ∧
      ∃ u : Fin k → Fin k → ℝ, (∀ i : Fin k, v (base + i.succ) - v base = ∑ j, u j i • (fun a => b a j)) ∧
        (∀ i j, i < j → u j i = 0) ∧ ∀ i, 0 < u i i := by
  obtain ⟨b, u, h1, h2, h3⟩ := orthonormalBasis_spec qr hqr v base (by omega) (nonDegenerate_le v h)
  refine ⟨b, h1, fun i j => ?_, u, fun i => ?_, fun i j hij => h2.tri j i hij, fun i =>
    lt_of_le_of_ne (h3 i) (Ne.symm (qr_diag_ne h2 ((nonDegenerate_iff _).1 (nonDegenerate_perm v _ h)) i))⟩
  · have := congrFun (congrFun h2.orth i) j
    rw [Matrix.one_apply] at this
    exact this
  · have hcol : ∀ a, (edgeM (v ∘ rot base)) a i = (b * u) a i := by intro a; rw [← h2.prod]
    funext a
    have := hcol a
    simp only [edgeM, rot, Matrix.of_apply, Function.comp, Equiv.coe_addLeft, add_zero, Matrix.mul_apply] at this
    rw [Pi.sub_apply, this, Finset.sum_apply]
    exact Finset.sum_congr rfl fun j _ => by simp [mul_comm]

/-- **C67** `local_coordinates` maps the simplex without changing any distance, vertex 0 to the origin, vertex `i` to a point whose coordinates
after the `i`-th vanish and whose `i`-th is not negative (positive if the simplex is not degenerate). -/
theorem C67_local_coordinates (qr : QR) (hqr : QRContract qr) (v : Vertices ℝ k n) (hk : 1 ≤ k) (hkn : k ≤ n) :
    ∃ w, localCoordinates qr v = .ok w ∧ w 0 = 0 ∧ (∀ i j, len (w i - w j) = len (v i - v j)) ∧
      (∀ i j : Fin k, i < j → w i.succ j = 0) ∧ (∀ i : Fin k, 0 ≤ w i.succ i) ∧ (NonDegenerate v → ∀ i : Fin k, 0 < w i.succ i) := by
  obtain ⟨b, u, w, h1, h2, h3, h4, h5, h6⟩ := localCoordinates_spec qr hqr v (by omega) hkn
  have hw0 : w 0 = 0 := by rw [h5, sub_self, Matrix.mulVec_zero]
  have hu : ∀ i j : Fin k, w i.succ j = u j i := by
    intro i j
    rw [← h6]
    simp [edgeM, hw0]
  refine ⟨w, h4, hw0, fun i j => ?_, fun i j hij => by rw [hu]; exact h2.tri j i hij, fun i => by rw [hu]; exact h3 i, fun hnd i => ?_⟩
  · -- the difference of two vertices lies in the span of the basis
    have hq : ∀ i, v i - v 0 = b.mulVec (w i) := by
      intro i
      refine Fin.cases ?_ (fun i => ?_) i
      · rw [sub_self, hw0, Matrix.mulVec_zero]
      · funext a
        have : edgeM v a i = (b * u) a i := by rw [← h2.prod]
        simp only [edgeM, Matrix.of_apply, Matrix.mul_apply] at this
        rw [Pi.sub_apply, this]
        exact Finset.sum_congr rfl fun j _ => by rw [hu]
    have e : v i - v j = b.mulVec (w i - w j) := by
      rw [Matrix.mulVec_sub, ← hq, ← hq]; abel
    rw [e, len_eq_sqrt, len_eq_sqrt, orth_dot h2.orth]
  · rw [hu]
    exact lt_of_le_of_ne (h3 i) (Ne.symm (qr_diag_ne h2 ((nonDegenerate_iff _).1 hnd) i))

/-- **C67** `volume` for a simplex of any dimension `k ≤ n`: the nonnegative number whose product with `k!` has the Gram determinant of the edges
as its square. It is positive exactly for non-degenerate simplices and does not depend on the order of the vertices. -/
theorem C67_volume (qr : QR) (hqr : QRContract qr) (v : Vertices ℝ k n) (hkn : k ≤ n) :
    ∃ vol, SimplexGeometry.volume qr v = .ok vol ∧ 0 ≤ vol ∧ ((k.factorial : ℝ) * vol) ^ 2 = gram v ∧ (0 < vol ↔ NonDegenerate v) ∧
      ∀ σ : Equiv.Perm (Fin (k + 1)), SimplexGeometry.volume qr (v ∘ σ) = .ok vol := by
  have hf : (0 : ℝ) < (k.factorial : ℝ) := Nat.cast_pos.2 (Nat.factorial_pos k)
  refine ⟨_, volume_eq qr hqr v hkn, by positivity, ?_, ?_, fun σ => ?_⟩
  · rw [mul_div_cancel₀ _ hf.ne', Real.sq_sqrt (gram_nonneg v hkn)]
  · rw [nonDegenerate_iff_gram v hkn, div_pos_iff_of_pos_right hf]
    exact Real.sqrt_pos
  · rw [volume_eq qr hqr _ hkn, gram_perm]

/-- **C67** `volume` and `signed_volume` of a simplex of full dimension: `volume` is the absolute value. -/
theorem C67_volume_full (qr : QR) (v : Vertices ℝ (k + 1) (k + 1)) :
    ∃ s, signedVolumeE v = .ok s ∧ s = edgeDet v / ((k + 1).factorial : ℝ) ∧ SimplexGeometry.volume qr v = .ok |s| := by
  have h : signedVolumeE v = .ok (signedVolume v) := by
    unfold signedVolumeE
    rw [if_neg (by omega), if_neg (by omega), dif_pos rfl]
    rfl
  refine ⟨signedVolume v, h, signedVolume_eq v, ?_⟩
  unfold SimplexGeometry.volume
  rw [if_neg (by omega), if_neg (by omega), h]
  rfl

/-- **C67** There is no signed volume for an embedded simplex, nor any volume for a simplex with more dimensions than its space: ValueError. -/
theorem C67_volume_error (qr : QR) (v : Vertices ℝ (k + 1) n) :
    (k + 1 < n → signedVolumeE v = .error .value) ∧
      (n < k + 1 → signedVolumeE v = .error .value ∧ SimplexGeometry.volume qr v = .error .value) := by
  refine ⟨fun h => ?_, fun h => ?_⟩
  · unfold signedVolumeE
    rw [if_neg (by omega), if_pos h]
  · have h1 : signedVolumeE v = .error .value := by
      unfold signedVolumeE
      rw [if_neg (by omega), if_neg (by omega), dif_neg (by omega)]
    refine ⟨h1, ?_⟩
    unfold SimplexGeometry.volume
    rw [if_neg (by omega), if_neg (by omega), h1]
    rfl

/-- **C67** `in_subspace` is True exactly if the distance from the point to the plane of the simplex is at most the tolerance. -/
theorem C67_in_subspace (qr : QR) (hqr : QRContract qr) (v : Vertices ℝ k n) (h : NonDegenerate v) (p : Fin n → ℝ) (tol : ℝ) (ht : 0 ≤ tol) :
    ∃ d res, IsDistance p (Hull v) d ∧ inSubspace qr p v tol = .ok res ∧ (res = true ↔ d ≤ tol) := by
  obtain ⟨y, h1, h2⟩ := inSubspace_spec qr hqr v h p tol ht
  exact ⟨_, _, ⟨⟨y, h1.1, rfl⟩, h1.2⟩, h2, by simp⟩

/-- **C67** `affine_map_from_unit` for an embedded simplex: the point with barycentric coordinates `1 - Σ u, u`. -/
theorem C67_from_unit (v : Vertices ℝ k n) (hk : 1 ≤ k) (hkn : k ≤ n) (u : Fin k → ℝ) :
    ∃ x, affineMapFromUnit v u = .ok x ∧ IsBarycentric v x (Fin.cons (1 - ∑ i, u i) u : Fin (k + 1) → ℝ) :=
  ⟨_, affineMapFromUnit_eq v (by omega) hkn u, weights_bary v u⟩

/-- **C67** `affine_map_to_unit` undoes `affine_map_from_unit` for every non-degenerate simplex, embedded or of full dimension. A point that is
not in the plane of the simplex is first projected to it if it is no farther away than 1e-14, and is rejected otherwise. -/
theorem C67_to_unit (qr : QR) (hqr : QRContract qr) (v : Vertices ℝ k n) (hk : 1 ≤ k) (h : NonDegenerate v) :
    (∀ u x, affineMapFromUnit v u = .ok x → affineMapToUnit qr v x = .ok u) ∧
      ∀ x, ∃ y, IsNearest x (Hull v) y ∧
        (len (x - y) ≤ 1 / 10 ^ 14 → ∃ u, affineMapToUnit qr v x = .ok u ∧ affineMapFromUnit v u = .ok y) ∧
        (1 / 10 ^ 14 < len (x - y) → affineMapToUnit qr v x = .error .assertion) := by
  have hk' : k ≠ 0 := by omega
  have hkn := nonDegenerate_le v h
  refine ⟨fun u x hx => ?_, fun x => ?_⟩
  · obtain ⟨y, h1, h2⟩ := affineMapToUnit_spec qr hqr v hk' h x
    rw [affineMapFromUnit_eq v hk' hkn] at hx
    cases hx
    have hy := nearest_self v ((mem_hull v _).2 ⟨u, rfl⟩) h1
    rw [h2, hy, sub_self, if_pos]
    · rw [add_sub_cancel_left, pinv_edge v h]
    · simp [len, tol14]
  · obtain ⟨y, h1, h2⟩ := affineMapToUnit_spec qr hqr v hk' h x
    refine ⟨y, h1, fun hd => ⟨_, h2.trans (if_pos hd), ?_⟩, fun hd => h2.trans (if_neg (not_le.2 hd))⟩
    rw [affineMapFromUnit_eq v hk' hkn]
    have h3 := pinv_nearest v h x
    have ho : (edgeM v).transpose.mulVec (x - (v 0 + (edgeM v).mulVec ((Linalg.pinv (edgeM v)).mulVec (x - v 0)))) = 0 := by
      have hdet := Linalg.gram_det ((nonDegenerate_iff v).1 h)
      have : (edgeM v).transpose * (edgeM v * Linalg.pinv (edgeM v)) = (edgeM v).transpose := by
        unfold Linalg.pinv
        rw [← Matrix.mul_assoc, ← Matrix.mul_assoc, Matrix.mul_nonsing_inv _ (Ne.isUnit hdet), Matrix.one_mul]
      have e : x - (v 0 + (edgeM v).mulVec ((Linalg.pinv (edgeM v)).mulVec (x - v 0))) =
          (x - v 0) - (edgeM v).mulVec ((Linalg.pinv (edgeM v)).mulVec (x - v 0)) := by abel
      rw [e, Matrix.mulVec_sub, Matrix.mulVec_mulVec, Matrix.mulVec_mulVec, Matrix.mul_assoc, this, sub_self]
    rw [(nearest_of_orth v h3.1 ho).2 y h1]

/-- **C67** A degenerate embedded simplex has no map to the unit simplex: AssertionError. -/
theorem C67_to_unit_degenerate (qr : QR) (v : Vertices ℝ k n) (hk : 1 ≤ k) (hkn : k < n) (h : ¬ NonDegenerate v) (x : Fin n → ℝ) :
    affineMapToUnit qr v x = .error .assertion := by
  unfold affineMapToUnit
  rw [toUnit_degenerate v (by omega) hkn h]
  rfl

/-- The composition of the matrices and offsets for two simplices. -/
theorem affineTransformationE_between (v1 : Vertices ℝ k n) {m : ℕ} (v2 : Vertices ℝ k m) (hk : 1 ≤ k) (h : NonDegenerate v1) (hm : k ≤ m) :
    ∃ ab, affineTransformationE v1 v2 = .ok ab ∧ (∀ i, createAffineMap ab (v1 i) = v2 i) ∧
      ∀ x w, IsBarycentric v1 x w → IsBarycentric v2 (createAffineMap ab x) w := by
  have hk' : k ≠ 0 := by omega
  obtain ⟨phi, h1, h2⟩ := toUnit_eq v1 hk' h
  have hrun : affineTransformationE v1 v2 = .ok (affineComposition phi (edgeM v2, v2 0)) := by
    unfold affineTransformationE
    rw [h1, fromUnit_eq v2 hk' hm]
    rfl
  have hb : ∀ x w, IsBarycentric v1 x w → IsBarycentric v2 (createAffineMap (affineComposition phi (edgeM v2, v2 0)) x) w := by
    intro x w hw
    refine ⟨hw.1, ?_⟩
    have hc : createAffineMap (affineComposition phi (edgeM v2, v2 0)) x = v2 0 + (edgeM v2).mulVec (createAffineMap phi x) := by
      rw [affineComposition_apply]
      simp only [createAffineMap]
      rw [add_comm]
    rw [hc, h2, hw.2, bary_edge v1 w hw.1, add_sub_cancel_left, pinv_edge v1 h, ← bary_edge v2 w hw.1]
  refine ⟨_, hrun, fun i => ?_, hb⟩
  have hi : IsBarycentric v1 (v1 i) (fun j => if j = i then 1 else 0) := by
    refine ⟨by simp, ?_⟩
    simp
  have := (hb _ _ hi).2
  simpa using this

/-- **C67** `affine_transformation` between two simplices of the same dimension, in spaces of any dimension, but the second not a line in a space
of dimension greater than one (for which the code is wrong, `C93_line`): an affine map which takes each vertex of the first to the
corresponding vertex of the second, and the point with barycentric coordinates `w` to the point with the same coordinates. -/
theorem C67_between (v1 : Vertices ℝ k n) {m : ℕ} (v2 : Vertices ℝ k m) (hk : 1 ≤ k) (h : NonDegenerate v1) (hm : k ≤ m)
    (_hl : 2 ≤ k ∨ m = 1) :
    ∃ ab, affineTransformationE v1 v2 = .ok ab ∧ (∀ i, createAffineMap ab (v1 i) = v2 i) ∧
      ∀ x w, IsBarycentric v1 x w → IsBarycentric v2 (createAffineMap ab x) w := affineTransformationE_between v1 v2 hk h hm

/-- **C67** `cartesian_to_barycentric` for an embedded simplex: the barycentric coordinates of the point of the plane of the simplex nearest to
the point (the point itself if it lies in that plane), whatever the order of the vertices; AssertionError for a point farther away than
1e-14. -/
theorem C67_barycentric (qr : QR) (hqr : QRContract qr) (v : Vertices ℝ k n) (hk : 1 ≤ k) (hkn : k < n) (h : NonDegenerate v) :
    (∀ p w, IsBarycentric v p w → cartesianToBarycentricE qr p v = .ok w) ∧
      ∀ p, ∃ y, IsNearest p (Hull v) y ∧
        (len (p - y) ≤ 1 / 10 ^ 14 → ∃ w, cartesianToBarycentricE qr p v = .ok w ∧ IsBarycentric v y w) ∧
        (1 / 10 ^ 14 < len (p - y) → cartesianToBarycentricE qr p v = .error .assertion) := by
  refine ⟨fun p w hw => ?_, fun p => ?_⟩
  · obtain ⟨y, w', h1, h2, h3⟩ := cartesianToBarycentric_spec qr hqr v (by omega) h hkn p
    have hy := nearest_self v ⟨w, hw⟩ h1
    rw [hy] at h2
    rw [h3, hy, sub_self, if_pos]
    · rw [bary_unique v h h2 hw]
    · simp [len, tol14]
  · obtain ⟨y, w', h1, h2, h3⟩ := cartesianToBarycentric_spec qr hqr v (by omega) h hkn p
    exact ⟨y, h1, fun hd => ⟨w', h3.trans (if_pos hd), h2⟩, fun hd => h3.trans (if_neg (not_le.2 hd))⟩

/-- **C67** `barycentric_to_cartesian` undoes `cartesian_to_barycentric` on the plane of an embedded simplex. -/
theorem C67_round_trip (qr : QR) (hqr : QRContract qr) (v : Vertices ℝ k n) (hk : 1 ≤ k) (hkn : k < n) (h : NonDegenerate v) (p : Fin n → ℝ)
    (hp : p ∈ Hull v) : ∃ w, cartesianToBarycentricE qr p v = .ok w ∧ barycentricToCartesian w v = p := by
  obtain ⟨w, hw⟩ := hp
  refine ⟨w, (C67_barycentric qr hqr v hk hkn h).1 p w hw, ?_⟩
  rw [barycentricToCartesian_eq]
  exact hw.2.symm

/-- **C67** The variant `_cartesian_to_barycentric_basis` gives the barycentric coordinates of the nearest point of the plane, for any point. -/
theorem C67_barycentric_basis (v : Vertices ℝ k n) (hk : 1 ≤ k) (h : NonDegenerate v) (p : Fin n → ℝ) :
    ∃ y w, cartesianToBarycentricBasisE p v = .ok w ∧ IsNearest p (Hull v) y ∧ IsBarycentric v y w := by
  refine ⟨_, _, ?_, pinv_nearest v h p, weights_bary v _⟩
  unfold cartesianToBarycentricBasisE
  rw [basis_zero v (by omega)]
  rfl

/-- **C67** `inside_simplex` for a point in the plane of an embedded simplex: True exactly for the points of the simplex; without the boundary,
for those with positive barycentric coordinates; with a tolerance, for those whose coordinates lie between `-tol` and `1 + tol`. -/
theorem C67_inside (qr : QR) (hqr : QRContract qr) (v : Vertices ℝ k n) (hk : 1 ≤ k) (hkn : k < n) (h : NonDegenerate v) (p : Fin n → ℝ)
    (w : Fin (k + 1) → ℝ) (hw : IsBarycentric v p w) :
    (∃ res, insideSimplexE qr p v true 0 = .ok res ∧ (res = true ↔ p ∈ Points v)) ∧
      (∃ res, insideSimplexE qr p v false 0 = .ok res ∧ (res = true ↔ ∀ i, 0 < w i)) ∧
      ∀ tol b, 0 < tol → ∃ res, insideSimplexE qr p v b tol = .ok res ∧ (res = true ↔ ∀ i, -tol < w i ∧ w i < 1 + tol) := by
  have hb := (C67_barycentric qr hqr v hk hkn h).1 p w hw
  refine ⟨⟨(List.finRange (k + 1)).all (fun i => inClosedRange (w i) 0 1), ?_, ?_⟩,
    ⟨(List.finRange (k + 1)).all (fun i => inOpenRange (w i) 0 1), ?_, ?_⟩, fun tol b ht =>
    ⟨(List.finRange (k + 1)).all (fun i => inOpenRange (w i) (0 - tol) (1 + tol)), ?_, ?_⟩⟩
  · unfold insideSimplexE; rw [hb]; simp
  · simp only [List.all_eq_true, List.mem_finRange, true_implies, inClosedRange, Bool.and_eq_true, decide_eq_true_eq]
    constructor
    · intro hall; exact ⟨w, hw, fun i => (hall i).1⟩
    · rintro ⟨w', hw', h0⟩ i
      rw [bary_unique v h hw hw']
      exact ⟨h0 i, by rw [← hw'.1]; exact Finset.single_le_sum (fun j _ => h0 j) (Finset.mem_univ i)⟩
  · unfold insideSimplexE; rw [hb]; simp
  · simp only [List.all_eq_true, List.mem_finRange, true_implies, inOpenRange, Bool.and_eq_true, decide_eq_true_eq]
    constructor
    · intro hall i; exact (hall i).1
    · intro h0 i
      refine ⟨h0 i, ?_⟩
      rw [← hw.1]
      obtain ⟨j, hj⟩ : ∃ j, j ≠ i := by
        have : Nontrivial (Fin (k + 1)) := Fin.nontrivial_iff_two_le.2 (by omega)
        exact exists_ne i
      exact Finset.single_lt_sum hj (Finset.mem_univ i) (Finset.mem_univ j) (h0 j) (fun l _ _ => (h0 l).le)
  · unfold insideSimplexE; rw [hb]; simp [ht.ne']
  · simp only [List.all_eq_true, List.mem_finRange, true_implies, inOpenRange, Bool.and_eq_true, decide_eq_true_eq, zero_sub]

/-- **C67** More than `n + 1` vertices in `ℝⁿ` are not a simplex: the maps from and to the unit simplex raise AssertionError. -/
theorem C67_too_many_vertices (qr : QR) (v : Vertices ℝ k n) (h : n < k) :
    (∀ u, affineMapFromUnit v u = .error .assertion) ∧ ∀ x, affineMapToUnit qr v x = .error .assertion := by
  have h1 : affineTransformationFromUnit v = .error .assertion := by
    unfold affineTransformationFromUnit
    rw [decide_eq_false (by omega)]
    rfl
  refine ⟨fun u => ?_, fun x => ?_⟩
  · unfold affineMapFromUnit; rw [h1]; rfl
  · unfold affineMapToUnit affineTransformationToUnit; rw [h1]; rfl

/-- **C67** What a single point (a 0-dimensional simplex) does: `basis`, `orthonormal_basis` raise TypeError, the maps from and to the unit
simplex IndexError; `cartesian_to_barycentric` in a space of positive dimension raises TypeError even for the point itself, and AssertionError for
any other point (farther away than 1e-14). -/
theorem C67_point (qr : QR) (v : Vertices ℝ 0 n) :
    SimplexGeometry.basis v 0 = .error .type ∧ orthonormalBasis qr v 0 = .error .type ∧
      (∀ u, affineMapFromUnit v u = .error .index) ∧ (∀ x, affineMapToUnit qr v x = .error .index) ∧
      SimplexGeometry.volume qr v = .ok 1 ∧ signedVolumeE v = .ok 1 ∧
      (1 ≤ n → ∀ p, (len (p - v 0) ≤ 1 / 10 ^ 14 → cartesianToBarycentricE qr p v = .error .type) ∧
        (1 / 10 ^ 14 < len (p - v 0) → cartesianToBarycentricE qr p v = .error .assertion)) := by
  have h1 : affineTransformationFromUnit v = .error .index := by
    unfold affineTransformationFromUnit
    simp
  refine ⟨rfl, rfl, fun u => ?_, fun x => ?_, rfl, rfl, fun hn p => ?_⟩
  · unfold affineMapFromUnit; rw [h1]; rfl
  · unfold affineMapToUnit affineTransformationToUnit; rw [h1]; rfl
  · have hin : inSubspace qr p v tol14 = .ok (open Classical in decide (len (p - v 0) ≤ tol14)) := by
      unfold inSubspace
      rw [if_neg (by omega), if_pos rfl, norm_eq_len]
    unfold cartesianToBarycentricE
    rw [if_pos (by omega), hin]
    refine ⟨fun hd => ?_, fun hd => ?_⟩
    · have : len (p - v 0) ≤ tol14 := hd
      simp only [Py.bind_ok, decide_eq_true this]
      rfl
    · have : ¬ len (p - v 0) ≤ tol14 := not_le.2 hd
      simp only [Py.bind_ok, decide_eq_false this]
      rfl

/-- A triangle in space. -/
def tri3 : Vertices ℝ 2 3 := ![![1, 0, 0], ![0, 2, 0], ![0, 0, 3]]

/-- The hypotheses are met by the triangle and by a function `qr` with the contract. -/
theorem tri3_nonDegenerate : NonDegenerate tri3 := by
  intro w hs hw
  have e : ∑ i, w i • tri3 i = w 0 • tri3 0 + w 1 • tri3 1 + w 2 • tri3 2 := Fin.sum_univ_three (fun i => w i • tri3 i)
  rw [e] at hw
  have h0 := congrFun hw 0
  have h1 := congrFun hw 1
  have h2 := congrFun hw 2
  simp [tri3] at h0 h1 h2
  funext i
  fin_cases i
  · exact h0
  · exact h1
  · exact h2

example : ∃ qr : QR, QRContract qr ∧ ∃ vol, SimplexGeometry.volume qr tri3 = .ok vol ∧ 0 < vol := by
  obtain ⟨qr, h⟩ := exists_qrContract
  obtain ⟨vol, h1, _, _, h2, _⟩ := C67_volume qr h tri3 (by norm_num)
  exact ⟨qr, h, vol, h1, h2.2 tri3_nonDegenerate⟩

/-! ## C68 -/

/-- What is known about the facets of a non-degenerate simplex. -/
theorem facets (qr : QR) (hqr : QRContract qr) (v : Vertices ℝ (k + 1) n) (h : NonDegenerate v) :
    ∃ (V : ℝ) (F t : Fin (k + 2) → ℝ), SimplexGeometry.volume qr v = .ok V ∧ 0 < V ∧
      ∀ i : Fin (k + 2), faceVolume qr v i = .ok (F i) ∧ 0 < F i ∧ 0 < t i ∧ ((k + 1 : ℕ) : ℝ) * V = F i * t i ∧
        ∀ x w, IsBarycentric v x w → IsDistance x (FacetHull v i) (|w i| * t i) := by
  have hh := fun i => face_height qr hqr v h i
  choose V F t h1 h2 h3 h4 h5 h6 h7 using hh
  have hV : ∀ i, V i = V 0 := fun i => by
    have := (h1 i).symm.trans (h1 0)
    exact Except.ok.inj this
  exact ⟨V 0, F, t, h1 0, h3 0, fun i => ⟨h2 i, h4 i, h5 i, by rw [← hV i]; exact h6 i, h7 i⟩⟩

theorem vertex_bary (v : Vertices ℝ k n) (i : Fin (k + 1)) : IsBarycentric v (v i) (fun j => if j = i then 1 else 0) :=
  ⟨by simp, by simp⟩

/-- **C68** `altitude(vertices, i)` is the distance from vertex `i` to the plane of the opposite facet. -/
theorem C68_altitude (qr : QR) (hqr : QRContract qr) (v : Vertices ℝ (k + 1) n) (h : NonDegenerate v) (i : Fin (k + 2)) :
    ∃ a, altitude qr v i = .ok a ∧ 0 < a ∧ IsDistance (v i) (FacetHull v i) a := by
  obtain ⟨V, F, t, h1, h2, h3⟩ := facets qr hqr v h
  obtain ⟨g1, g2, g3, g4, g5⟩ := h3 i
  refine ⟨t i, ?_, g3, ?_⟩
  · unfold altitude
    rw [g1, h1]
    simp only [Py.bind_ok, Py.pure_eq, g4]
    rw [mul_comm, mul_div_assoc, div_self g2.ne', mul_one]
  · have := g5 _ _ (vertex_bary v i)
    simpa using this

theorem map_finRange_ofFn {α : Type} {m : ℕ} (f : Fin m → α) : (List.finRange m).map f = List.ofFn f := by
  rw [List.ofFn_eq_map]

theorem toTrilinear_eq (qr : QR) (v : Vertices ℝ (k + 1) n) {V : ℝ} {F t : Fin (k + 2) → ℝ} (h1 : SimplexGeometry.volume qr v = .ok V)
    (h2 : ∀ i : Fin (k + 2), faceVolume qr v i = .ok (F i)) (h3 : ∀ i, 0 < F i) (h4 : ∀ i, ((k + 1 : ℕ) : ℝ) * V = F i * t i) (w : Fin (k + 2) → ℝ) :
    barycentricToTrilinearE qr w v = .ok (List.ofFn fun i => w i * t i) := by
  unfold barycentricToTrilinearE
  rw [h1]
  simp only [Py.bind_ok]
  rw [← map_finRange_ofFn]
  refine mapM_eq_ok _ _ fun i _ => ?_
  rw [h2 i]
  simp only [Py.bind_ok, Py.pure_eq, h4 i]
  congr 1
  have := (h3 i).ne'
  field_simp

theorem toBarycentric_eq (qr : QR) (v : Vertices ℝ (k + 1) n) {V : ℝ} {F : Fin (k + 2) → ℝ} (h1 : SimplexGeometry.volume qr v = .ok V)
    (h2 : ∀ i : Fin (k + 2), faceVolume qr v i = .ok (F i)) (hV : 0 < V) (T : Fin (k + 2) → ℝ) :
    trilinearToBarycentricE qr T v = .ok (List.ofFn fun i => T i * F i / ∑ j, T j * F j) := by
  unfold trilinearToBarycentricE
  rw [h1]
  simp only [Py.bind_ok]
  have e := mapM_eq_ok (fun (i : Fin (k + 2)) => T i * F i / V) (f := fun (i : Fin (k + 2)) => (do
    let vi ← faceVolume qr v i
    return T i * vi / V : Py ℝ)) (List.finRange (k + 2)) (fun i _ => by rw [h2 i]; rfl)
  rw [e, map_finRange_ofFn]
  simp only [Py.bind_ok, Py.pure_eq]
  congr 1
  rw [List.map_ofFn, List.sum_ofFn, ← Finset.sum_div]
  congr 1
  funext i
  simp only [Function.comp]
  have := hV.ne'
  by_cases hs : ∑ j, T j * F j = 0
  · rw [hs]; simp
  · field_simp

/-- **C68** `barycentric_to_trilinear` gives the signed distances from the point to the planes of the facets, positive on the side of the opposite
vertex; `trilinear_to_barycentric` recovers the barycentric coordinates from any nonzero multiple of them. -/
theorem C68_trilinear (qr : QR) (hqr : QRContract qr) (v : Vertices ℝ (k + 1) n) (h : NonDegenerate v) (x : Fin n → ℝ) (w : Fin (k + 2) → ℝ)
    (hw : IsBarycentric v x w) :
    ∃ T : Fin (k + 2) → ℝ, barycentricToTrilinearE qr w v = .ok (List.ofFn T) ∧
      (∀ i, IsDistance x (FacetHull v i) |T i| ∧ (0 < T i ↔ 0 < w i) ∧ (T i < 0 ↔ w i < 0)) ∧
      ∀ c : ℝ, c ≠ 0 → trilinearToBarycentricE qr (c • T) v = .ok (List.ofFn w) := by
  obtain ⟨V, F, t, h1, h2, h3⟩ := facets qr hqr v h
  refine ⟨fun i => w i * t i, toTrilinear_eq qr v h1 (fun i => (h3 i).1) (fun i => (h3 i).2.1) (fun i => (h3 i).2.2.2.1) w, fun i => ?_,
    fun c hc => ?_⟩
  · obtain ⟨g1, g2, g3, g4, g5⟩ := h3 i
    refine ⟨?_, mul_pos_iff_of_pos_right g3, ⟨fun h => by by_contra hc; nlinarith [mul_nonneg (not_lt.1 hc) g3.le], fun h => mul_neg_of_neg_of_pos h g3⟩⟩
    rw [abs_mul, abs_of_pos g3]
    exact g5 x w hw
  · rw [toBarycentric_eq qr v h1 (fun i => (h3 i).1) h2]
    congr 2
    have hkV : ((k + 1 : ℕ) : ℝ) * V ≠ 0 := by positivity
    have e : ∀ i, (c • fun i => w i * t i) i * F i = c * (((k + 1 : ℕ) : ℝ) * V) * w i := by
      intro i
      rw [(h3 i).2.2.2.1]
      simp only [Pi.smul_apply, smul_eq_mul]
      ring
    funext i
    rw [e, Finset.sum_congr rfl fun i _ => e i, ← Finset.mul_sum, hw.1, mul_one]
    rw [mul_comm, mul_div_assoc, div_self (mul_ne_zero hc hkV), mul_one]

/-- **C68** `face_normal(vertices, i)` is the outward unit normal of the facet opposite to vertex `i`, within the plane of the simplex. -/
theorem C68_face_normal (qr : QR) (hqr : QRContract qr) (v : Vertices ℝ (k + 1) n) (h : NonDegenerate v) (i : Fin (k + 2)) :
    ∃ u, faceNormal qr v i = .ok u ∧ IsOutwardNormal v i u := faceNormal_spec qr hqr v h i

/-- **C68** `circumcenter` is the only point of the plane of the simplex with the same distance to all vertices, `circumradius` this distance. -/
theorem C68_circumcenter (qr : QR) (hqr : QRContract qr) (v : Vertices ℝ k n) (h : NonDegenerate v) :
    ∃ c r, circumcenter qr v = .ok c ∧ circumradius qr v = .ok r ∧ c ∈ Hull v ∧ (∀ i, len (c - v i) = r) ∧
      ∀ c' ∈ Hull v, (∀ i j, len (c' - v i) = len (c' - v j)) → c' = c := by
  obtain ⟨c, h1, h2⟩ := circumcenter_spec qr hqr v h
  refine ⟨c, len (c - v 0), h1, ?_, h2.1, fun i => h2.2 i 0, fun c' hc' h' => circumcenter_unique v h2 ⟨hc', h'⟩⟩
  unfold circumradius
  rw [h1]
  simp only [Py.bind_ok, Py.pure_eq, norm_eq_len]

/-- **C68** `incenter` is a point in the interior of the simplex whose distance to the plane of each facet is `inradius`; the program's own check
of the equality of the distances passes. -/
theorem C68_incenter (qr : QR) (hqr : QRContract qr) (v : Vertices ℝ (k + 1) n) (h : NonDegenerate v) :
    ∃ c r, incenter qr v = .ok c ∧ inradius qr v = .ok r ∧ 0 < r ∧ (∃ w, IsBarycentric v c w ∧ ∀ i, 0 < w i) ∧
      ∀ i, IsDistance c (FacetHull v i) r := by
  obtain ⟨V, F, t, h1, h2, h3⟩ := facets qr hqr v h
  have hb := toBarycentric_eq qr v h1 (fun i => (h3 i).1) h2 (fun _ => 1)
  simp only [one_mul] at hb
  have hS : 0 < ∑ j, F j := Finset.sum_pos (fun j _ => (h3 j).2.1) Finset.univ_nonempty
  set w : Fin (k + 2) → ℝ := fun i => F i / ∑ j, F j with hw
  have hget : (fun i : Fin (k + 2) => (List.ofFn w).getD i 0) = w := by
    funext i
    rw [getD_ofFn w i.val i.2]
  have hw1 : ∑ i, w i = 1 := by rw [hw, ← Finset.sum_div, div_self hS.ne']
  have hw0 : ∀ i, 0 < w i := fun i => div_pos (h3 i).2.1 hS
  set r : ℝ := ((k + 1 : ℕ) : ℝ) * V / ∑ j, F j with hr
  have hT : ∀ i, w i * t i = r := by
    intro i
    rw [hw, hr, (h3 i).2.2.2.1]
    ring
  have ht := toTrilinear_eq qr v h1 (fun i => (h3 i).1) (fun i => (h3 i).2.1) (fun i => (h3 i).2.2.2.1) w
  simp only [hT] at ht
  have hbc : IsBarycentric v (∑ i, w i • v i) w := ⟨hw1, rfl⟩
  have hlen : (List.ofFn fun _ : Fin (k + 2) => r).length = k + 2 := by simp
  refine ⟨∑ i, w i • v i, r, ?_, ?_, by positivity, ⟨w, hbc, hw0⟩, fun i => ?_⟩
  · unfold incenter
    rw [hb]
    simp only [Py.bind_ok, Py.pure_eq]
    rw [hget, barycentricToCartesian_eq]
  · unfold inradius
    rw [hb]
    simp only [Py.bind_ok]
    rw [hget, ht]
    simp only [Py.bind_ok]
    have e := mapM_eq_ok (fun _ : Fin (k + 2) => true) (f := fun (i : Fin (k + 2)) => (do
      let x ← getE (List.ofFn fun _ : Fin (k + 2) => r) i
      let y ← getE (List.ofFn fun _ : Fin (k + 2) => r) (wrap (k + 1) (i + 1))
      return (open Classical in decide (|x - y| < 1 / 10 ^ 10)) : Py Bool)) (List.finRange (k + 2)) (fun i _ => by
        rw [getE_ok (by rw [hlen]; exact i.2), getE_ok (by rw [hlen]; exact (wrap (k + 1) (i + 1)).2)]
        simp only [Py.bind_ok, Py.pure_eq, List.getElem_ofFn, sub_self, abs_zero]
        norm_num)
    rw [e]
    simp only [Py.bind_ok]
    have : ((List.finRange (k + 2)).map fun _ => true).all id = true := by simp
    rw [this, getE_ok (by rw [hlen]; omega)]
    simp
  · have := (h3 i).2.2.2.2 _ _ hbc
    rwa [abs_of_pos (hw0 i), hT i] at this

/-- **C68** `edges` lists the edges in the documented order. -/
theorem C68_edges (v : Vertices ℝ k n) : edges v = .ok (edgeList v) := edges_eq v

example : edges tri3 = .ok [tri3 1 - tri3 0, tri3 2 - tri3 0, tri3 2 - tri3 1] := C68_edges tri3

/-- **C68** `diameter` is the largest distance of two points of the simplex. -/
theorem C68_diameter (v : Vertices ℝ k n) :
    ∃ d, diameter v = .ok d ∧ (∀ x ∈ Points v, ∀ y ∈ Points v, len (x - y) ≤ d) ∧ ∃ x ∈ Points v, ∃ y ∈ Points v, len (x - y) = d := by
  obtain ⟨d, h1, _, h3, i, j, h4⟩ := diameter_spec v
  have hv : ∀ i, v i ∈ Points v := fun i => ⟨_, vertex_bary v i, fun j => by split <;> norm_num⟩
  exact ⟨d, h1, fun x hx y hy => points_diameter v d h3 hx hy, v i, hv i, v j, hv j, h4⟩

/-- **C68** `is_degenerate` for a non-degenerate simplex: True exactly if some altitude is less than `eps` times the diameter. -/
theorem C68_is_degenerate (qr : QR) (hqr : QRContract qr) (v : Vertices ℝ (k + 1) n) (h : NonDegenerate v) (eps : ℝ) :
    ∃ d res, diameter v = .ok d ∧ isDegenerate qr v eps = .ok res ∧
      (res = true ↔ ∃ i a, IsDistance (v i) (FacetHull v i) a ∧ a < eps * d) := by
  obtain ⟨d, h1, h2, h3, h4⟩ := diameter_spec v
  have hd : 0 < d := by
    have hne : v 0 ≠ v 1 := by
      intro e
      have := h (Pi.single 0 1 - Pi.single 1 1) (by simp [Finset.sum_sub_distrib]) (by
        simp [sub_smul, Finset.sum_sub_distrib, Pi.single_apply, ite_smul, e])
      have := congrFun this 0
      simp at this
    have h5 : 0 < len (v 0 - v 1) := lt_of_le_of_ne (len_nonneg _) fun e => hne (sub_eq_zero.1 (len_eq_zero e.symm))
    exact lt_of_lt_of_le h5 (h3 0 1)
  have ha : ∀ i : Fin (k + 2), ∃ a, altitudeNum qr v i = .ok (.fin a) ∧ IsDistance (v i) (FacetHull v i) a := by
    intro i
    obtain ⟨V, F, t, e1, -, e3⟩ := facets qr hqr v h
    obtain ⟨a, b1, -, b3⟩ := C68_altitude qr hqr v h i
    refine ⟨a, ?_, b3⟩
    unfold altitude at b1
    unfold altitudeNum Num.quot
    rw [(e3 i).1, e1] at b1 ⊢
    simp only [Py.bind_ok, Py.pure_eq, Except.ok.injEq] at b1 ⊢
    rw [if_pos (e3 i).2.1.ne', b1]
  choose a g1 g3 using ha
  refine ⟨d, (List.ofFn a).any (fun h => open Classical in decide (h / d < eps)), h1, ?_, ?_⟩
  · unfold isDegenerate
    rw [h1]
    simp only [Py.bind_ok]
    have e := mapM_eq_ok (fun i : ℕ => Num.fin (if hi : i < k + 2 then a ⟨i, hi⟩ else 0)) (f := fun i => altitudeNum qr v i) (List.range (k + 2))
      (fun i hi => by rw [dif_pos (List.mem_range.1 hi)]; exact g1 ⟨i, List.mem_range.1 hi⟩)
    rw [e]
    simp only [Py.bind_ok, Py.pure_eq]
    have e' : (fun h : Num => (h.div d).lt eps) ∘ (Num.fin : ℝ → Num) = fun h => open Classical in decide (h / d < eps) := by
      funext h
      simp only [Function.comp, Num.div, Num.quot, if_pos hd.ne', Num.lt]
    have e'' : (List.range (k + 2)).map (fun i : ℕ => Num.fin (if hi : i < k + 2 then a ⟨i, hi⟩ else 0)) = ((List.range (k + 2)).map (fun i : ℕ => if hi : i < k + 2 then a ⟨i, hi⟩ else 0)).map Num.fin := by
      rw [List.map_map]; rfl
    rw [e'', List.any_map, e']
    congr 2
    apply List.ext_getElem
    · simp
    · intro i h5 h6
      have h7 : i < k + 2 := by simpa only [List.length_ofFn] using h6
      rw [List.getElem_map, List.getElem_range, List.getElem_ofFn, dif_pos h7]
  · rw [List.any_eq_true]
    constructor
    · rintro ⟨x, hx, hlt⟩
      obtain ⟨i, rfl⟩ := List.mem_ofFn.1 hx
      exact ⟨i, a i, g3 i, by simpa [div_lt_iff₀ hd] using hlt⟩
    · rintro ⟨i, b, hb, hlt⟩
      refine ⟨a i, List.mem_ofFn.2 ⟨i, rfl⟩, ?_⟩
      rw [IsDistance.unique (g3 i) hb]
      simpa [div_lt_iff₀ hd] using hlt

/-- Two choices of all vertices but one are the same up to the order. -/
theorem choice_perm {m : ℕ} {i : Fin (m + 1)} {τ τ' : Fin m → Fin (m + 1)} (h1 : Function.Injective τ) (h2 : ∀ j, τ j ≠ i)
    (h1' : Function.Injective τ') (h2' : ∀ j, τ' j ≠ i) : ∃ σ : Equiv.Perm (Fin m), τ = τ' ∘ σ := by
  have hr : ∀ ρ : Fin m → Fin (m + 1), Function.Injective ρ → (∀ j, ρ j ≠ i) → Set.range ρ = {i}ᶜ := by
    intro ρ r1 r2
    have hc : (Finset.univ.image ρ) = {i}ᶜ := by
      apply Finset.eq_of_subset_of_card_le
      · intro x hx
        obtain ⟨j, -, rfl⟩ := Finset.mem_image.1 hx
        simpa using r2 j
      · rw [Finset.card_image_of_injective _ r1, Finset.card_compl]
        simp
    have := congrArg (fun s : Finset (Fin (m + 1)) => (s : Set (Fin (m + 1)))) hc
    simpa using this
  have hx : ∀ j, ∃ l, τ' l = τ j := fun j => by
    have : τ j ∈ Set.range τ' := by rw [hr τ' h1' h2']; exact h2 j
    exact this
  choose s hs using hx
  have hi : Function.Injective s := fun a b e => h1 (by rw [← hs a, ← hs b, e])
  exact ⟨Equiv.ofBijective s (Finite.injective_iff_bijective.1 hi), funext fun j => (hs j).symm⟩

/-- **C68** `is_degenerate` for a degenerate simplex of dimension `k + 1` and a positive tolerance: True exactly if some `k + 1` of the vertices are
affinely independent and not all vertices coincide. Otherwise every altitude (or every quotient with the diameter) is computed as `0 / 0`, an
undefined number which is not smaller than the tolerance, and the result is False. -/
theorem C68_is_degenerate_degenerate (qr : QR) (hqr : QRContract qr) (v : Vertices ℝ (k + 1) n) (hkn : k + 1 ≤ n) (h : ¬ NonDegenerate v) (eps : ℝ)
    (h0 : 0 < eps) :
    ∃ res, isDegenerate qr v eps = .ok res ∧
      (res = true ↔ (∃ τ : Fin (k + 1) → Fin (k + 2), Function.Injective τ ∧ NonDegenerate (v ∘ τ)) ∧ ∃ i j, v i ≠ v j) := by
  obtain ⟨d, d1, d2, d3, di, dj, d4⟩ := diameter_spec v
  have hdz : d = 0 ↔ ∀ i j, v i = v j := by
    constructor
    · intro e i j
      exact sub_eq_zero.1 (len_eq_zero (le_antisymm (e ▸ d3 i j) (len_nonneg _)))
    · intro e
      rw [← d4, e di dj, sub_self]
      simp [len]
  have hg : gram v = 0 := by
    have := gram_nonneg v hkn
    have h' := mt (nonDegenerate_iff_gram v hkn).2 h
    linarith [not_lt.1 h']
  have hV : SimplexGeometry.volume qr v = .ok 0 := by rw [volume_eq qr hqr v hkn, hg]; simp
  have hF := fun i => faceVolume_spec qr hqr v (by omega : k ≤ n) i
  choose τ t1 t2 t3 using hF
  have hfp : (0 : ℝ) < (k.factorial : ℝ) := Nat.cast_pos.2 (Nat.factorial_pos _)
  have hFp : ∀ i, √(gram (v ∘ τ i)) / (k.factorial : ℝ) ≠ 0 ↔ NonDegenerate (v ∘ τ i) := by
    intro i
    rw [nonDegenerate_iff_gram _ (by omega : k ≤ n), ← Real.sqrt_pos, ← div_pos_iff_of_pos_right hfp]
    exact ⟨fun e => lt_of_le_of_ne (by positivity) (Ne.symm e), fun e => e.ne'⟩
  have ha : ∀ i : Fin (k + 2), altitudeNum qr v i = .ok (open Classical in if NonDegenerate (v ∘ τ i) then .fin 0 else .nan) := by
    intro i
    unfold altitudeNum Num.quot
    rw [t3 i, hV]
    simp only [Py.bind_ok, Py.pure_eq, mul_zero, zero_div, if_true]
    congr 1
    by_cases hn : NonDegenerate (v ∘ τ i)
    · rw [if_pos ((hFp i).2 hn), if_pos hn]
    · rw [if_neg (mt (hFp i).1 hn), if_neg hn]
  refine ⟨(List.ofFn fun i : Fin (k + 2) => (open Classical in if NonDegenerate (v ∘ τ i) then Num.fin 0 else .nan)).any (fun h => (h.div d).lt eps), ?_, ?_⟩
  · unfold isDegenerate
    rw [d1]
    simp only [Py.bind_ok]
    have e := mapM_eq_ok (fun i : ℕ => if hi : i < k + 2 then (open Classical in if NonDegenerate (v ∘ τ ⟨i, hi⟩) then Num.fin 0 else .nan) else .nan)
      (f := fun i => altitudeNum qr v i) (List.range (k + 2))
      (fun i hi => by rw [dif_pos (List.mem_range.1 hi)]; exact ha ⟨i, List.mem_range.1 hi⟩)
    rw [e]
    simp only [Py.bind_ok, Py.pure_eq]
    congr 2
    apply List.ext_getElem
    · simp
    · intro i h5 h6
      have h7 : i < k + 2 := by simpa only [List.length_ofFn] using h6
      rw [List.getElem_map, List.getElem_range, List.getElem_ofFn, dif_pos h7]
  · rw [List.any_eq_true]
    have hval : ∀ i : Fin (k + 2), (((open Classical in if NonDegenerate (v ∘ τ i) then Num.fin 0 else Num.nan) : Num).div d).lt eps = true ↔
        NonDegenerate (v ∘ τ i) ∧ d ≠ 0 := by
      intro i
      by_cases hn : NonDegenerate (v ∘ τ i)
      · by_cases hd : d = 0
        · simp [hn, hd, Num.div, Num.quot, Num.lt]
        · simp [hn, hd, Num.div, Num.quot, Num.lt, h0]
      · simp [hn, Num.div, Num.lt]
    have hne : (∃ i j, v i ≠ v j) ↔ d ≠ 0 := by
      rw [Ne, hdz]
      push Not
      rfl
    rw [hne]
    constructor
    · rintro ⟨x, hx, hlt⟩
      obtain ⟨i, rfl⟩ := List.mem_ofFn.1 hx
      have := (hval i).1 hlt
      exact ⟨⟨τ i, t1 i, this.1⟩, this.2⟩
    · rintro ⟨⟨ρ, r1, r2⟩, hd⟩
      have hs : ¬ Function.Surjective ρ := fun hs => by
        have := Fintype.card_le_of_surjective ρ hs
        simp at this
      obtain ⟨i, hi⟩ := not_forall.1 hs
      have hi' : ∀ j, ρ j ≠ i := fun j e => hi ⟨j, e⟩
      obtain ⟨σ, e⟩ := choice_perm (t1 i) (t2 i) r1 hi'
      refine ⟨_, List.mem_ofFn.2 ⟨i, rfl⟩, (hval i).2 ⟨?_, hd⟩⟩
      rw [e]
      exact nonDegenerate_perm (v ∘ ρ) σ r2

/-- Four vertices on a line in space. -/
def onLine : Vertices ℝ 3 3 := fun i j => if j = 0 then (i.val : ℝ) else 0

theorem onLine_degenerate (τ : Fin 3 → Fin 4) : ¬ NonDegenerate (onLine ∘ τ) := by
  intro h
  have := h ![onLine (τ 1) 0 - onLine (τ 2) 0, onLine (τ 2) 0 - onLine (τ 0) 0, onLine (τ 0) 0 - onLine (τ 1) 0]
    (by simp [Fin.sum_univ_three]) (by
      funext a
      rw [Finset.sum_apply]
      by_cases ha : a = 0
      · subst ha
        simp only [Nat.reduceAdd, Fin.sum_univ_three, Function.comp, Pi.smul_apply, smul_eq_mul, Pi.zero_apply, Matrix.cons_val]
        ring
      · simp [onLine, ha])
  have h01 := h ![1, -1, 0]
  have e0 := congrFun this 0
  have e2 := congrFun this 2
  simp only [Matrix.cons_val_zero, Matrix.cons_val, Pi.zero_apply] at e0 e2
  have e01 : onLine (τ 0) = onLine (τ 1) := by
    funext a
    by_cases ha : a = 0
    · subst ha; linarith
    · simp [onLine, ha]
  have := h01 (by simp [Fin.sum_univ_three]) (by simp [Fin.sum_univ_three, Function.comp, e01])
  have := congrFun this 0
  simp at this

/-- **C68** `is_degenerate` does not find that a tetrahedron is degenerate if its four vertices lie on a line. -/
theorem C68_is_degenerate_line (qr : QR) (hqr : QRContract qr) (eps : ℝ) (h0 : 0 < eps) :
    ¬ NonDegenerate onLine ∧ isDegenerate qr onLine eps = .ok false := by
  have h : ¬ NonDegenerate onLine := fun h => by
    have := h ![1, -2, 1, 0] (by simp [Fin.sum_univ_four]; norm_num) (by
      funext a
      rw [Finset.sum_apply]
      by_cases ha : a = 0
      · subst ha
        simp [Fin.sum_univ_four, onLine]
      · simp [onLine, ha])
    have := congrFun this 0
    simp at this
  obtain ⟨res, e, hr⟩ := C68_is_degenerate_degenerate qr hqr onLine le_rfl h eps h0
  refine ⟨h, ?_⟩
  rw [e]
  cases res with
  | false => rfl
  | true => exact absurd (hr.1 rfl).1.choose_spec.2 (onLine_degenerate _)

/-- Three vertices on a line in the plane. -/
def onLine2 : Vertices ℝ 2 2 := fun i j => if j = 0 then (i.val : ℝ) else 0

example (qr : QR) (hqr : QRContract qr) : isDegenerate qr onLine2 (1 / 10000) = .ok true := by
  have h : ¬ NonDegenerate onLine2 := fun h => by
    have := h ![1, -2, 1] (by simp [Fin.sum_univ_three]; norm_num) (by
      funext a
      rw [Finset.sum_apply]
      by_cases ha : a = 0
      · subst ha
        simp [Fin.sum_univ_three, onLine2]
      · simp [onLine2, ha])
    have := congrFun this 0
    simp at this
  obtain ⟨res, e, hr⟩ := C68_is_degenerate_degenerate qr hqr onLine2 le_rfl h (1 / 10000) (by norm_num)
  rw [e, hr.2 ⟨⟨![0, 1], by decide, fun w h1 h2 => ?_⟩, 0, 1, fun e => by simpa [onLine2] using congrFun e 0⟩]
  have h3 := congrFun h2 0
  rw [Finset.sum_apply] at h3
  simp [onLine2, Fin.sum_univ_two] at h1 h3
  funext i
  fin_cases i
  · simpa [h3] using h1
  · simpa using h3

/-- **C68** `equilateral(n, d)` for `1 ≤ n` in a space of dimension `ne ≥ n`: all edges have length `|d|`, vertex 0 is the origin, vertex `i` lies
in the space of the first `i` coordinates; the simplex is not degenerate if `d` is not zero. -/
theorem C68_equilateral (d : ℝ) (ne m : ℕ) (h : m + 1 ≤ ne) :
    ∃ w, equilateral d ne (m + 1) = .ok w ∧ w 0 = 0 ∧ (∀ i j, i.val ≤ j.val → w i j = 0) ∧ (∀ i j, i ≠ j → len (w i - w j) = |d|) ∧
      (d ≠ 0 → NonDegenerate w) := by
  obtain ⟨w, h1, h2, h3, h4⟩ := equilateral_spec d ne m h
  exact ⟨w, h1, h2, h3, h4, fun hd => equidistant_nonDegenerate w |d| (abs_ne_zero.2 hd) h4⟩

/-- **C68** `equilateral` rejects dimension 0 (AssertionError) and a space that is too small (IndexError). -/
theorem C68_equilateral_error (d : ℝ) (ne : ℕ) :
    equilateral d ne 0 = .error .assertion ∧ ∀ m, ne < m + 1 → equilateral d ne (m + 1) = .error .index := by
  refine ⟨rfl, fun m => ?_⟩
  induction m with
  | zero => intro h; simp [equilateral, unitE, show ¬ 1 ≤ ne by omega]
  | succ m ih =>
    intro h
    by_cases h' : ne < m + 1
    · rw [equilateral, ih h']; rfl
    · obtain ⟨w, h1, _⟩ := equilateral_spec d ne m (by omega)
      rw [equilateral, h1]
      simp only [Py.bind_ok]
      rw [dif_neg (by omega)]

/-- **C68** A point has no facets: every function that asks for one raises IndexError; the circumcenter is the point itself. -/
theorem C68_point (qr : QR) (v : Vertices ℝ 0 n) (i : ℕ) :
    face v i = .error .index ∧ altitude qr v i = .error .index ∧ incenter qr v = .error .index ∧ inradius qr v = .error .index ∧
      circumcenter qr v = .ok (v 0) ∧ diameter v = .ok 0 ∧ edges v = .ok [] := by
  have hf : ∀ i, face v i = .error .index := by
    intro i
    unfold face
    have : Complex.simplexBoundary (List.range (0 + 1)) = .ok [] := rfl
    rw [this]
    rfl
  have hfv : ∀ i, faceVolume qr v i = .error .index := by intro i; unfold faceVolume; rw [hf]; rfl
  have ht : trilinearToBarycentricE qr (fun _ => 1) v = .error .index := by
    unfold trilinearToBarycentricE
    have : SimplexGeometry.volume qr v = .ok 1 := rfl
    rw [this]
    have e : List.finRange (0 + 1) = [0] := rfl
    rw [e]
    simp only [Py.bind_ok, List.mapM_cons]
    rw [hfv]
    rfl
  refine ⟨hf i, ?_, ?_, ?_, ?_, rfl, ?_⟩
  · unfold altitude; rw [hfv]; rfl
  · unfold incenter; rw [ht]; rfl
  · unfold inradius; rw [ht]; rfl
  · unfold circumcenter
    congr 1
    funext a
    simp [centroid]
  · rw [edges_eq]; rfl

example : ∃ qr : QR, QRContract qr ∧ ∃ c r, incenter qr tri3 = .ok c ∧ inradius qr tri3 = .ok r ∧ 0 < r := by
  obtain ⟨qr, h⟩ := exists_qrContract
  obtain ⟨c, r, h1, h2, h3, _⟩ := C68_incenter qr h tri3 tri3_nonDegenerate
  exact ⟨qr, h, c, r, h1, h2, h3⟩

end Verif.Props
