import Verif.Lemmas.SimplexGeometry2
import Verif.Props.Simplex
/-!
# Geometry of simplices: nearest points of the plane of a simplex
-/

namespace Verif.SimplexGeometry
open Verif Matrix Verif.Spec Verif.Simplex Verif.Linalg

variable {k n : ℕ}

theorem dot_comb (E : Matrix (Fin n) (Fin k) ℝ) (x : Fin n → ℝ) (u : Fin k → ℝ) (h : Eᵀ *ᵥ x = 0) : x ⬝ᵥ (E *ᵥ u) = 0 := by
  rw [dotProduct_mulVec, ← mulVec_transpose, h, zero_dotProduct]

theorem pythagoras (x y : Fin n → ℝ) (h : x ⬝ᵥ y = 0) : len (x + y) ^ 2 = len x ^ 2 + len y ^ 2 := by
  rw [len_sq, len_sq, len_sq, add_dotProduct, dotProduct_add, dotProduct_add, dotProduct_comm y x, h]
  ring

theorem len_eq_zero {x : Fin n → ℝ} (h : len x = 0) : x = 0 := by
  have := len_sq x
  rw [h] at this
  exact dotProduct_self_eq_zero.1 (by rw [← this]; norm_num)

/-- A point of the plane from which `x` is seen orthogonally to all edges is the only nearest point. -/
theorem nearest_of_orth (v : Vertices ℝ k n) {x y : Fin n → ℝ} (hy : y ∈ Hull v) (h : (edgeM v)ᵀ *ᵥ (x - y) = 0) :
    IsNearest x (Hull v) y ∧ ∀ z, IsNearest x (Hull v) z → z = y := by
  have key : ∀ z ∈ Hull v, len (x - z) ^ 2 = len (x - y) ^ 2 + len (y - z) ^ 2 := by
    intro z hz
    obtain ⟨a, ha⟩ := (mem_hull v y).1 hy
    obtain ⟨c, hc⟩ := (mem_hull v z).1 hz
    have e : y - z = edgeM v *ᵥ (a - c) := by rw [ha, hc, mulVec_sub]; abel
    have : x - z = (x - y) + (y - z) := by abel
    rw [this, pythagoras]
    rw [e]
    exact dot_comb _ _ _ h
  refine ⟨⟨hy, fun z hz => ?_⟩, fun z hz => ?_⟩
  · have := key z hz
    refine le_of_sq_le_sq ?_ (len_nonneg _)
    nlinarith [sq_nonneg (len (y - z))]
  · have h1 := key z hz.1
    have h2 := hz.2 y hy
    have h3 : len (x - z) ^ 2 ≤ len (x - y) ^ 2 := pow_le_pow_left₀ (len_nonneg _) h2 2
    have h4 : len (y - z) = 0 := by nlinarith [sq_nonneg (len (y - z)), len_nonneg (y - z)]
    exact (sub_eq_zero.1 (len_eq_zero h4)).symm

theorem nearest_self (v : Vertices ℝ k n) {x y : Fin n → ℝ} (hx : x ∈ Hull v) (h : IsNearest x (Hull v) y) : y = x :=
  (nearest_of_orth v hx (by rw [sub_self, mulVec_zero])).2 y h

/-- The projection computed by the program. -/
theorem projection_nearest (qr : QR) (hqr : QRContract qr) (v : Vertices ℝ k n) (h : NonDegenerate v) (p : Fin n → ℝ) :
    ∃ q, subspaceProjectionMap qr (edgeM v) (some (v 0)) p = .ok q ∧ IsNearest p (Hull v) q := by
  have hkn := nonDegenerate_le v h
  obtain ⟨r, hr⟩ := hqr n k (edgeM v) hkn
  obtain ⟨a, b, h1, h2⟩ := C60_subspace_projection (edgeM v) _ r hr ((nonDegenerate_iff v).1 h) hkn (some (v 0))
  obtain ⟨⟨c, hc⟩, h3⟩ := h2 p
  refine ⟨a *ᵥ p + b, ?_, ?_⟩
  · unfold subspaceProjectionMap
    rw [h1]
    rfl
  · exact (nearest_of_orth v ((mem_hull v _).2 ⟨c, hc⟩) h3).1

/-- The coordinates with respect to the edges computed with the pseudoinverse. -/
theorem pinv_nearest (v : Vertices ℝ k n) (h : NonDegenerate v) (x : Fin n → ℝ) :
    IsNearest x (Hull v) (v 0 + edgeM v *ᵥ (pinv (edgeM v) *ᵥ (x - v 0))) := by
  have hd := gram_det ((nonDegenerate_iff v).1 h)
  refine (nearest_of_orth v ((mem_hull v _).2 ⟨_, rfl⟩) ?_).1
  have : (edgeM v)ᵀ * (edgeM v * pinv (edgeM v)) = (edgeM v)ᵀ := by
    unfold pinv
    rw [← Matrix.mul_assoc, ← Matrix.mul_assoc, mul_nonsing_inv _ (Ne.isUnit hd), Matrix.one_mul]
  have e : x - (v 0 + edgeM v *ᵥ (pinv (edgeM v) *ᵥ (x - v 0))) = (x - v 0) - edgeM v *ᵥ (pinv (edgeM v) *ᵥ (x - v 0)) := by abel
  rw [e, mulVec_sub, mulVec_mulVec, mulVec_mulVec, Matrix.mul_assoc, this, sub_self]

theorem pinv_edge (v : Vertices ℝ k n) (h : NonDegenerate v) (u : Fin k → ℝ) : pinv (edgeM v) *ᵥ (edgeM v *ᵥ u) = u :=
  (C60_transform (edgeM v) ((nonDegenerate_iff v).1 h)).1 u

theorem hull_full (v : Vertices ℝ k k) (h : NonDegenerate v) (x : Fin k → ℝ) : x ∈ Hull v := by
  have hu : IsUnit (edgeM v).det := by
    have := gram_det ((nonDegenerate_iff v).1 h)
    rw [det_mul, det_transpose] at this
    exact Ne.isUnit (fun h0 => this (by rw [h0, mul_zero]))
  refine (mem_hull v x).2 ⟨(edgeM v)⁻¹ *ᵥ (x - v 0), ?_⟩
  rw [mulVec_mulVec, mul_nonsing_inv _ hu, one_mulVec]
  abel

theorem edgeDet_ne (v : Vertices ℝ k k) (h : NonDegenerate v) : edgeDet v ≠ 0 := by
  intro h0
  have := gram_det ((nonDegenerate_iff v).1 h)
  rw [det_mul] at this
  apply this
  have : (edgeM v).det = 0 := h0
  rw [this, mul_zero]

theorem inSubspace_spec (qr : QR) (hqr : QRContract qr) (v : Vertices ℝ k n) (h : NonDegenerate v) (p : Fin n → ℝ) (tol : ℝ) (ht : 0 ≤ tol) :
    ∃ y, IsNearest p (Hull v) y ∧ inSubspace qr p v tol = .ok (open Classical in decide (len (p - y) ≤ tol)) := by
  unfold inSubspace
  by_cases hn : n = k
  · subst hn
    have hp := hull_full v h p
    refine ⟨p, (nearest_of_orth v hp (by rw [sub_self, mulVec_zero])).1, ?_⟩
    rw [if_pos rfl]
    have : len (p - p) = 0 := by rw [sub_self]; simp [len]
    rw [this, decide_eq_true ht]
  · rw [if_neg hn]
    by_cases hk : k = 0
    · subst hk
      rw [if_pos rfl]
      refine ⟨v 0, (nearest_of_orth v ((mem_hull v _).2 ⟨0, by simp⟩) (by funext i; exact i.elim0)).1, ?_⟩
      rw [norm_eq_len]
    · rw [if_neg hk]
      obtain ⟨q, h1, h2⟩ := projection_nearest qr hqr v h p
      refine ⟨q, h2, ?_⟩
      rw [basis_zero v hk]
      simp only [Py.bind_ok]
      rw [h1]
      simp only [Py.bind_ok, Py.pure_eq, norm_eq_len]

/-! ## The affine maps -/

theorem fromUnit_eq (v : Vertices ℝ k n) (hk : k ≠ 0) (hkn : k ≤ n) : affineTransformationFromUnit v = .ok (edgeM v, v 0) := by
  unfold affineTransformationFromUnit affineFromUnit
  simp only [hkn, decide_true, pyAssert_true, Py.bind_ok, if_neg hk]
  rfl

theorem affineMapFromUnit_eq (v : Vertices ℝ k n) (hk : k ≠ 0) (hkn : k ≤ n) (u : Fin k → ℝ) :
    affineMapFromUnit v u = .ok (v 0 + edgeM v *ᵥ u) := by
  unfold affineMapFromUnit
  rw [fromUnit_eq v hk hkn]
  simp only [Py.bind_ok, Py.pure_eq, createAffineMap]
  rw [add_comm]

theorem isInvertible_iff {m : ℕ} (a : Matrix (Fin m) (Fin m) ℝ) : isInvertible a = true ↔ a.det ≠ 0 := by
  unfold isInvertible Linalg.inv
  by_cases h : a.det = 0
  · simp [h]
  · simp [h]

theorem toUnit_eq (v : Vertices ℝ k n) (hk : k ≠ 0) (h : NonDegenerate v) :
    ∃ ab, affineTransformationToUnit v = .ok ab ∧ ∀ x, createAffineMap ab x = pinv (edgeM v) *ᵥ (x - v 0) := by
  have hkn := nonDegenerate_le v h
  unfold affineTransformationToUnit
  rw [fromUnit_eq v hk hkn]
  simp only [Py.bind_ok]
  by_cases hn : n = k
  · subst hn
    rw [dif_pos rfl]
    have hdet : (edgeM v).det ≠ 0 := edgeDet_ne v h
    have h1 : (Matrix.of fun (i j : Fin n) => edgeM v (Fin.cast rfl i) j) = edgeM v := rfl
    have h2 : (fun i : Fin n => v 0 (Fin.cast rfl i)) = v 0 := rfl
    rw [h1, h2]
    obtain ⟨r, hr1, hr2⟩ : ∃ r, inverseAffine (edgeM v, v 0) = .ok r ∧ ∀ x, createAffineMap r x = (edgeM v)⁻¹ *ᵥ (x - v 0) := by
      unfold inverseAffine
      rw [if_neg hdet]
      refine ⟨_, rfl, fun x => ?_⟩
      simp only [createAffineMap, mulVec_sub]
      abel
    rw [hr1]
    refine ⟨_, rfl, fun x => ?_⟩
    have h3 : pinv (edgeM v) = (edgeM v)⁻¹ := by
      unfold pinv
      rw [Matrix.mul_inv_rev, Matrix.mul_assoc, nonsing_inv_mul _ (by rw [det_transpose]; exact Ne.isUnit hdet), Matrix.mul_one]
    rw [h3, ← hr2 x]
    rfl
  · rw [dif_neg hn]
    unfold pseudoinverseAffine
    rw [(isInvertible_iff _).2 (gram_det ((nonDegenerate_iff v).1 h))]
    simp only [pyAssert_true, Py.bind_ok]
    refine ⟨_, rfl, fun x => ?_⟩
    simp only [createAffineMap, mulVec_sub]
    abel

theorem toUnit_degenerate (v : Vertices ℝ k n) (hk : k ≠ 0) (hkn : k < n) (h : ¬ NonDegenerate v) :
    affineTransformationToUnit v = .error .assertion := by
  have hd : ((edgeM v)ᵀ * edgeM v).det = 0 := by
    rw [nonDegenerate_iff, indepColumns_iff_gram, not_not] at h
    exact h
  unfold affineTransformationToUnit
  rw [fromUnit_eq v hk hkn.le]
  simp only [Py.bind_ok]
  rw [dif_neg (by omega)]
  unfold pseudoinverseAffine
  have : isInvertible ((edgeM v)ᵀ * edgeM v) = false := by
    rw [Bool.eq_false_iff]
    intro h0
    exact (isInvertible_iff _).1 h0 hd
  simp only [this, pyAssert_false, Py.bind_error]

theorem affineMapToUnit_spec (qr : QR) (hqr : QRContract qr) (v : Vertices ℝ k n) (hk : k ≠ 0) (h : NonDegenerate v) (x : Fin n → ℝ) :
    ∃ y, IsNearest x (Hull v) y ∧
      affineMapToUnit qr v x = if len (x - y) ≤ tol14 then .ok (pinv (edgeM v) *ᵥ (x - v 0)) else .error .assertion := by
  have ht : (0 : ℝ) ≤ tol14 := by unfold tol14; positivity
  obtain ⟨y, h1, h2⟩ := inSubspace_spec qr hqr v h x tol14 ht
  obtain ⟨ab, h3, h4⟩ := toUnit_eq v hk h
  refine ⟨y, h1, ?_⟩
  unfold affineMapToUnit
  rw [h3]
  simp only [Py.bind_ok]
  by_cases hn : n = k
  · subst hn
    rw [if_neg (by simp), h4]
    have : y = x := nearest_self v (hull_full v h x) h1
    rw [this, sub_self, if_pos]
    · rfl
    · simpa [len] using ht
  · rw [if_pos hn, h2]
    simp only [Py.bind_ok, h4]
    by_cases hd : len (x - y) ≤ tol14
    · rw [if_pos hd, decide_eq_true hd]; rfl
    · rw [if_neg hd, decide_eq_false hd]; rfl

/-! ## Barycentric coordinates -/

theorem edge_weights (v : Vertices ℝ k n) (u : Fin k → ℝ) : IsBarycentric v (v 0 + edgeM v *ᵥ u) (Fin.cons (1 - ∑ i, u i) u : Fin (k + 1) → ℝ) :=
  weights_bary v u

theorem cartesianToBarycentric_spec (qr : QR) (hqr : QRContract qr) (v : Vertices ℝ k n) (hk : k ≠ 0) (h : NonDegenerate v) (hn : k < n)
    (p : Fin n → ℝ) :
    ∃ y w, IsNearest p (Hull v) y ∧ IsBarycentric v y w ∧
      cartesianToBarycentricE qr p v = if len (p - y) ≤ tol14 then .ok w else .error .assertion := by
  have ht : (0 : ℝ) ≤ tol14 := by unfold tol14; positivity
  obtain ⟨y, h1, h2⟩ := inSubspace_spec qr hqr v h p tol14 ht
  obtain ⟨b, u, w, g1, g2, g3, g4, g5, g6⟩ := localCoordinates_spec qr hqr v hk hn.le
  have hdet : 0 < edgeDet w := by
    have e1 : edgeDet w = (edgeM w).det := rfl
    have : ∀ i, 0 < u i i := fun i => lt_of_le_of_ne (g3 i) (Ne.symm (qr_diag_ne g2 ((nonDegenerate_iff v).1 h) i))
    rw [e1, g6, det_of_isUpperTriangular (fun a b hab => g2.tri a b hab)]
    exact Finset.prod_pos fun i _ => this i
  set c := cartesianToBarycentric (bᵀ *ᵥ (p - v 0)) w with hc
  have hb := Verif.Props.C38_barycentric_partial w hdet (bᵀ *ᵥ (p - v 0))
  rw [← hc] at hb
  have hy : y = ∑ i, c i • v i := by
    have hor : (edgeM v)ᵀ *ᵥ (p - ∑ i, c i • v i) = 0 := by
      have e1 : bᵀ *ᵥ (p - ∑ i, c i • v i) = 0 := by
        have e2 : ∑ i, c i • w i = bᵀ *ᵥ (∑ i, c i • v i - v 0) := by
          simp only [g5]
          have : ∑ i, c i • v i - v 0 = ∑ i, c i • (v i - v 0) := by
            simp only [smul_sub, Finset.sum_sub_distrib, ← Finset.sum_smul, hb.1, one_smul]
          rw [this, mulVec_sum]
          exact Finset.sum_congr rfl fun i _ => (mulVec_smul _ _ _).symm
        have e3 := hb.2
        rw [e2] at e3
        have e4 : p - ∑ i, c i • v i = (p - v 0) - (∑ i, c i • v i - v 0) := by abel
        rw [e4, mulVec_sub, e3, sub_self]
      rw [g2.prod, transpose_mul, ← mulVec_mulVec, e1, mulVec_zero]
    exact (nearest_of_orth v ⟨c, hb.1, rfl⟩ hor).2 y h1
  refine ⟨y, c, h1, ⟨hb.1, hy⟩, ?_⟩
  unfold cartesianToBarycentricE
  rw [if_pos hn, h2]
  simp only [Py.bind_ok]
  by_cases hd : len (p - y) ≤ tol14
  · rw [if_pos hd, decide_eq_true hd, g1, g4]
    simp only [pyAssert_true, Py.bind_ok, Py.pure_eq, transformToBasis, pinv_orth g2.orth]
    rw [hc]
  · rw [if_neg hd, decide_eq_false hd]; rfl

end Verif.SimplexGeometry
