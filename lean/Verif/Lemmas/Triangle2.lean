import Verif.Lemmas.Triangle
/-!
# Lemmas about triangles: area, basis, dual edges
-/

namespace Verif.Triangle
open Verif Matrix Verif.Simplex Verif.Linalg Verif.Spec Verif.SimplexGeometry Verif.Props

noncomputable section

variable {n : ℕ}

theorem gram_lag (v : Tri n) (i : Fin 3) :
    (edges v i ⬝ᵥ edges v i) * (edges v (i + 1) ⬝ᵥ edges v (i + 1)) - (edges v i ⬝ᵥ edges v (i + 1)) * (edges v i ⬝ᵥ edges v (i + 1)) = gram v := by
  rw [edges_self, edges_self, edges_succ, gram_dd v i, f11, f12]
  ring

theorem lagrange2 (a b : Fin 2 → ℝ) : cross2 a b ^ 2 = (a ⬝ᵥ a) * (b ⬝ᵥ b) - (a ⬝ᵥ b) * (a ⬝ᵥ b) := by
  simp only [cross2, dotProduct, Fin.sum_univ_two]
  ring

theorem cross2_sq (v : Tri 2) (i : Fin 3) : cross2 (edges v i) (edges v (i + 1)) ^ 2 = gram v := by rw [lagrange2, gram_lag]

theorem cross2_abs (v : Tri 2) (i : Fin 3) : |cross2 (edges v i) (edges v (i + 1))| = √(gram v) := by
  rw [← cross2_sq v i, Real.sqrt_sq_eq_abs]

theorem cross3_norm (v : Tri 3) (i : Fin 3) : Linalg.norm (edges v i ⨯₃ edges v (i + 1)) = √(gram v) := by
  unfold Linalg.norm
  congr 1
  have := lagrange (edges v i) (edges v (i + 1))
  have h2 := gram_lag v i
  linarith

theorem area_eq (v : Tri n) (hn : n = 2 ∨ n = 3) : area v = .ok (√(gram v) / 2) := by
  rcases hn with rfl | rfl
  · have h : crossNorm (edges v 0) (edges v 1) = .ok |cross2 (edges v 0) (edges v (0 + 1))| := rfl
    unfold area
    rw [h, cross2_abs]
    simp only [Py.bind_ok, Py.pure_eq]
    congr 1
    ring
  · have h : crossNorm (edges v 0) (edges v 1) = .ok (Linalg.norm (edges v 0 ⨯₃ edges v (0 + 1))) := rfl
    unfold area
    rw [h, cross3_norm]
    simp only [Py.bind_ok, Py.pure_eq]
    congr 1
    ring

theorem area_error (v : Tri n) (hn : n ≠ 2 ∧ n ≠ 3) : area v = .error .value := by
  have h : crossNorm (edges v 0) (edges v 1) = .error .value := by
    unfold crossNorm
    split
    · exact absurd rfl hn.1
    · exact absurd rfl hn.2
    · rfl
  unfold area
  rw [h]
  rfl

theorem cross_cyclic (v : Tri 3) (i : Fin 3) : edges v i ⨯₃ edges v (i + 1) = edges v 0 ⨯₃ edges v 1 := by
  have key : ∀ a b c : Fin 3 → ℝ, (c - b) ⨯₃ (a - c) = (a ⨯₃ b) + (b ⨯₃ c) + (c ⨯₃ a) := by
    intro a b c
    funext j
    fin_cases j <;> simp [cross_apply] <;> ring
  have e : ∀ i, edges v i ⨯₃ edges v (i + 1) = (v i ⨯₃ v (i + 1)) + (v (i + 1) ⨯₃ v (i + 2)) + (v (i + 2) ⨯₃ v i) := by
    intro i
    simp only [edges, f11, f12]
    exact key _ _ _
  rw [e i]
  have e0 : edges v 0 ⨯₃ edges v 1 = (v 0 ⨯₃ v 1) + (v 1 ⨯₃ v 2) + (v 2 ⨯₃ v 0) := e 0
  rw [e0]
  fin_cases i
  · rfl
  · show (v 1 ⨯₃ v 2) + (v 2 ⨯₃ v 0) + (v 0 ⨯₃ v 1) = _
    abel
  · show (v 2 ⨯₃ v 0) + (v 0 ⨯₃ v 1) + (v 1 ⨯₃ v 2) = _
    abel

theorem cross2_cyclic (v : Tri 2) (i : Fin 3) : cross2 (edges v i) (edges v (i + 1)) = cross2 (edges v 0) (edges v 1) := by
  fin_cases i <;> simp [cross2, edges] <;> ring

theorem normal3_eq (v : Tri 3) : normal3 v = (1 / √(gram v)) • (edges v 0 ⨯₃ edges v 1) := by
  unfold normal3
  have : Linalg.norm (edges v 0 ⨯₃ edges v 1) = √(gram v) := cross3_norm v 0
  simp only [this, divBy_eq]

/-- The basis of the plane of a triangle. -/
def bb (v : Tri n) : Fin 2 → Fin n → ℝ :=
  ![(1 / edgeLengths v 0) • edges v 0,
    (1 / (edgeLengths v 0 * √(gram v))) • ((edges v 0 ⬝ᵥ edges v 0) • edges v 1 - (edges v 0 ⬝ᵥ edges v 1) • edges v 0)]

theorem triple (a b : Fin 3 → ℝ) : (a ⨯₃ b) ⨯₃ a = (a ⬝ᵥ a) • b - (a ⬝ᵥ b) • a := by
  funext j
  fin_cases j <;> simp [cross_apply, dotProduct, Fin.sum_univ_three] <;> ring

theorem triple' (a b : Fin 3 → ℝ) : a ⨯₃ (a ⨯₃ b) = (a ⬝ᵥ b) • a - (a ⬝ᵥ a) • b := by
  funext j
  fin_cases j <;> simp [cross_apply, dotProduct, Fin.sum_univ_three] <;> ring

theorem bb_num_sq (v : Tri n) (i : Fin 3) :
    ((edges v i ⬝ᵥ edges v i) • edges v (i + 1) - (edges v i ⬝ᵥ edges v (i + 1)) • edges v i) ⬝ᵥ
      ((edges v i ⬝ᵥ edges v i) • edges v (i + 1) - (edges v i ⬝ᵥ edges v (i + 1)) • edges v i) = (edges v i ⬝ᵥ edges v i) * gram v := by
  rw [← gram_lag v i]
  simp only [sub_dotProduct, dotProduct_sub, smul_dotProduct, dotProduct_smul, smul_eq_mul]
  rw [dotProduct_comm (edges v (i + 1)) (edges v i)]
  ring

theorem basis_ok (v : Tri n) (h : NonDegenerate v) (hn : n = 2 ∨ n = 3) : basis v = .ok (bb v) := by
  have hl := el_pos v h 0
  have hg := Real.sqrt_pos.2 (gram_pos v h)
  have hsq : edges v 0 ⬝ᵥ edges v 0 = edgeLengths v 0 ^ 2 := by rw [el_sq, edges_self]
  rcases hn with rfl | rfl
  · have e0 : divBy (edges v 0) (Linalg.norm (edges v 0)) = (1 / edgeLengths v 0) • edges v 0 := divBy_eq _ _
    unfold basis
    simp only
    rw [e0]
    set l := edgeLengths v 0 with hl'
    set b1 := edges v 1 - (edges v 1 ⬝ᵥ ((1 / l) • edges v 0)) • ((1 / l) • edges v 0) with hb1
    have e1 : b1 = (1 / l ^ 2) • ((edges v 0 ⬝ᵥ edges v 0) • edges v 1 - (edges v 0 ⬝ᵥ edges v 1) • edges v 0) := by
      rw [hb1, hsq, dotProduct_smul, dotProduct_comm (edges v 1) (edges v 0)]
      funext a
      simp only [Pi.sub_apply, Pi.smul_apply, smul_eq_mul]
      field_simp
    have e2 : Linalg.norm b1 = √(gram v) / l := by
      have h2 := bb_num_sq v 0
      rw [e1, norm_eq_len, len_smul, len_eq_sqrt]
      have h3 : edges v (0 + 1) = edges v 1 := rfl
      rw [h3] at h2
      rw [h2, Real.sqrt_mul (dot_nonneg _), hsq, Real.sqrt_sq hl.le, abs_of_pos (by positivity)]
      field_simp
    rw [e2, e1]
    unfold bb
    congr 2
    rw [divBy_eq, smul_smul]
    congr 2
    rw [← hl']
    field_simp
  · have e0 : divBy (edges v 0) (Linalg.norm (edges v 0)) = (1 / edgeLengths v 0) • edges v 0 := divBy_eq _ _
    unfold basis
    simp only
    rw [e0, normal3_eq]
    unfold bb
    congr 2
    rw [LinearMap.map_smul₂, LinearMap.map_smul, triple, smul_smul]
    congr 2
    field_simp

theorem basis_error (v : Tri n) (hn : n ≠ 2 ∧ n ≠ 3) : basis v = .error .assertion := by
  unfold basis
  split
  · exact absurd rfl hn.1
  · exact absurd rfl hn.2
  · rfl

theorem bb_orth (v : Tri n) (h : NonDegenerate v) : bb v 0 ⬝ᵥ bb v 0 = 1 ∧ bb v 1 ⬝ᵥ bb v 1 = 1 ∧ bb v 0 ⬝ᵥ bb v 1 = 0 := by
  have hl := el_pos v h 0
  have hg := Real.sqrt_pos.2 (gram_pos v h)
  have hg2 := Real.sq_sqrt (gram_pos v h).le
  have hsq : edges v 0 ⬝ᵥ edges v 0 = edgeLengths v 0 ^ 2 := by rw [el_sq, edges_self]
  have h2 := bb_num_sq v 0
  have h3 : edges v (0 + 1) = edges v 1 := rfl
  rw [h3] at h2
  refine ⟨?_, ?_, ?_⟩
  · simp only [bb, Matrix.cons_val_zero, smul_dotProduct, dotProduct_smul, smul_eq_mul, hsq]
    field_simp
  · simp only [bb, Matrix.cons_val_one, Matrix.cons_val_zero, smul_dotProduct, dotProduct_smul, smul_eq_mul]
    rw [h2, hsq]
    field_simp
    exact hg2.symm
  · simp only [bb, Matrix.cons_val_zero, Matrix.cons_val_one, smul_dotProduct, dotProduct_smul, smul_eq_mul, dotProduct_sub]
    ring

/-- Every combination of the edges is the combination of the basis with its coordinates. -/
theorem bb_span (v : Tri n) (h : NonDegenerate v) (s t : ℝ) (x : Fin n → ℝ) (hx : x = s • edges v 0 + t • edges v 1) :
    x = (x ⬝ᵥ bb v 0) • bb v 0 + (x ⬝ᵥ bb v 1) • bb v 1 := by
  have hl := el_pos v h 0
  have hg := Real.sqrt_pos.2 (gram_pos v h)
  have hg2 := Real.sq_sqrt (gram_pos v h).le
  have hsq : edges v 0 ⬝ᵥ edges v 0 = edgeLengths v 0 ^ 2 := by rw [el_sq, edges_self]
  obtain ⟨o1, o2, o3⟩ := bb_orth v h
  -- the edges as combinations of the basis
  have e0 : edges v 0 = edgeLengths v 0 • bb v 0 := by
    simp only [bb, Matrix.cons_val_zero, smul_smul]
    rw [mul_one_div_cancel hl.ne', one_smul]
  have e1 : edges v 1 = ((edges v 0 ⬝ᵥ edges v 1) / edgeLengths v 0) • bb v 0 + (√(gram v) / edgeLengths v 0) • bb v 1 := by
    simp only [bb, Matrix.cons_val_zero, Matrix.cons_val_one, smul_smul, hsq]
    funext a
    simp only [Pi.add_apply, Pi.sub_apply, Pi.smul_apply, smul_eq_mul]
    field_simp
    ring
  have hx' : ∃ p q : ℝ, x = p • bb v 0 + q • bb v 1 := by
    refine ⟨s * edgeLengths v 0 + t * ((edges v 0 ⬝ᵥ edges v 1) / edgeLengths v 0), t * (√(gram v) / edgeLengths v 0), ?_⟩
    rw [hx]
    funext a
    have e0a := congrFun e0 a
    have e1a := congrFun e1 a
    simp only [Pi.add_apply, Pi.smul_apply, smul_eq_mul] at e0a e1a ⊢
    rw [e1a, e0a]
    ring
  obtain ⟨p, q, rfl⟩ := hx'
  have c1 : (p • bb v 0 + q • bb v 1) ⬝ᵥ bb v 0 = p := by
    rw [add_dotProduct, smul_dotProduct, smul_dotProduct, o1, dotProduct_comm (bb v 1), o3]; simp
  have c2 : (p • bb v 0 + q • bb v 1) ⬝ᵥ bb v 1 = q := by
    rw [add_dotProduct, smul_dotProduct, smul_dotProduct, o2, o3]; simp
  rw [c1, c2]

/-- The dual edges. -/
def dual (v : Tri n) (i : Fin 3) : Fin n → ℝ :=
  (1 / √(gram v)) • ((edges v i ⬝ᵥ edges v (i + 1)) • edges v i - (edges v i ⬝ᵥ edges v i) • edges v (i + 1))

theorem dualEdges_ok (v : Tri n) (h : NonDegenerate v) (hn : n = 2 ∨ n = 3) : dualEdges v = .ok (dual v) := by
  have hg := Real.sqrt_pos.2 (gram_pos v h)
  rcases hn with rfl | rfl
  · unfold dualEdges
    simp only
    congr 1
    funext i
    unfold dualEdge2
    simp only
    have hd : (![-(edges v i 1), edges v i 0] : Fin 2 → ℝ) ⬝ᵥ edges v (i + 1) = cross2 (edges v i) (edges v (i + 1)) := by
      simp only [cross2, dotProduct, Fin.sum_univ_two, Matrix.cons_val_zero, Matrix.cons_val_one]
      ring
    rw [hd]
    have hid : (edges v i ⬝ᵥ edges v (i + 1)) • edges v i - (edges v i ⬝ᵥ edges v i) • edges v (i + 1) =
        (-cross2 (edges v i) (edges v (i + 1))) • (![-(edges v i 1), edges v i 0] : Fin 2 → ℝ) := by
      funext j
      fin_cases j <;> simp [cross2, dotProduct, Fin.sum_univ_two] <;> ring
    unfold dual
    rw [hid, ← cross2_abs v i]
    rw [← cross2_abs v i] at hg
    set c := cross2 (edges v i) (edges v (i + 1)) with hc
    by_cases hp : c > 0
    · rw [if_pos hp, abs_of_pos hp, smul_smul]
      have : 1 / c * -c = -1 := by field_simp
      rw [this]
      simp
    · have hneg : c < 0 := lt_of_le_of_ne (not_lt.1 hp) (abs_pos.1 hg)
      rw [if_neg hp, abs_of_neg hneg, smul_smul]
      have : 1 / -c * -c = 1 := one_div_mul_cancel (neg_ne_zero.2 hneg.ne)
      rw [this, one_smul]
  · unfold dualEdges
    simp only
    congr 1
    funext i
    rw [normal3_eq, ← cross_cyclic v i, LinearMap.map_smul, triple']
    rfl

theorem dualEdges_error (v : Tri n) (hn : n ≠ 2 ∧ n ≠ 3) : dualEdges v = .error .assertion := by
  unfold dualEdges
  split
  · exact absurd rfl hn.1
  · exact absurd rfl hn.2
  · rfl

theorem dual_sq (v : Tri n) (h : NonDegenerate v) (i : Fin 3) : dual v i ⬝ᵥ dual v i = edgeLengths v i ^ 2 := by
  have hg := Real.sqrt_pos.2 (gram_pos v h)
  have hg2 := Real.sq_sqrt (gram_pos v h).le
  have h2 := bb_num_sq v i
  unfold dual
  rw [smul_dotProduct, dotProduct_smul, smul_eq_mul, smul_eq_mul, ← neg_sub, neg_dotProduct_neg, h2, edges_self, el_sq]
  field_simp
  rw [hg2]
  ring

theorem dual_edge (v : Tri n) (i : Fin 3) : dual v i ⬝ᵥ edges v i = 0 := by
  unfold dual
  rw [smul_dotProduct, sub_dotProduct, smul_dotProduct, smul_dotProduct, dotProduct_comm (edges v (i + 1))]
  simp only [smul_eq_mul]
  ring

theorem dual_next (v : Tri n) (h : NonDegenerate v) (i : Fin 3) : dual v i ⬝ᵥ edges v (i + 1) = -√(gram v) := by
  have hg := Real.sqrt_pos.2 (gram_pos v h)
  have hg2 := Real.sq_sqrt (gram_pos v h).le
  have h2 := gram_lag v i
  unfold dual
  rw [smul_dotProduct, sub_dotProduct, smul_dotProduct, smul_dotProduct]
  simp only [smul_eq_mul]
  have : (edges v i ⬝ᵥ edges v (i + 1)) * (edges v i ⬝ᵥ edges v (i + 1)) - (edges v i ⬝ᵥ edges v i) * (edges v (i + 1) ⬝ᵥ edges v (i + 1)) = -√(gram v) ^ 2 := by
    rw [hg2]; linarith
  rw [this]
  field_simp

theorem dual_prev (v : Tri n) (h : NonDegenerate v) (i : Fin 3) : dual v i ⬝ᵥ edges v (i + 2) = √(gram v) := by
  have e : edges v (i + 2) = -edges v i - edges v (i + 1) := by
    simp only [edges, f11, f12, f21, f22]; abel
  rw [e, dotProduct_sub, dotProduct_neg, dual_edge, dual_next v h]
  ring

end

end Verif.Triangle
