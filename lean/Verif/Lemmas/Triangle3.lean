import Verif.Lemmas.Triangle2
import Mathlib.Geometry.Euclidean.Triangle
/-!
# Lemmas about triangles: barycentric coordinates, angles, special points
-/

namespace Verif.Triangle
open Verif Matrix Verif.Simplex Verif.Linalg Verif.Spec Verif.SimplexGeometry Verif.Props

noncomputable section

variable {n : ℕ}

/-! ## Coordinates in the plane of the triangle -/

/-- The coordinates of a vector with respect to the basis of the plane. -/
def coords (v : Tri n) (x : Fin n → ℝ) : Fin 2 → ℝ := fun j => x ⬝ᵥ bb v j

theorem coords_ok (v : Tri n) (h : NonDegenerate v) (hn : n = 2 ∨ n = 3) (x : Fin n → ℝ) : inTriangleplaneCoords v x = .ok (coords v x) := by
  unfold inTriangleplaneCoords
  rw [basis_ok v h hn]
  rfl

theorem edges2_ok (v : Tri n) (h : NonDegenerate v) (hn : n = 2 ∨ n = 3) : edges2 v = .ok (fun i => coords v (edges v i)) := by
  unfold edges2
  rw [basis_ok v h hn]
  rfl

theorem rows3_ok {α : Type} (f : Fin 3 → Py α) (g : Fin 3 → α) (h : ∀ i, f i = .ok (g i)) : rows3 f = .ok g := by
  unfold rows3
  rw [h 0, h 1, h 2]
  simp only [Py.bind_ok, Py.pure_eq]
  congr 1
  funext i
  fin_cases i <;> rfl

theorem medians2_ok (v : Tri n) (h : NonDegenerate v) (hn : n = 2 ∨ n = 3) : medians2 v = .ok (fun i => coords v (medians v i)) := by
  unfold medians2
  exact rows3_ok _ _ fun i => coords_ok v h hn _

theorem coords_add (v : Tri n) (x y : Fin n → ℝ) : coords v (x + y) = coords v x + coords v y := by
  funext j; simp [coords, add_dotProduct]

theorem coords_smul (v : Tri n) (c : ℝ) (x : Fin n → ℝ) : coords v (c • x) = c • coords v x := by
  funext j; simp [coords, smul_dotProduct]

/-- The vectors in the plane of the triangle. -/
def InSpan (v : Tri n) (x : Fin n → ℝ) : Prop := ∃ s t : ℝ, x = s • edges v 0 + t • edges v 1

theorem edges_inSpan (v : Tri n) (i : Fin 3) : InSpan v (edges v i) := by
  fin_cases i
  · exact ⟨1, 0, by simp⟩
  · exact ⟨0, 1, by simp⟩
  · refine ⟨-1, -1, ?_⟩
    show edges v 2 = _
    have e0 : edges v 0 = v 2 - v 1 := rfl
    have e1 : edges v 1 = v 0 - v 2 := rfl
    have e2 : edges v 2 = v 1 - v 0 := rfl
    rw [e0, e1, e2, neg_one_smul, neg_one_smul]
    abel

theorem InSpan.add {v : Tri n} {x y : Fin n → ℝ} (hx : InSpan v x) (hy : InSpan v y) : InSpan v (x + y) := by
  obtain ⟨s, t, rfl⟩ := hx
  obtain ⟨s', t', rfl⟩ := hy
  exact ⟨s + s', t + t', by rw [add_smul, add_smul]; abel⟩

theorem InSpan.smul {v : Tri n} {x : Fin n → ℝ} (c : ℝ) (hx : InSpan v x) : InSpan v (c • x) := by
  obtain ⟨s, t, rfl⟩ := hx
  exact ⟨c * s, c * t, by rw [smul_add, smul_smul, smul_smul]⟩

theorem coords_dot (v : Tri n) (h : NonDegenerate v) {x : Fin n → ℝ} (hx : InSpan v x) (y : Fin n → ℝ) :
    coords v x ⬝ᵥ coords v y = x ⬝ᵥ y := by
  obtain ⟨s, t, hx⟩ := hx
  have e := bb_span v h s t x hx
  conv_rhs => rw [e]
  rw [add_dotProduct, smul_dotProduct, smul_dotProduct]
  simp only [coords, dotProduct, Fin.sum_univ_two, smul_eq_mul]
  congr 2 <;> exact Finset.sum_congr rfl fun a _ => mul_comm _ _

theorem medians_eq (v : Tri n) (i : Fin 3) : medians v i = edges v (i + 2) + (1 / 2 : ℝ) • edges v i := by
  simp only [medians, edges, f21, f22]
  funext a
  simp only [Pi.add_apply, Pi.sub_apply, Pi.smul_apply, smul_eq_mul]
  ring

theorem medians_inSpan (v : Tri n) (i : Fin 3) : InSpan v (medians v i) := by
  rw [medians_eq]
  exact (edges_inSpan v _).add ((edges_inSpan v _).smul _)

theorem cross_median (v : Tri n) (h : NonDegenerate v) (i : Fin 3) : cross2 (coords v (edges v i)) (coords v (medians v i)) ≠ 0 := by
  have hsq : cross2 (coords v (edges v i)) (coords v (medians v i)) ^ 2 = gram v := by
    rw [lagrange2, coords_dot v h (edges_inSpan v i), coords_dot v h (edges_inSpan v i), coords_dot v h (medians_inSpan v i), medians_eq]
    have := gram_lag v (i + 2)
    rw [f21] at this
    rw [← this]
    simp only [add_dotProduct, dotProduct_add, smul_dotProduct, dotProduct_smul, smul_eq_mul]
    rw [dotProduct_comm (edges v i) (edges v (i + 2))]
    ring
  intro e
  rw [e] at hsq
  have := gram_pos v h
  norm_num at hsq
  linarith

theorem oblique (e m : Fin 2 → ℝ) (h : cross2 e m ≠ 0) (s t : ℝ) : vectorObliqueProjection2 (s • e + t • m) e m = s • e := by
  have e1 : vectorObliqueProjection2 (s • e + t • m) e m = (((s • e + t • m) 0 * m 1 - (s • e + t • m) 1 * m 0) / (e 0 * m 1 - e 1 * m 0)) • e := by
    have h' : (-(e 0 * m 1) + e 1 * m 0)⁻¹ = -(e 0 * m 1 - e 1 * m 0)⁻¹ := by
      rw [← inv_neg]
      congr 1
      ring
    unfold vectorObliqueProjection2
    funext i
    fin_cases i <;> simp [mulVec, dotProduct, Fin.sum_univ_two, h'] <;> ring
  rw [e1]
  congr 1
  have : e 0 * m 1 - e 1 * m 0 ≠ 0 := h
  rw [div_eq_iff this]
  simp only [Pi.add_apply, Pi.smul_apply, smul_eq_mul]
  ring

/-- The orthogonal projection of a point to the plane of a simplex. -/
theorem exists_orth {k : ℕ} (v : Fin (k + 1) → Fin n → ℝ) (h : NonDegenerate v) (x : Fin n → ℝ) :
    ∃ y, y ∈ Hull v ∧ (edgeM v)ᵀ *ᵥ (x - y) = 0 := by
  have hd := Linalg.gram_det ((nonDegenerate_iff v).1 h)
  refine ⟨v 0 + edgeM v *ᵥ (pinv (edgeM v) *ᵥ (x - v 0)), (mem_hull v _).2 ⟨_, rfl⟩, ?_⟩
  have : (edgeM v)ᵀ * (edgeM v * pinv (edgeM v)) = (edgeM v)ᵀ := by
    unfold pinv
    rw [← Matrix.mul_assoc, ← Matrix.mul_assoc, mul_nonsing_inv _ (Ne.isUnit hd), Matrix.one_mul]
  have e : x - (v 0 + edgeM v *ᵥ (pinv (edgeM v) *ᵥ (x - v 0))) = (x - v 0) - edgeM v *ᵥ (pinv (edgeM v) *ᵥ (x - v 0)) := by abel
  rw [e, mulVec_sub, mulVec_mulVec, mulVec_mulVec, Matrix.mul_assoc, this, sub_self]

theorem solveA_eq (a b : ℝ) : solveA ![1 / 2 * a - 1 / 2 * b, 1 / 2 * a + b] = ![a, b] := by
  unfold solveA
  have hdet : IsUnit (!![1 / 2, -1 / 2; 1 / 2, 1] : Matrix (Fin 2) (Fin 2) ℝ).det := by
    rw [Matrix.det_fin_two_of]
    exact Ne.isUnit (by norm_num)
  have e : (![1 / 2 * a - 1 / 2 * b, 1 / 2 * a + b] : Fin 2 → ℝ) = (!![1 / 2, -1 / 2; 1 / 2, 1] : Matrix (Fin 2) (Fin 2) ℝ) *ᵥ ![a, b] := by
    funext j
    fin_cases j <;> simp [mulVec, dotProduct, Fin.sum_univ_two] <;> ring
  rw [e, mulVec_mulVec, nonsing_inv_mul _ hdet, one_mulVec]

theorem cartesianToBarycentric_ok (v : Tri n) (h : NonDegenerate v) (hn : n = 2 ∨ n = 3) (p : Fin n → ℝ) :
    ∃ y w, cartesianToBarycentric p v = .ok w ∧ IsNearest p (Hull v) y ∧ IsBarycentric v y w := by
  obtain ⟨y, hy, horth⟩ := exists_orth v h p
  obtain ⟨w, hw⟩ := hy
  refine ⟨y, w, ?_, (nearest_of_orth v ⟨w, hw⟩ horth).1, hw⟩
  -- the difference is orthogonal to the plane
  have o1 : (v 1 - v 0) ⬝ᵥ (p - y) = 0 := congrFun horth 0
  have o2 : (v 2 - v 0) ⬝ᵥ (p - y) = 0 := congrFun horth 1
  have hspan : ∀ x, InSpan v x → (p - y) ⬝ᵥ x = 0 := by
    rintro x ⟨s, t, rfl⟩
    have e0 : edges v 0 = (v 2 - v 0) - (v 1 - v 0) := by unfold edges; simp
    have e1 : edges v 1 = -(v 2 - v 0) := by
      have : edges v 1 = v 0 - v 2 := rfl
      rw [this]; abel
    rw [dotProduct_add, dotProduct_smul, dotProduct_smul, e0, e1, dotProduct_sub, dotProduct_neg, dotProduct_comm, o2, dotProduct_comm, o1]
    simp
  have hbb : ∀ j, InSpan v (bb v j) := by
    intro j
    fin_cases j
    · exact (edges_inSpan v 0).smul _
    · show InSpan v ((1 / (edgeLengths v 0 * √(gram v))) • ((edges v 0 ⬝ᵥ edges v 0) • edges v 1 - (edges v 0 ⬝ᵥ edges v 1) • edges v 0))
      rw [sub_eq_add_neg, ← neg_smul]
      exact (((edges_inSpan v 1).smul _).add ((edges_inSpan v 0).smul _)).smul _
  have hco : ∀ i, coords v (p - v i) = coords v (y - v i) := by
    intro i
    have e : p - v i = (y - v i) + (p - y) := by abel
    rw [e, coords_add]
    have : coords v (p - y) = 0 := by funext j; exact hspan _ (hbb j)
    rw [this, add_zero]
  have s0 := bary_sub v hw 0
  have s1 := bary_sub v hw 1
  have hsum := ((bary3 v y w 0).1 hw).1
  simp only [zero_add] at s0 hsum
  have f1 : (1 + 1 : Fin 3) = 2 := rfl
  have f2 : (1 + 2 : Fin 3) = 0 := rfl
  rw [f1, f2] at s1
  have t0 : y - v 0 = (w 1 + w 2 / 2) • edges v 2 + (-w 2) • medians v 2 := by
    rw [s0]
    have e2 : edges v 2 = v 1 - v 0 := rfl
    have m2 : medians v 2 = (1 / 2 : ℝ) • (v 0 + v 1) - v 2 := rfl
    rw [e2, m2]
    funext a
    simp only [Pi.add_apply, Pi.sub_apply, Pi.smul_apply, smul_eq_mul]
    ring
  have t1 : y - v 1 = (w 2 + w 0 / 2) • edges v 0 + (-w 0) • medians v 0 := by
    rw [s1]
    have e2 : edges v 0 = v 2 - v 1 := rfl
    have m2 : medians v 0 = (1 / 2 : ℝ) • (v 1 + v 2) - v 0 := rfl
    rw [e2, m2]
    funext a
    simp only [Pi.add_apply, Pi.sub_apply, Pi.smul_apply, smul_eq_mul]
    ring
  have r0 : vectorObliqueProjection2 (coords v (p - v 0)) (coords v (edges v 2)) (coords v (medians v 2)) =
      (w 1 + w 2 / 2) • coords v (edges v 2) := by
    rw [hco, t0, coords_add, coords_smul, coords_smul]
    exact oblique _ _ (cross_median v h 2) _ _
  have r1 : vectorObliqueProjection2 (coords v (p - v 1)) (coords v (edges v 0)) (coords v (medians v 0)) =
      (w 2 + w 0 / 2) • coords v (edges v 0) := by
    rw [hco, t1, coords_add, coords_smul, coords_smul]
    exact oblique _ _ (cross_median v h 0) _ _
  have hne : ∀ i, coords v (edges v i) ⬝ᵥ coords v (edges v i) ≠ 0 := by
    intro i
    rw [coords_dot v h (edges_inSpan v i), edges_self]
    exact (edge_pos v h i).ne'
  unfold cartesianToBarycentric
  rw [edges2_ok v h hn, medians2_ok v h hn, coords_ok v h hn, coords_ok v h hn]
  simp only [Py.bind_ok, Py.pure_eq, r0, r1, smul_dotProduct, smul_eq_mul]
  rw [mul_div_assoc, div_self (hne 2), mul_div_assoc, div_self (hne 0), mul_one, mul_one]
  have ev : (![1 / 2 - (w 1 + w 2 / 2), 1 - (w 2 + w 0 / 2)] : Fin 2 → ℝ) = ![1 / 2 * w 0 - 1 / 2 * w 1, 1 / 2 * w 0 + w 1] := by
    have : w 2 = 1 - w 0 - w 1 := by linarith
    rw [this]
    congr 1
    · ring
    · congr 1; ring
  rw [ev, solveA_eq]
  congr 1
  funext j
  fin_cases j
  · rfl
  · rfl
  · show 1 - w 0 - w 1 = w 2
    linarith

/-! ## Angles -/

/-- The cosine of the angle at a vertex. -/
theorem isAngle_iff (v : Tri n) (h : NonDegenerate v) (i : Fin 3) (θ : ℝ) : IsAngle (v (i + 1) - v i) (v (i + 2) - v i) θ ↔
    0 ≤ θ ∧ θ ≤ Real.pi ∧ Real.cos θ = dd v i / (edgeLengths v (i + 1) * edgeLengths v (i + 2)) := by
  have h1 := el_pos v h (i + 1)
  have h2 := el_pos v h (i + 2)
  have e1 : √((v (i + 1) - v i) ⬝ᵥ (v (i + 1) - v i)) = edgeLengths v (i + 2) := by rw [dd_self1, el_eq, f21, f22]
  have e2 : √((v (i + 2) - v i) ⬝ᵥ (v (i + 2) - v i)) = edgeLengths v (i + 1) := by rw [dd_self2, el_eq, f11, f12, add_comm]
  unfold IsAngle
  rw [e1, e2]
  have : (v (i + 1) - v i) ⬝ᵥ (v (i + 2) - v i) = dd v i := rfl
  rw [this, eq_div_iff (mul_pos h1 h2).ne']
  refine and_congr_right fun _ => and_congr_right fun _ => ⟨fun e => by rw [e]; ring, fun e => by rw [← e]; ring⟩

theorem cauchy (v : Tri n) (h : NonDegenerate v) (i : Fin 3) :
    |dd v i / (edgeLengths v (i + 1) * edgeLengths v (i + 2))| < 1 := by
  have h1 := el_pos v h (i + 1)
  have h2 := el_pos v h (i + 2)
  rw [abs_div, abs_of_pos (mul_pos h1 h2), div_lt_one (mul_pos h1 h2)]
  refine abs_lt_of_sq_lt_sq ?_ (mul_pos h1 h2).le
  rw [mul_pow, el_sq, el_sq, f11, f12, f21, f22]
  have := gram_pos v h
  rw [gram_dd v i] at this
  nlinarith

theorem exists_angle (v : Tri n) (h : NonDegenerate v) (i : Fin 3) :
    IsAngle (v (i + 1) - v i) (v (i + 2) - v i) (Real.arccos (dd v i / (edgeLengths v (i + 1) * edgeLengths v (i + 2)))) := by
  have := abs_lt.1 (cauchy v h i)
  rw [isAngle_iff v h]
  exact ⟨Real.arccos_nonneg _, Real.arccos_le_pi _, Real.cos_arccos this.1.le this.2.le⟩

theorem angle_eq_arccos (v : Tri n) (h : NonDegenerate v) (i : Fin 3) {θ : ℝ} (hθ : IsAngle (v (i + 1) - v i) (v (i + 2) - v i) θ) :
    θ = Real.arccos (dd v i / (edgeLengths v (i + 1) * edgeLengths v (i + 2))) := by
  obtain ⟨h1, h2, h3⟩ := (isAngle_iff v h i θ).1 hθ
  rw [← h3, Real.arccos_cos h1 h2]

theorem angle_ok (v : Tri n) (h : NonDegenerate v) (hn : n ≠ 3 → ∀ i, 1 / 10 ^ 12 ≤ edgeLengths v i) (i : Fin 3) :
    ∃ θ, angle v i = .ok θ ∧ IsAngle (v (i + 1) - v i) (v (i + 2) - v i) θ := by
  have e1 : -edges v (i + 1) = v (i + 2) - v i := by simp only [edges, f11, f12]; abel
  have e2 : edges v (i + 2) = v (i + 1) - v i := by simp only [edges, f21, f22]
  have l1 : √((v (i + 2) - v i) ⬝ᵥ (v (i + 2) - v i)) = edgeLengths v (i + 1) := by rw [dd_self2, el_eq, f11, f12, add_comm]
  have l2 : √((v (i + 1) - v i) ⬝ᵥ (v (i + 1) - v i)) = edgeLengths v (i + 2) := by rw [dd_self1, el_eq, f21, f22]
  obtain ⟨θ, h1, h2⟩ := C59_compute_angle (v (i + 2) - v i) (v (i + 1) - v i)
    (by intro e; have := el_pos v h (i + 1); rw [← l1, e] at this; simp at this)
    (by intro e; have := el_pos v h (i + 2); rw [← l2, e] at this; simp at this)
    (fun h3 => by rw [l1, l2]; exact ⟨hn h3 _, hn h3 _⟩)
  refine ⟨θ, ?_, h2.1, h2.2.1, ?_⟩
  · unfold angle
    rw [e1, e2, h1]
  · rw [dotProduct_comm, h2.2.2]; ring

theorem inner_toLp (x y : Fin n → ℝ) : inner ℝ (WithLp.toLp 2 x : EuclideanSpace ℝ (Fin n)) (WithLp.toLp 2 y) = x ⬝ᵥ y := by
  rw [EuclideanSpace.inner_eq_star_dotProduct]
  simp [dotProduct_comm]

theorem norm_toLp (x : Fin n → ℝ) : ‖(WithLp.toLp 2 x : EuclideanSpace ℝ (Fin n))‖ = len x := by
  rw [EuclideanSpace.norm_eq]
  simp [len]

theorem angle_toLp (x y : Fin n → ℝ) : InnerProductGeometry.angle (WithLp.toLp 2 x : EuclideanSpace ℝ (Fin n)) (WithLp.toLp 2 y) =
    Real.arccos ((x ⬝ᵥ y) / (len x * len y)) := by
  unfold InnerProductGeometry.angle
  rw [inner_toLp, norm_toLp, norm_toLp]

theorem angle_sum (v : Tri n) (h : NonDegenerate v) :
    Real.arccos (dd v 0 / (edgeLengths v 1 * edgeLengths v 2)) + Real.arccos (dd v 1 / (edgeLengths v 2 * edgeLengths v 0)) +
      Real.arccos (dd v 2 / (edgeLengths v 0 * edgeLengths v 1)) = Real.pi := by
  have hne : (WithLp.toLp 2 (v 2 - v 0) : EuclideanSpace ℝ (Fin n)) ≠ 0 := by
    intro e
    have h1 := norm_toLp (v 2 - v 0)
    rw [e, norm_zero] at h1
    have h2 := el_pos v h 1
    have h3 : edgeLengths v 1 = len (v 0 - v 2) := el_len v 1
    rw [h3, len_sub_comm, ← h1] at h2
    exact lt_irrefl _ h2
  have key := InnerProductGeometry.angle_add_angle_sub_add_angle_sub_eq_pi (WithLp.toLp 2 (v 1 - v 0) : EuclideanSpace ℝ (Fin n)) hne
  rw [← WithLp.toLp_sub, ← WithLp.toLp_sub, angle_toLp, angle_toLp, angle_toLp] at key
  have l0 : edgeLengths v 0 = len (v 2 - v 1) := el_len v 0
  have l1 : edgeLengths v 1 = len (v 0 - v 2) := el_len v 1
  have l2 : edgeLengths v 2 = len (v 1 - v 0) := el_len v 2
  have a1 : v 1 - v 0 - (v 2 - v 0) = v 1 - v 2 := by abel
  have a2 : v 2 - v 0 - (v 1 - v 0) = v 2 - v 1 := by abel
  have d0 : dd v 0 = (v 1 - v 0) ⬝ᵥ (v 2 - v 0) := rfl
  have d1 : dd v 1 = (v 1 - v 0) ⬝ᵥ (v 1 - v 2) := by
    have : dd v 1 = (v 2 - v 1) ⬝ᵥ (v 0 - v 1) := rfl
    rw [this, ← neg_sub (v 1) (v 2), ← neg_sub (v 1) (v 0), neg_dotProduct_neg, dotProduct_comm]
  have d2 : dd v 2 = (v 2 - v 0) ⬝ᵥ (v 2 - v 1) := by
    have : dd v 2 = (v 0 - v 2) ⬝ᵥ (v 1 - v 2) := rfl
    rw [this, ← neg_sub (v 2) (v 0), ← neg_sub (v 2) (v 1), neg_dotProduct_neg]
  rw [a1, a2] at key
  rw [d0, d1, d2, l0, l1, l2, len_sub_comm (v 0) (v 2), mul_comm (len (v 2 - v 0)) (len (v 1 - v 0)), mul_comm (len (v 2 - v 1)) (len (v 2 - v 0))]
  rw [len_sub_comm (v 1) (v 2)] at key
  exact key

/-- The sum of two cosines of angles of a triangle is positive. -/
theorem cos_add (v : Tri n) (h : NonDegenerate v) (i : Fin 3) :
    -(dd v i / (edgeLengths v (i + 1) * edgeLengths v (i + 2))) ≤ dd v (i + 1) / (edgeLengths v (i + 2) * edgeLengths v i) := by
  have p0 := el_pos v h i
  have p1 := el_pos v h (i + 1)
  have p2 := el_pos v h (i + 2)
  rw [neg_le_iff_add_nonneg, add_comm]
  have e : dd v i / (edgeLengths v (i + 1) * edgeLengths v (i + 2)) + dd v (i + 1) / (edgeLengths v (i + 2) * edgeLengths v i) =
      (dd v i * edgeLengths v i + dd v (i + 1) * edgeLengths v (i + 1)) / (edgeLengths v i * edgeLengths v (i + 1) * edgeLengths v (i + 2)) := by
    field_simp
  rw [e]
  refine div_nonneg ?_ (by positivity)
  have s0 := el_sq v i
  have s1 := el_sq v (i + 1)
  rw [f11, f12] at s1
  have hg := gram_pos v h
  rw [gram_dd v i] at hg
  set a := dd v i
  set b := dd v (i + 1)
  set c := dd v (i + 2)
  set x := edgeLengths v i
  set y := edgeLengths v (i + 1)
  have hab : 0 < a + b := by
    have := edge_pos v h (i + 2)
    rwa [f21, f22] at this
  have key : (a * x) ^ 2 - (b * y) ^ 2 = (a - b) * (a * b + a * c + b * c) := by
    rw [mul_pow, mul_pow, s0, s1]; ring
  rcases le_total a b with hle | hle
  · -- then b is positive
    have hb : 0 < b := by linarith
    by_contra hc
    push Not at hc
    have h1 : b * y < -(a * x) := by linarith
    have h2 : (b * y) ^ 2 < (a * x) ^ 2 := by
      have : 0 < b * y := mul_pos hb p1
      nlinarith
    nlinarith [mul_nonneg (sub_nonneg.2 hle) hg.le]
  · have ha : 0 < a := by linarith
    by_contra hc
    push Not at hc
    have h1 : a * x < -(b * y) := by linarith
    have h2 : (a * x) ^ 2 < (b * y) ^ 2 := by
      have : 0 < a * x := mul_pos ha p0
      nlinarith
    nlinarith [mul_nonneg (sub_nonneg.2 hle) hg.le]

/-! ## Trilinear coordinates and special points -/

theorem trilinear_ok (v : Tri n) {t w : Fin 3 → ℝ} {c : ℝ} (hc : c ≠ 0) (ht : ∀ i, t i * edgeLengths v i = c * w i) (hw : w 0 + w 1 + w 2 = 1) :
    trilinearToBarycentric t v = w := by
  unfold trilinearToBarycentric
  have e : ∀ i, t i * Linalg.norm (edges v i) = c * w i := ht
  simp only [e]
  funext i
  have : 0 + c * w 0 + c * w 1 + c * w 2 = c := by linear_combination c * hw
  simp only [this, Pi.smul_apply, smul_eq_mul]
  field_simp

theorem toCartesian_bary (v : Tri n) (w : Fin 3 → ℝ) (h : w 0 + w 1 + w 2 = 1) : IsBarycentric v (barycentricToCartesian w v) w :=
  (bary3 v _ w 0).2 ⟨h, rfl⟩

end

end Verif.Triangle
