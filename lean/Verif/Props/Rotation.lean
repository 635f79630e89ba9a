import Verif.Model.Linalg
import Verif.Spec.Rotation
import Mathlib.Tactic.LinearCombination
import Mathlib.Tactic.Linarith
import Mathlib.Tactic.FieldSimp
import Mathlib.Tactic.Ring
import Mathlib.Tactic.NormNum
import Mathlib.Tactic.FinCases
import Mathlib.LinearAlgebra.Matrix.Determinant.Basic
import Mathlib.LinearAlgebra.Matrix.DotProduct
import Mathlib.Analysis.SpecialFunctions.Trigonometric.Inverse
/-!
# C54 (rotations) and C59 (angles between vectors, rotations taking one vector to another)
-/

namespace Verif.Linalg
open Verif Matrix

/-! ## Norms -/

theorem dot_self_nonneg {n : Nat} (v : Fin n → ℝ) : 0 ≤ v ⬝ᵥ v := by
  unfold dotProduct
  exact Finset.sum_nonneg (fun i _ => mul_self_nonneg _)

theorem norm_sq {n : Nat} (v : Fin n → ℝ) : norm v * norm v = v ⬝ᵥ v := Real.mul_self_sqrt (dot_self_nonneg v)

theorem norm_nonneg' {n : Nat} (v : Fin n → ℝ) : 0 ≤ norm v := Real.sqrt_nonneg _

theorem norm_pos' {n : Nat} {v : Fin n → ℝ} (h : v ≠ 0) : 0 < norm v := by
  apply Real.sqrt_pos.2
  rcases (dot_self_nonneg v).lt_or_eq with h1 | h1
  · exact h1
  · exact absurd (dotProduct_self_eq_zero.1 h1.symm) h

theorem norm_unit {n : Nat} {k : Fin n → ℝ} (h : IsUnit3 k) : norm k = 1 := by
  unfold norm
  rw [show k ⬝ᵥ k = 1 from h, Real.sqrt_one]

theorem divBy_eq {n : Nat} (v : Fin n → ℝ) (s : ℝ) : divBy v s = (1 / s) • v := by
  funext i
  simp [divBy, div_eq_inv_mul]

theorem unit_divBy {n : Nat} {v : Fin n → ℝ} (h : v ≠ 0) : IsUnit3 (divBy v (norm v)) := by
  have := norm_pos' h
  unfold IsUnit3
  rw [divBy_eq, smul_dotProduct, dotProduct_smul, ← norm_sq, smul_eq_mul, smul_eq_mul]
  field_simp

theorem divBy_unit {n : Nat} {k : Fin n → ℝ} (h : IsUnit3 k) : divBy k (norm k) = k := by
  rw [norm_unit h, divBy_eq]
  simp

theorem unitAssert_ok {k : Fin 3 → ℝ} (h : IsUnit3 k) : unitAssert k = .ok () := by
  unfold unitAssert
  rw [norm_unit h, if_pos (by norm_num)]

/-! ## C54: rotations -/

/-- **C54** `hat(w)` is the matrix of the cross product with `w`, and it is antisymmetric. -/
theorem C54_hat (w v : Fin 3 → ℝ) : hat w *ᵥ v = w ⨯₃ v ∧ (hat w)ᵀ = -hat w := by
  constructor
  · rw [cross_apply]
    funext i
    fin_cases i <;> simp [hat, mulVec, dotProduct, Fin.sum_univ_three] <;> ring
  · ext i j
    fin_cases i <;> fin_cases j <;> simp [hat]

theorem unit_eq {k : Fin 3 → ℝ} (h : IsUnit3 k) : k 0 * k 0 + k 1 * k 1 + k 2 * k 2 = 1 := by
  have h' : k ⬝ᵥ k = 1 := h
  rwa [dotProduct, Fin.sum_univ_three] at h'

/-- The matrix of Rodrigues' formula. -/
noncomputable def rod (k : Fin 3 → ℝ) (c s : ℝ) : Matrix (Fin 3) (Fin 3) ℝ := c • 1 + s • hat k + (1 - c) • vecMulVec k k

theorem rod_eq (k : Fin 3 → ℝ) (c s : ℝ) : rod k c s =
    !![c + (1 - c) * (k 0 * k 0), -s * k 2 + (1 - c) * (k 0 * k 1), s * k 1 + (1 - c) * (k 0 * k 2);
       s * k 2 + (1 - c) * (k 1 * k 0), c + (1 - c) * (k 1 * k 1), -s * k 0 + (1 - c) * (k 1 * k 2);
       -s * k 1 + (1 - c) * (k 2 * k 0), s * k 0 + (1 - c) * (k 2 * k 1), c + (1 - c) * (k 2 * k 2)] := by
  ext i j
  fin_cases i <;> fin_cases j <;> simp [rod, hat, vecMulVec_apply]

theorem rod_isRotation {k : Fin 3 → ℝ} (hk : IsUnit3 k) {c s : ℝ} (hcs : c ^ 2 + s ^ 2 = 1) : IsRotation (rod k c s) := by
  have hu := unit_eq hk
  have h1 : rod k c s * (rod k c s)ᵀ = 1 := by
    rw [rod_eq]
    ext i j
    fin_cases i <;> fin_cases j <;> simp [Matrix.mul_apply, Fin.sum_univ_three]
    · linear_combination (1 - k 0 * k 0) * hcs + (s ^ 2 * 1 + (1 - c) ^ 2 * (k 0 * k 0)) * hu
    · linear_combination (0 - k 0 * k 1) * hcs + (s ^ 2 * 0 + (1 - c) ^ 2 * (k 0 * k 1)) * hu
    · linear_combination (0 - k 0 * k 2) * hcs + (s ^ 2 * 0 + (1 - c) ^ 2 * (k 0 * k 2)) * hu
    · linear_combination (0 - k 1 * k 0) * hcs + (s ^ 2 * 0 + (1 - c) ^ 2 * (k 1 * k 0)) * hu
    · linear_combination (1 - k 1 * k 1) * hcs + (s ^ 2 * 1 + (1 - c) ^ 2 * (k 1 * k 1)) * hu
    · linear_combination (0 - k 1 * k 2) * hcs + (s ^ 2 * 0 + (1 - c) ^ 2 * (k 1 * k 2)) * hu
    · linear_combination (0 - k 2 * k 0) * hcs + (s ^ 2 * 0 + (1 - c) ^ 2 * (k 2 * k 0)) * hu
    · linear_combination (0 - k 2 * k 1) * hcs + (s ^ 2 * 0 + (1 - c) ^ 2 * (k 2 * k 1)) * hu
    · linear_combination (1 - k 2 * k 2) * hcs + (s ^ 2 * 1 + (1 - c) ^ 2 * (k 2 * k 2)) * hu
  refine ⟨h1, mul_eq_one_comm.1 h1, ?_⟩
  rw [rod_eq, det_fin_three]
  simp
  linear_combination ((1 - c) * (c ^ 2 + s ^ 2 * (k 0 * k 0 + k 1 * k 1 + k 2 * k 2)) + s ^ 2) * hu + hcs

/-- **C54** `rodrigues_formula_matrix(k, cos, sin)` for a unit axis `k` and `cos² + sin² = 1`: a rotation matrix that fixes `k`, agrees with
`rodrigues_formula` on every vector, and turns the vectors orthogonal to `k` as a rotation in the plane does. -/
theorem C54_rodrigues (k : Fin 3 → ℝ) (hk : IsUnit3 k) (c s : ℝ) (hcs : c ^ 2 + s ^ 2 = 1) :
    ∃ R, rodriguesFormulaMatrix k c s = .ok R ∧ IsRotation R ∧ R *ᵥ k = k ∧ (∀ v, rodriguesFormula v k c s = .ok (R *ᵥ v)) ∧
      ∀ v, k ⬝ᵥ v = 0 → R *ᵥ v = c • v + s • (k ⨯₃ v) := by
  have hmul : ∀ v, rod k c s *ᵥ v = c • v + s • (k ⨯₃ v) + ((k ⬝ᵥ v) * (1 - c)) • k := by
    intro v
    unfold rod
    rw [add_mulVec, add_mulVec, smul_mulVec, smul_mulVec, smul_mulVec, one_mulVec, (C54_hat k v).1, vecMulVec_mulVec]
    congr 1
    funext i
    simp
    ring
  refine ⟨rod k c s, ?_, rod_isRotation hk hcs, ?_, ?_, ?_⟩
  · unfold rodriguesFormulaMatrix
    rw [unitAssert_ok hk]
    rfl
  · rw [hmul, cross_self, show k ⬝ᵥ k = 1 from hk, smul_zero, add_zero, one_mul, ← add_smul]
    simp
  · intro v
    unfold rodriguesFormula
    rw [unitAssert_ok hk, hmul]
    rfl
  · intro v hv
    rw [hmul, hv]
    simp

/-- **C54** Axes that are not of unit length (up to `1e-10`) are rejected. -/
theorem C54_rodrigues_error (v k : Fin 3 → ℝ) (c s : ℝ) (hk : 1 / 10 ^ 10 ≤ |√(k ⬝ᵥ k) - 1|) :
    rodriguesFormulaMatrix k c s = .error .assertion ∧ rodriguesFormula v k c s = .error .assertion := by
  have : unitAssert k = .error .assertion := by
    unfold unitAssert
    rw [if_neg (by unfold norm; exact not_lt.2 hk)]
  unfold rodriguesFormulaMatrix rodriguesFormula
  rw [this]
  exact ⟨rfl, rfl⟩

theorem axisAngle_ok {axis : Fin 3 → ℝ} (h : axis ≠ 0) (θ : ℝ) : axisAngleToRotationMatrix axis θ =
    .ok (rod (divBy axis (norm axis)) (Real.cos θ) (Real.sin θ), divBy axis (norm axis)) := by
  unfold axisAngleToRotationMatrix rodriguesFormulaMatrix
  simp only [unitAssert_ok (unit_divBy h)]
  rfl

theorem rod_mulVec (k v : Fin 3 → ℝ) (c s : ℝ) : rod k c s *ᵥ v = c • v + s • (k ⨯₃ v) + ((k ⬝ᵥ v) * (1 - c)) • k := by
  unfold rod
  rw [add_mulVec, add_mulVec, smul_mulVec, smul_mulVec, smul_mulVec, one_mulVec, (C54_hat k v).1, vecMulVec_mulVec]
  congr 1
  funext i
  simp
  ring

/-- **C54** `axis_angle_to_rotation_matrix` returns, for every non-zero axis and every angle, a rotation matrix that fixes the axis, and
leaves the normalised axis in the caller's array. The zero axis is rejected. -/
theorem C54_axis_angle (axis : Fin 3 → ℝ) (θ : ℝ) :
    (axis ≠ 0 → ∃ R k, axisAngleToRotationMatrix axis θ = .ok (R, k) ∧ IsRotation R ∧ R *ᵥ axis = axis ∧ IsUnit3 k ∧ axis = √(axis ⬝ᵥ axis) • k ∧
      (∀ v, k ⬝ᵥ v = 0 → R *ᵥ v = Real.cos θ • v + Real.sin θ • (k ⨯₃ v))) ∧
    (axis = 0 → axisAngleToRotationMatrix axis θ = .error .assertion) := by
  constructor
  · intro h
    have hu := unit_divBy h
    have hax : axis = √(axis ⬝ᵥ axis) • divBy axis (norm axis) := by
      have := norm_pos' h
      rw [divBy_eq, smul_smul]
      show axis = (norm axis * (1 / norm axis)) • axis
      rw [mul_one_div_cancel this.ne', one_smul]
    obtain ⟨R, hR, h1, h2, h3, h4⟩ := C54_rodrigues _ hu (Real.cos θ) (Real.sin θ) (Real.cos_sq_add_sin_sq θ)
    have hR' : rod (divBy axis (norm axis)) (Real.cos θ) (Real.sin θ) = R := by
      unfold rodriguesFormulaMatrix at hR
      rw [unitAssert_ok hu] at hR
      exact Except.ok.inj hR
    refine ⟨R, divBy axis (norm axis), ?_, h1, ?_, hu, hax, h4⟩
    · rw [axisAngle_ok h, hR']
    · conv_lhs => rw [hax]
      rw [mulVec_smul, h2, ← hax]
  · rintro rfl
    unfold axisAngleToRotationMatrix rodriguesFormulaMatrix unitAssert
    have : norm (divBy (0 : Fin 3 → ℝ) (norm (0 : Fin 3 → ℝ))) = 0 := by
      unfold norm divBy
      simp
    simp only [this]
    rw [if_neg (by norm_num)]
    rfl

/-- **C54** Rotations about the same axis compose by adding the angles. -/
theorem C54_axis_angle_add (axis : Fin 3 → ℝ) (h : axis ≠ 0) (α β : ℝ) :
    ∃ A B C, axisAngleToRotationMatrix axis α = .ok A ∧ axisAngleToRotationMatrix axis β = .ok B ∧
      axisAngleToRotationMatrix axis (α + β) = .ok C ∧ A.1 * B.1 = C.1 := by
  refine ⟨_, _, _, axisAngle_ok h α, axisAngle_ok h β, axisAngle_ok h (α + β), ?_⟩
  have hu := unit_divBy h
  simp only
  generalize divBy axis (norm axis) = k at hu
  have key : ∀ v, (rod k (Real.cos α) (Real.sin α) * rod k (Real.cos β) (Real.sin β)) *ᵥ v = rod k (Real.cos (α + β)) (Real.sin (α + β)) *ᵥ v := by
    intro v
    rw [← mulVec_mulVec, rod_mulVec, rod_mulVec, rod_mulVec]
    have h1 : k ⨯₃ (Real.cos β • v + Real.sin β • (k ⨯₃ v) + ((k ⬝ᵥ v) * (1 - Real.cos β)) • k) =
        Real.cos β • (k ⨯₃ v) + Real.sin β • ((k ⬝ᵥ v) • k - v) := by
      rw [map_add, map_add, map_smul, map_smul, map_smul, cross_self, smul_zero, add_zero]
      congr 2
      rw [cross_cross_eq_smul_sub_smul', show k ⬝ᵥ k = 1 from hu, one_smul]
    have h2 : k ⬝ᵥ (Real.cos β • v + Real.sin β • (k ⨯₃ v) + ((k ⬝ᵥ v) * (1 - Real.cos β)) • k) = k ⬝ᵥ v := by
      rw [dotProduct_add, dotProduct_add, dotProduct_smul, dotProduct_smul, dotProduct_smul, dot_self_cross, show k ⬝ᵥ k = 1 from hu]
      simp
      ring
    rw [h1, h2, Real.cos_add, Real.sin_add]
    funext i
    simp only [Pi.add_apply, Pi.smul_apply, Pi.sub_apply, smul_eq_mul]
    ring
  ext i j
  have := congrFun (key (Pi.single j 1)) i
  simpa using this

/-- **C54** The matrices of `random_rotation_matrix_2` are rotation matrices, for every value of the generator. -/
theorem C54_random_2 (u : ℝ) : IsRotation (rotationMatrix2 u) := by
  have h := Real.cos_sq_add_sin_sq (2 * Real.pi * u)
  have h1 : rotationMatrix2 u * (rotationMatrix2 u)ᵀ = 1 := by
    unfold rotationMatrix2
    ext i j
    fin_cases i <;> fin_cases j <;> simp [Matrix.mul_apply, Fin.sum_univ_two]
    · linear_combination h
    · ring
    · ring
    · linear_combination h
  refine ⟨h1, mul_eq_one_comm.1 h1, ?_⟩
  unfold rotationMatrix2
  rw [det_fin_two]
  simp
  linear_combination h

example : IsUnit3 (![2 / 3, 1 / 3, 2 / 3] : Fin 3 → ℝ) ∧ (3 / 5 : ℝ) ^ 2 + (4 / 5) ^ 2 = 1 := by
  refine ⟨?_, by norm_num⟩
  show ![2 / 3, 1 / 3, 2 / 3] ⬝ᵥ ![2 / 3, 1 / 3, 2 / 3] = (1 : ℝ)
  simp [dotProduct, Fin.sum_univ_three]
  norm_num

/-! ## C59: angles -/

theorem arctan2_nonneg {y x : ℝ} (hy : 0 ≤ y) : 0 ≤ arctan2 y x ∧ arctan2 y x ≤ Real.pi :=
  ⟨Complex.arg_nonneg_iff.2 hy, Complex.arg_le_pi _⟩

theorem arctan2_polar {y x r : ℝ} (hr : 0 ≤ r) (h : x * x + y * y = r * r) : r * Real.cos (arctan2 y x) = x ∧ r * Real.sin (arctan2 y x) = y := by
  have hn : ‖(⟨x, y⟩ : ℂ)‖ = r := by
    rw [Complex.norm_def, Complex.normSq_mk, h, Real.sqrt_mul_self hr]
  unfold arctan2
  have h1 := Complex.norm_mul_cos_arg (⟨x, y⟩ : ℂ)
  have h2 := Complex.norm_mul_sin_arg (⟨x, y⟩ : ℂ)
  rw [hn] at h1 h2
  exact ⟨h1, h2⟩

theorem lagrange (v w : Fin 3 → ℝ) : (v ⬝ᵥ w) * (v ⬝ᵥ w) + (v ⨯₃ w) ⬝ᵥ (v ⨯₃ w) = (v ⬝ᵥ v) * (w ⬝ᵥ w) := by
  rw [cross_dot_cross, dotProduct_comm w v]
  ring

theorem angle3 (v w : Fin 3 → ℝ) : norm v * norm w * Real.cos (computeAngle3 v w) = v ⬝ᵥ w ∧
    norm v * norm w * Real.sin (computeAngle3 v w) = norm (v ⨯₃ w) := by
  apply arctan2_polar (mul_nonneg (norm_nonneg' v) (norm_nonneg' w))
  rw [norm_sq, lagrange, ← norm_sq, ← norm_sq]
  ring

theorem angleN {n : Nat} (v w : Fin n → ℝ) (hv : 1 / 10 ^ 12 ≤ norm v) (hw : 1 / 10 ^ 12 ≤ norm w) :
    0 ≤ computeAngleN v w ∧ computeAngleN v w ≤ Real.pi ∧ norm v * norm w * Real.cos (computeAngleN v w) = v ⬝ᵥ w := by
  have pv : 0 < norm v := lt_of_lt_of_le (by positivity) hv
  have pw : 0 < norm w := lt_of_lt_of_le (by positivity) hw
  unfold computeAngleN
  simp only
  rw [if_neg (by rw [not_or]; exact ⟨not_lt.2 hv, not_lt.2 hw⟩)]
  set a := divBy v (norm v) with ha
  set b := divBy w (norm w) with hb
  have va : v = norm v • a := by rw [ha, divBy_eq, smul_smul, mul_one_div_cancel pv.ne', one_smul]
  have wb : w = norm w • b := by rw [hb, divBy_eq, smul_smul, mul_one_div_cancel pw.ne', one_smul]
  have ua : a ⬝ᵥ a = 1 := unit_divBy (by rintro rfl; simp [norm] at pv)
  have ub : b ⬝ᵥ b = 1 := unit_divBy (by rintro rfl; simp [norm] at pw)
  have e1 : norm (a + b) * norm (a + b) = 2 + 2 * (a ⬝ᵥ b) := by
    rw [norm_sq, add_dotProduct, dotProduct_add, dotProduct_add, ua, ub, dotProduct_comm b a]
    ring
  have e2 : norm (a - b) * norm (a - b) = 2 - 2 * (a ⬝ᵥ b) := by
    rw [norm_sq, sub_dotProduct, dotProduct_sub, dotProduct_sub, ua, ub, dotProduct_comm b a]
    ring
  obtain ⟨h1, h2⟩ := arctan2_polar (y := norm (a - b)) (x := norm (a + b)) (r := 2) (by norm_num) (by rw [e1, e2]; ring)
  have h3 := arctan2_nonneg (y := norm (a - b)) (x := norm (a + b)) (norm_nonneg' _)
  have h4 : arctan2 (norm (a - b)) (norm (a + b)) ≤ Real.pi / 2 := Complex.arg_le_pi_div_two_iff.2 (Or.inl (norm_nonneg' _))
  refine ⟨by linarith [h3.1], by linarith, ?_⟩
  rw [Real.cos_two_mul]
  conv_rhs => rw [va, wb, smul_dotProduct, dotProduct_smul, smul_eq_mul, smul_eq_mul]
  have h5 : 2 * Real.cos (arctan2 (norm (a - b)) (norm (a + b))) ^ 2 - 1 = a ⬝ᵥ b := by
    have : (2 * Real.cos (arctan2 (norm (a - b)) (norm (a + b)))) * (2 * Real.cos (arctan2 (norm (a - b)) (norm (a + b)))) = 2 + 2 * (a ⬝ᵥ b) := by
      rw [h1, e1]
    linarith
  rw [h5]
  ring

/-- **C59** `compute_angle` returns the angle between two non-zero vectors (vectors shorter than `1e-12` are treated as zero, except in
dimension 3), in every dimension. -/
theorem C59_compute_angle {n : Nat} (v w : Fin n → ℝ) (hv : v ≠ 0) (hw : w ≠ 0)
    (hn : n ≠ 3 → 1 / 10 ^ 12 ≤ √(v ⬝ᵥ v) ∧ 1 / 10 ^ 12 ≤ √(w ⬝ᵥ w)) :
    ∃ θ, computeAngle v w = .ok θ ∧ IsAngle v w θ := by
  unfold computeAngle
  rw [dif_pos rfl]
  by_cases h : 3 = n
  · subst h
    rw [dif_pos rfl]
    refine ⟨_, rfl, ?_⟩
    have h1 := arctan2_nonneg (y := norm (v ⨯₃ w)) (x := v ⬝ᵥ w) (norm_nonneg' _)
    exact ⟨h1.1, h1.2, (angle3 v w).1.symm⟩
  · rw [dif_neg h]
    obtain ⟨h1, h2⟩ := hn (fun h' => h h'.symm)
    obtain ⟨h3, h4, h5⟩ := angleN v w h1 h2
    exact ⟨_, rfl, h3, h4, h5.symm⟩

/-- **C59** Vectors of different lengths are rejected; a vector that is (almost) zero gives the angle zero outside dimension 3. -/
theorem C59_compute_angle_error {n m : Nat} (v : Fin n → ℝ) (w : Fin m → ℝ) (h : m ≠ n) : computeAngle v w = .error .assertion := by
  unfold computeAngle
  rw [dif_neg h]

/-- **C59** The angle is determined by its specification. -/
theorem C59_angle_unique {n : Nat} (v w : Fin n → ℝ) (hv : v ≠ 0) (hw : w ≠ 0) (θ θ' : ℝ) (h : IsAngle v w θ) (h' : IsAngle v w θ') : θ = θ' := by
  have pv := norm_pos' hv
  have pw := norm_pos' hw
  apply Real.injOn_cos ⟨h.1, h.2.1⟩ ⟨h'.1, h'.2.1⟩
  have := h.2.2.symm.trans h'.2.2
  exact mul_left_cancel₀ (mul_pos pv pw).ne' this

example : ((![1, 0, 2] : Fin 3 → ℝ) ≠ 0) ∧ (![0, 3] : Fin 2 → ℝ) ≠ 0 ∧ 1 / 10 ^ 12 ≤ √((![0, 3] : Fin 2 → ℝ) ⬝ᵥ ![0, 3]) := by
  refine ⟨fun h => by simpa using congrFun h 0, fun h => by simpa using congrFun h 1, ?_⟩
  rw [show (![0, 3] : Fin 2 → ℝ) ⬝ᵥ ![0, 3] = 3 * 3 from by simp [dotProduct, Fin.sum_univ_two], Real.sqrt_mul_self (by norm_num)]
  norm_num

/-! ## C59: orthogonal vectors -/

section Ortho
variable {K : Type} [Field K] [LinearOrder K]

/-- The inner product of two arrays. -/
def dotL (u v : List K) : K := (List.zipWith (· * ·) u v).sum

omit [LinearOrder K] in
theorem dotL_set (l v : List K) (i : Nat) (hl : i < l.length) (hv : i < v.length) (a : K) :
    dotL (l.set i a) v = dotL l v + (a - l[i]) * v[i] := by
  induction l generalizing i v with
  | nil => simp at hl
  | cons x l ih =>
    cases v with
    | nil => simp at hv
    | cons y v =>
      cases i with
      | zero => simp [dotL]; ring
      | succ i =>
        have := ih v i (by simpa using hl) (by simpa using hv)
        simp only [dotL] at this
        simp [dotL, this]
        ring

omit [LinearOrder K] in
theorem dotL_zero (n : Nat) (v : List K) : dotL (List.replicate n 0) v = 0 := by
  induction n generalizing v with
  | zero => simp [dotL]
  | succ n ih =>
    cases v with
    | nil => simp [dotL]
    | cons y v =>
      have := ih v
      simp only [dotL] at this
      simp [dotL, List.replicate_succ, this]

/-- The state of the loop after the entries `l`. -/
structure TwoInv (l : List K) (s : TwoLargest K) : Prop where
  empty : l = [] → s = ⟨-1, -1, -1, -1⟩
  first : l ≠ [] → ∃ i : Nat, s.i1 = i ∧ ∃ h : i < l.length, s.m1 = |l[i]| ∧ ∀ x ∈ l, |x| ≤ s.m1
  single : l.length = 1 → s.i2 = -1 ∧ s.m2 = -1
  second : 2 ≤ l.length → ∃ j : Nat, s.i2 = j ∧ s.i1 ≠ j ∧ ∃ h : j < l.length, s.m2 = |l[j]|

variable [IsStrictOrderedRing K]

theorem twoLargestStep_inv {l : List K} {s : TwoLargest K} (h : TwoInv l s) (x : K) : TwoInv (l ++ [x]) (twoLargestStep s l.length x) := by
  have hx := abs_nonneg x
  by_cases hnil : l = []
  · subst hnil
    rw [h.empty rfl]
    unfold twoLargestStep
    simp only
    rw [if_pos (by linarith)]
    exact ⟨by simp, fun _ => ⟨0, by simp, by simp, by simp, by simp⟩, fun _ => ⟨rfl, rfl⟩, by simp⟩
  · obtain ⟨i, hi, hil, him, hmax⟩ := h.first hnil
    have hlen : 1 ≤ l.length := List.length_pos_iff.2 hnil
    unfold twoLargestStep
    simp only
    split
    · rename_i hgt
      refine ⟨by simp, fun _ => ⟨l.length, rfl, by simp, by simp, ?_⟩, fun h1 => by rw [List.length_append, List.length_singleton] at h1; omega, fun _ => ⟨i, hi, by simp only; omega, by simp; omega, ?_⟩⟩
      · intro z hz
        rcases List.mem_append.1 hz with hz | hz
        · exact (hmax z hz).trans hgt.le
        · rw [List.mem_singleton.1 hz]
      · simp only
        rw [him, List.getElem_append_left hil]
    · rename_i hle
      have hmax' : ∀ z ∈ l ++ [x], |z| ≤ s.m1 := by
        intro z hz
        rcases List.mem_append.1 hz with hz | hz
        · exact hmax z hz
        · rw [List.mem_singleton.1 hz]
          exact not_lt.1 hle
      split
      · refine ⟨by simp, fun _ => ⟨i, hi, by simp; omega, ?_, hmax'⟩, by simp; omega, fun _ => ⟨l.length, rfl, by simp only; omega, by simp, by simp⟩⟩
        simp only
        rw [him, List.getElem_append_left hil]
      · rename_i hle2
        have h2 : 2 ≤ l.length := by
          by_contra h2
          have := (h.single (by omega)).2
          rw [this] at hle2
          linarith
        obtain ⟨j, hj, hne, hjl, hjm⟩ := h.second h2
        refine ⟨by simp, fun _ => ⟨i, hi, by simp; omega, ?_, hmax'⟩, fun h1 => by rw [List.length_append, List.length_singleton] at h1; omega, fun _ => ⟨j, hj, hne, by simp; omega, ?_⟩⟩
        · rw [him, List.getElem_append_left hil]
        · rw [hjm, List.getElem_append_left hjl]

theorem twoLargest_inv (r l : List K) (s : TwoLargest K) (h : TwoInv l s) : TwoInv (l ++ r) (twoLargest s l.length r) := by
  induction r generalizing l s with
  | nil => simpa [twoLargest] using h
  | cons x r ih =>
    have h1 := ih (l ++ [x]) _ (twoLargestStep_inv h x)
    rw [twoLargest]
    simpa using h1

/-- **C59** `orthogonal_vector` returns, for every non-zero vector of length at least two, a non-zero vector orthogonal to it. -/
theorem C59_orthogonal_vector (v : List K) (hlen : 2 ≤ v.length) (hne : ∃ x ∈ v, x ≠ 0) :
    ∃ u, orthogonalVector v = .ok u ∧ u.length = v.length ∧ dotL u v = 0 ∧ ∃ x ∈ u, x ≠ 0 := by
  unfold orthogonalVector
  obtain ⟨x, hx, hx0⟩ := hne
  rw [if_neg (by
    intro h
    rw [List.all_eq_true] at h
    exact hx0 (by simpa using h x hx))]
  split
  · rename_i h2
    obtain ⟨a, b, rfl⟩ := List.length_eq_two.1 h2
    refine ⟨[-b, a], rfl, rfl, by simp [dotL]; ring, ?_⟩
    rcases List.mem_cons.1 hx with rfl | hx
    · exact ⟨x, by simp, hx0⟩
    · rw [List.mem_singleton.1 hx] at hx0
      exact ⟨-b, by simp, neg_ne_zero.2 hx0⟩
  · have hinv := twoLargest_inv v [] ⟨-1, -1, -1, -1⟩ ⟨fun _ => rfl, fun h => absurd rfl h, by simp, by simp⟩
    simp only [List.nil_append, List.length_nil, Nat.cast_zero] at hinv
    set s := twoLargest (⟨-1, -1, -1, -1⟩ : TwoLargest K) 0 v
    obtain ⟨i, hi, hil, him, hmax⟩ := hinv.first (by rintro rfl; simp at hlen)
    obtain ⟨j, hj, hij, hjl, hjm⟩ := hinv.second hlen
    have hij' : i ≠ j := by
      rintro rfl
      exact hij hi
    have gi : pyGet v s.i1 = .ok v[i] := by
      unfold pyGet
      rw [hi, if_pos (by omega), Int.toNat_natCast, List.getElem?_eq_getElem hil]
    have gj : pyGet v s.i2 = .ok v[j] := by
      unfold pyGet
      rw [hj, if_pos (by omega), Int.toNat_natCast, List.getElem?_eq_getElem hjl]
    have s1 : pySet (List.replicate v.length (0 : K)) s.i2 v[i] = .ok ((List.replicate v.length (0 : K)).set j v[i]) := by
      unfold pySet
      rw [hj, if_pos (by omega), Int.toNat_natCast, if_pos (by simpa using hjl)]
    have s2 : pySet ((List.replicate v.length (0 : K)).set j v[i]) s.i1 (-v[j]) =
        .ok (((List.replicate v.length (0 : K)).set j v[i]).set i (-v[j])) := by
      unfold pySet
      rw [hi, if_pos (by omega), Int.toNat_natCast, if_pos (by simpa using hil)]
    simp only [gi, Py.bind_ok, s1, gj, s2]
    refine ⟨_, rfl, by simp, ?_, v[i], ?_, ?_⟩
    · rw [dotL_set _ _ _ (by simpa using hil) hil, dotL_set _ _ _ (by simpa using hjl) hjl, dotL_zero]
      rw [List.getElem_set_ne (Ne.symm hij')]
      simp
      ring
    · rw [List.mem_iff_getElem]
      exact ⟨j, by simpa using hjl, by rw [List.getElem_set_ne hij']; simp⟩
    · intro h0
      have := hmax x hx
      rw [him, h0, abs_zero] at this
      exact hx0 (abs_nonpos_iff.1 this)

omit [IsStrictOrderedRing K] in
/-- **C59** The zero vector is rejected. -/
theorem C59_orthogonal_vector_zero (n : Nat) : orthogonalVector (List.replicate n (0 : K)) = .error .assertion := by
  unfold orthogonalVector
  rw [if_pos]
  rw [List.all_eq_true]
  intro x hx
  simp [List.eq_of_mem_replicate hx]

/-- **C59** In dimension one, where no non-zero orthogonal vector exists, the function does not fail: it returns the negated vector. -/
theorem C59_orthogonal_vector_dim_one (a : K) (ha : a ≠ 0) : orthogonalVector [a] = .ok [-a] ∧ dotL [-a] [a] ≠ 0 := by
  have h : (-1 : K) < |a| := by linarith [abs_nonneg a]
  constructor
  · unfold orthogonalVector
    rw [if_neg (by simpa using ha), if_neg (by simp)]
    simp only [twoLargest, twoLargestStep]
    rw [if_pos h]
    simp [pyGet, pySet, Py.bind_ok]
  · simp [dotL, ha]

example : 2 ≤ ([0, 3, -1] : List ℚ).length ∧ ∃ x ∈ ([0, 3, -1] : List ℚ), x ≠ 0 := ⟨by simp, 3, by simp, by norm_num⟩

end Ortho

/-! ## C59: rotations taking one vector to another -/

theorem rotate_ok {axis : Fin 3 → ℝ} (h : axis ≠ 0) (θ : ℝ) (v : Fin 3 → ℝ) :
    rotate axis θ v = .ok (rod (divBy axis (norm axis)) (Real.cos θ) (Real.sin θ) *ᵥ v) := by
  unfold rotate
  rw [axisAngle_ok h]
  rfl

theorem IsUnit3.ne_zero {n : Nat} {k : Fin n → ℝ} (h : IsUnit3 k) : k ≠ 0 := by
  rintro rfl
  have : (0 : Fin n → ℝ) ⬝ᵥ 0 = 1 := h
  simp at this

theorem computeAngle3_eq (v w : Fin 3 → ℝ) : computeAngle v w = .ok (computeAngle3 v w) := by
  unfold computeAngle
  rw [dif_pos rfl, dif_pos rfl]
  rfl

/-- The main case of `compute_rotation`. -/
theorem rod_cross {v w : Fin 3 → ℝ} (hv : v ≠ 0) (hw : w ≠ 0) (hc : v ⨯₃ w ≠ 0) :
    rod (divBy (v ⨯₃ w) (norm (v ⨯₃ w))) (Real.cos (computeAngle3 v w)) (Real.sin (computeAngle3 v w)) *ᵥ v = (norm v / norm w) • w := by
  have pv := norm_pos' hv
  have pw := norm_pos' hw
  have pc := norm_pos' hc
  obtain ⟨h1, h2⟩ := angle3 v w
  rw [rod_mulVec, divBy_eq]
  have e1 : ((1 / norm (v ⨯₃ w)) • (v ⨯₃ w)) ⬝ᵥ v = 0 := by
    rw [smul_dotProduct, dotProduct_comm, dot_self_cross, smul_zero]
  have e2 : ((1 / norm (v ⨯₃ w)) • (v ⨯₃ w)) ⨯₃ v = (1 / norm (v ⨯₃ w)) • ((v ⬝ᵥ v) • w - (v ⬝ᵥ w) • v) := by
    rw [LinearMap.map_smul, LinearMap.smul_apply, cross_cross_eq_smul_sub_smul, dotProduct_comm w v]
  rw [e1, e2, zero_mul, zero_smul, add_zero]
  have hc' : Real.cos (computeAngle3 v w) = (v ⬝ᵥ w) / (norm v * norm w) := by
    rw [eq_div_iff (mul_pos pv pw).ne', ← h1]; ring
  have hs' : Real.sin (computeAngle3 v w) = norm (v ⨯₃ w) / (norm v * norm w) := by
    rw [eq_div_iff (mul_pos pv pw).ne', ← h2]; ring
  rw [hc', hs', ← norm_sq v]
  funext i
  simp only [Pi.add_apply, Pi.smul_apply, Pi.sub_apply, smul_eq_mul]
  field_simp
  ring

theorem parallel_of_cross {v w : Fin 3 → ℝ} (h : v ⨯₃ w = 0) : (v ⬝ᵥ v) • w = (v ⬝ᵥ w) • v := by
  have := cross_cross_eq_smul_sub_smul v w v
  rw [h, LinearMap.map_zero, LinearMap.zero_apply, dotProduct_comm w v] at this
  exact sub_eq_zero.1 this.symm

/-- **C59** `compute_rotation(v0, v1)` returns a unit axis and an angle in `[0, π]` so that `rotate(axis, angle, v0)` points in the direction of
`v1`, for all non-zero vectors including parallel and antiparallel ones. -/
theorem C59_compute_rotation (v w : Fin 3 → ℝ) (hv : v ≠ 0) (hw : w ≠ 0) :
    ∃ axis θ, computeRotation v w = .ok (axis, θ) ∧ IsUnit3 axis ∧ 0 ≤ θ ∧ θ ≤ Real.pi ∧
      rotate axis θ v = .ok ((√(v ⬝ᵥ v) / √(w ⬝ᵥ w)) • w) := by
  have pv := norm_pos' hv
  have pw := norm_pos' hw
  unfold computeRotation
  simp only
  by_cases hc : (v ⨯₃ w) ⬝ᵥ (v ⨯₃ w) = 0
  · rw [if_pos hc]
    have hc0 : v ⨯₃ w = 0 := dotProduct_self_eq_zero.1 hc
    have hpar := parallel_of_cross hc0
    have hlag := lagrange v w
    rw [hc, add_zero, ← norm_sq, ← norm_sq] at hlag
    have habs : v ⬝ᵥ w = norm v * norm w ∨ v ⬝ᵥ w = -(norm v * norm w) := by
      rw [← mul_self_eq_mul_self_iff, hlag]; ring
    by_cases hd : v ⬝ᵥ w > 0
    · rw [if_pos hd]
      have hu : IsUnit3 (![1, 0, 0] : Fin 3 → ℝ) := by
        show ![1, 0, 0] ⬝ᵥ ![1, 0, 0] = (1 : ℝ)
        simp
      refine ⟨_, _, rfl, hu, le_refl _, Real.pi_pos.le, ?_⟩
      rw [rotate_ok hu.ne_zero, rod_mulVec, Real.cos_zero, Real.sin_zero]
      have hd' : v ⬝ᵥ w = norm v * norm w := by
        rcases habs with h | h
        · exact h
        · rw [h] at hd
          nlinarith [mul_pos pv pw]
      have : v = (norm v / norm w) • w := by
        rw [hd', ← norm_sq] at hpar
        have h3 := congrArg (fun u => (1 / (norm v * norm w)) • u) hpar
        simp only [smul_smul] at h3
        rw [one_div_mul_cancel (mul_pos pv pw).ne', one_smul] at h3
        refine h3.symm.trans ?_
        congr 1
        field_simp
      rw [one_smul, zero_smul, add_zero, sub_self, mul_zero, zero_smul, add_zero]
      exact congrArg _ this
    · rw [if_neg hd]
      obtain ⟨u, hu, hlen, hdot, x, hx, hx0⟩ := C59_orthogonal_vector [v 0, v 1, v 2] (by simp) (by
        by_contra hcon
        push Not at hcon
        exact hv (by funext i; fin_cases i <;> exact hcon _ (by simp)))
      obtain ⟨a, b, c, rfl⟩ := List.length_eq_three.1 hlen
      rw [hu]
      set q : Fin 3 → ℝ := fun i => [a, b, c].getD i 0 with hq
      have hqe : q = ![a, b, c] := by
        funext i
        fin_cases i <;> rfl
      have hq0 : q ≠ 0 := by
        rw [hqe]
        intro h0
        have h1 := congrFun h0 0
        have h2 := congrFun h0 1
        have h3 := congrFun h0 2
        simp at h1 h2 h3
        simp [h1, h2, h3] at hx
        exact hx0 hx
      have hqv : q ⬝ᵥ v = 0 := by
        rw [hqe, dotProduct, Fin.sum_univ_three]
        simpa [dotL, add_assoc] using hdot
      have huq := unit_divBy hq0
      refine ⟨_, _, rfl, huq, Real.pi_pos.le, le_refl _, ?_⟩
      rw [rotate_ok huq.ne_zero, divBy_unit huq, rod_mulVec, Real.cos_pi, Real.sin_pi, divBy_eq, smul_dotProduct, hqv]
      have hd' : v ⬝ᵥ w = -(norm v * norm w) := by
        rcases habs with h | h
        · rw [h] at hd
          exact absurd (mul_pos pv pw) hd
        · exact h
      have : (-1 : ℝ) • v = (norm v / norm w) • w := by
        rw [hd', ← norm_sq] at hpar
        have h3 := congrArg (fun u => (1 / (norm v * norm w)) • u) hpar
        simp only [smul_smul] at h3
        rw [show 1 / (norm v * norm w) * -(norm v * norm w) = -1 from by field_simp] at h3
        rw [← h3]
        congr 1
        field_simp
      rw [this]
      simp
      rfl
  · rw [if_neg hc, computeAngle3_eq]
    have hc0 : v ⨯₃ w ≠ 0 := by
      intro h
      rw [h] at hc
      simp at hc
    have huc := unit_divBy hc0
    have h1 := arctan2_nonneg (y := norm (v ⨯₃ w)) (x := v ⬝ᵥ w) (norm_nonneg' _)
    refine ⟨_, _, rfl, huc, h1.1, h1.2, ?_⟩
    rw [rotate_ok huc.ne_zero, divBy_unit huc, rod_cross hv hw hc0]
    rfl

theorem rod_rotation {k : Fin 3 → ℝ} (hk : IsUnit3 k) (θ : ℝ) : IsRotation (rod k (Real.cos θ) (Real.sin θ)) :=
  rod_isRotation hk (Real.cos_sq_add_sin_sq θ)

theorem IsRotation.mul {n : Nat} {A B : Matrix (Fin n) (Fin n) ℝ} (hA : IsRotation A) (hB : IsRotation B) : IsRotation (A * B) := by
  have h1 : A * B * (A * B)ᵀ = 1 := by
    rw [transpose_mul, Matrix.mul_assoc, ← Matrix.mul_assoc B, hB.1, Matrix.one_mul, hA.1]
  exact ⟨h1, mul_eq_one_comm.1 h1, by rw [det_mul, hA.2.2, hB.2.2, one_mul]⟩

/-- **C59** `random_rotation_matrix_3` returns a rotation matrix whose third column is the random point of the unit sphere, for every outcome of
the generator. -/
theorem C59_random_3 (u : ℝ) (v : Fin 3 → ℝ) (hv : IsUnit3 v) :
    ∃ R, rotationMatrix3 u v = .ok R ∧ IsRotation R ∧ ∀ i, R i 2 = v i := by
  set q := rotationMatrix2 u with hq
  have hq2 := C54_random_2 u
  rw [← hq] at hq2
  set r : Matrix (Fin 3) (Fin 3) ℝ := !![q 0 0, q 0 1, 0; q 1 0, q 1 1, 0; 0, 0, 1] with hr
  have hcol : (fun i => r i 2) = ![0, 0, 1] := by
    funext i
    fin_cases i <;> simp [hr]
  have hu3 : IsUnit3 (![0, 0, 1] : Fin 3 → ℝ) := by
    show ![0, 0, 1] ⬝ᵥ ![0, 0, 1] = (1 : ℝ)
    simp [dotProduct, Fin.sum_univ_three]
  obtain ⟨axis, θ, hax, hua, h0, h1, hrot⟩ := C59_compute_rotation ![0, 0, 1] v hu3.ne_zero hv.ne_zero
  have hrr : IsRotation r := by
    have a00 := congrFun (congrFun hq2.1 0) 0
    have a01 := congrFun (congrFun hq2.1 0) 1
    have a11 := congrFun (congrFun hq2.1 1) 1
    have d := hq2.2.2
    rw [det_fin_two] at d
    simp [Matrix.mul_apply, Fin.sum_univ_two] at a00 a01 a11
    have h1 : r * rᵀ = 1 := by
      rw [hr]
      ext i j
      fin_cases i <;> fin_cases j <;> simp [Matrix.mul_apply, Fin.sum_univ_three]
      · exact a00
      · exact a01
      · rw [← a01]; ring
      · exact a11
    refine ⟨h1, mul_eq_one_comm.1 h1, ?_⟩
    rw [hr, det_fin_three]
    simp
    exact d
  refine ⟨rod axis (Real.cos θ) (Real.sin θ) * r, ?_, (rod_rotation hua θ).mul hrr, ?_⟩
  · unfold rotationMatrix3
    simp only
    rw [← hq, ← hr, hcol, hax]
    simp only [Py.bind_ok]
    unfold rotateMatrix
    rw [axisAngle_ok hua.ne_zero, divBy_unit hua]
    rfl
  · intro i
    rw [rotate_ok hua.ne_zero, divBy_unit hua] at hrot
    have h2 := Except.ok.inj hrot
    have e1 : √((![0, 0, 1] : Fin 3 → ℝ) ⬝ᵥ ![0, 0, 1]) / √(v ⬝ᵥ v) = 1 := by
      rw [show (![0, 0, 1] : Fin 3 → ℝ) ⬝ᵥ ![0, 0, 1] = 1 from hu3, show v ⬝ᵥ v = 1 from hv]
      simp
    rw [e1, one_smul, ← hcol] at h2
    exact congrFun h2 i

/-- **C59** `orthonormal_frame(v, i)`: a rotation matrix whose column `i` is the normalised `v` if the angle between `v` and the axis `e_i` is
not within `1e-10` of 0 or π; in these two cases column `i` is `e_i`, respectively `-e_i`. The caller's vector is normalised. -/
theorem C59_orthonormal_frame (v : Fin 3 → ℝ) (i : Fin 3) (hv : v ≠ 0) :
    ∃ R θ, orthonormalFrame v i = .ok (R, divBy v (norm v)) ∧ IsRotation R ∧ IsAngle (divBy v (norm v)) (Pi.single i 1) θ ∧
      (1 / 10 ^ 10 ≤ θ → 1 / 10 ^ 10 ≤ |θ - Real.pi| → ∀ j, R j i = v j / √(v ⬝ᵥ v)) ∧
      (θ < 1 / 10 ^ 10 → ∀ j, R j i = (Pi.single i 1 : Fin 3 → ℝ) j) ∧
      (1 / 10 ^ 10 ≤ θ → |θ - Real.pi| < 1 / 10 ^ 10 → ∀ j, R j i = -(Pi.single i 1 : Fin 3 → ℝ) j) := by
  have pv := norm_pos' hv
  have hu := unit_divBy hv
  have hei : (fun j => (1 : Matrix (Fin 3) (Fin 3) ℝ) j i) = Pi.single i 1 := by
    funext j
    by_cases h : j = i
    · subst h; simp
    · simp [h]
  have hue : IsUnit3 (Pi.single i 1 : Fin 3 → ℝ) := by
    show Pi.single i 1 ⬝ᵥ Pi.single i 1 = (1 : ℝ)
    simp
  set w := divBy v (norm v) with hw
  obtain ⟨θ, hθ, hang⟩ := C59_compute_angle w (Pi.single i 1) hu.ne_zero hue.ne_zero (fun h => absurd rfl h)
  have hone : IsRotation (1 : Matrix (Fin 3) (Fin 3) ℝ) := ⟨by simp, by simp, by simp⟩
  unfold orthonormalFrame
  simp only
  rw [if_neg pv.ne', hei, ← hw]
  simp only [Py.pure_eq, Py.bind_ok, hθ]
  by_cases h1 : θ < 1 / 10 ^ 10
  · rw [if_pos h1]
    exact ⟨1, θ, rfl, hone, hang, fun h => absurd h1 (not_lt.2 h), fun _ j => congrFun hei j, fun h => absurd h1 (not_lt.2 h)⟩
  · rw [if_neg h1]
    by_cases h2 : |θ - Real.pi| < 1 / 10 ^ 10
    · rw [if_pos h2]
      refine ⟨_, θ, rfl, ?_, hang, fun _ h => absurd h2 (not_lt.2 h), fun h => absurd h h1, fun _ _ j => ?_⟩
      · have hm : ∀ M : Matrix (Fin 3) (Fin 3) ℝ, M * Mᵀ = 1 → M.det = 1 → IsRotation M := fun M a b => ⟨a, mul_eq_one_comm.1 a, b⟩
        apply hm
        · ext a b
          fin_cases i <;> fin_cases a <;> fin_cases b <;> simp [Matrix.mul_apply, Fin.sum_univ_three]
        · rw [det_fin_three]
          fin_cases i <;> simp
      · simp only [of_apply]
        rw [if_neg (by fin_cases i <;> decide)]
        rw [← congrFun hei j]
        ring
    · rw [if_neg h2]
      have hac : ∀ x y : Fin 3 → ℝ, computeAngle3 x y = computeAngle3 y x := by
        intro x y
        unfold computeAngle3
        have : norm (x ⨯₃ y) = norm (y ⨯₃ x) := by
          unfold norm
          rw [← cross_anticomm y x, neg_dotProduct, dotProduct_neg, neg_neg]
        rw [this, dotProduct_comm]
      have hθ3 : θ = computeAngle3 (Pi.single i 1) w := by
        rw [computeAngle3_eq] at hθ
        rw [hac]
        exact (Except.ok.inj hθ).symm
      have hc : (Pi.single i 1 : Fin 3 → ℝ) ⨯₃ w ≠ 0 := by
        intro h0
        have hs := (angle3 (Pi.single i 1) w).2
        rw [h0, norm_unit hu, norm_unit hue, ← hθ3] at hs
        have hs0 : Real.sin θ = 0 := by
          have hz : norm (0 : Fin 3 → ℝ) = 0 := by simp [norm]
          rw [hz] at hs
          linarith
        rcases hang.1.eq_or_lt with h | h
        · rw [← h] at h1
          exact h1 (by positivity)
        · rcases hang.2.1.eq_or_lt with h' | h'
          · rw [h'] at h2
            simp at h2
          · exact (Real.sin_pos_of_pos_of_lt_pi h h').ne' hs0
      have huc := unit_divBy hc
      rw [axisAngle_ok huc.ne_zero, divBy_unit huc]
      refine ⟨_, θ, rfl, rod_rotation huc θ, hang, fun _ _ j => ?_, fun h => absurd h h1, fun _ h => absurd h h2⟩
      have h3 := rod_cross hue.ne_zero hu.ne_zero hc
      rw [← hθ3, norm_unit hu, norm_unit hue, div_one, one_smul] at h3
      have h4 := congrFun h3 j
      rw [mulVec_single_one] at h4
      rw [show v j / √(v ⬝ᵥ v) = w j from rfl, ← h4]
      rfl

/-! ## C59: axis and angle of a rotation matrix -/

/-- The equations satisfied by the entries of a rotation matrix: every entry is its cofactor. -/
theorem cofactors {R : Matrix (Fin 3) (Fin 3) ℝ} (h : IsRotation R) : R.adjugate = Rᵀ := by
  have h1 := mul_adjugate R
  rw [h.2.2, one_smul] at h1
  calc R.adjugate = (Rᵀ * R) * R.adjugate := by rw [h.2.1, Matrix.one_mul]
    _ = Rᵀ := by rw [Matrix.mul_assoc, h1, Matrix.mul_one]

theorem rotation_axis {R : Matrix (Fin 3) (Fin 3) ℝ} (h : IsRotation R) (t : ℝ) (ht : t = R 0 0 + R 1 1 + R 2 2) (a : Fin 3 → ℝ)
    (ha : a = ![R 2 1 - R 1 2, R 0 2 - R 2 0, R 1 0 - R 0 1]) :
    a ⬝ᵥ a = (3 - t) * (1 + t) ∧ ∀ i j, (1 + t) * (R i j + R j i - (t - 1) * (1 : Matrix (Fin 3) (Fin 3) ℝ) i j) = a i * a j := by
  have hadj := cofactors h
  rw [adjugate_fin_three] at hadj
  have c : ∀ i j : Fin 3, _ := fun i j => congrFun (congrFun hadj i) j
  have c00 := c 0 0
  have c01 := c 0 1
  have c02 := c 0 2
  have c10 := c 1 0
  have c11 := c 1 1
  have c12 := c 1 2
  have c20 := c 2 0
  have c21 := c 2 1
  have c22 := c 2 2
  have r : ∀ i j : Fin 3, _ := fun i j => congrFun (congrFun h.1 i) j
  have q : ∀ i j : Fin 3, _ := fun i j => congrFun (congrFun h.2.1 i) j
  have r00 := r 0 0
  have r01 := r 0 1
  have r02 := r 0 2
  have r11 := r 1 1
  have r12 := r 1 2
  have r22 := r 2 2
  have q00 := q 0 0
  have q01 := q 0 1
  have q02 := q 0 2
  have q11 := q 1 1
  have q12 := q 1 2
  have q22 := q 2 2
  clear c r q
  simp [Matrix.mul_apply, Fin.sum_univ_three] at c00 c01 c02 c10 c11 c12 c20 c21 c22 r00 r01 r02 r11 r12 r22 q00 q01 q02 q11 q12 q22
  subst ht ha
  have key : ∀ i j : Fin 3, (1 + (R 0 0 + R 1 1 + R 2 2)) * (R i j + R j i - ((R 0 0 + R 1 1 + R 2 2) - 1) * (1 : Matrix (Fin 3) (Fin 3) ℝ) i j) =
      (![R 2 1 - R 1 2, R 0 2 - R 2 0, R 1 0 - R 0 1] : Fin 3 → ℝ) i * (![R 2 1 - R 1 2, R 0 2 - R 2 0, R 1 0 - R 0 1] : Fin 3 → ℝ) j := by
    intro i j
    fin_cases i <;> fin_cases j <;> simp
    · linear_combination q00 - r11 - r22 - 2 * c00
    · linear_combination r01 + q01 - c10 - c01
    · linear_combination r02 + q02 - c20 - c02
    · linear_combination r01 + q01 - c10 - c01
    · linear_combination q11 - r00 - r22 - 2 * c11
    · linear_combination r12 + q12 - c21 - c12
    · linear_combination r02 + q02 - c20 - c02
    · linear_combination r12 + q12 - c21 - c12
    · linear_combination q22 - r00 - r11 - 2 * c22
  refine ⟨?_, key⟩
  have k0 := key 0 0
  have k1 := key 1 1
  have k2 := key 2 2
  rw [dotProduct, Fin.sum_univ_three, ← k0, ← k1, ← k2]
  simp
  ring

theorem norm_smul' {n : Nat} (s : ℝ) (v : Fin n → ℝ) : norm (s • v) = |s| * norm v := by
  unfold norm
  rw [smul_dotProduct, dotProduct_smul, smul_eq_mul, smul_eq_mul, ← mul_assoc, Real.sqrt_mul (mul_self_nonneg s), Real.sqrt_mul_self_eq_abs]

theorem trace_bounds {R : Matrix (Fin 3) (Fin 3) ℝ} (h : IsRotation R) : -1 ≤ R 0 0 + R 1 1 + R 2 2 ∧ R 0 0 + R 1 1 + R 2 2 ≤ 3 := by
  have h1 := (rotation_axis h _ rfl _ rfl).1
  have h2 := dot_self_nonneg (![R 2 1 - R 1 2, R 0 2 - R 2 0, R 1 0 - R 0 1] : Fin 3 → ℝ)
  rw [h1] at h2
  constructor <;> nlinarith

theorem diag_le {R : Matrix (Fin 3) (Fin 3) ℝ} (h : IsRotation R) (i : Fin 3) : -1 ≤ R i i ∧ R i i ≤ 1 := by
  have h1 := congrFun (congrFun h.1 i) i
  rw [Matrix.mul_apply, Matrix.one_apply_eq] at h1
  have h2 : R i i * R i i ≤ 1 := by
    rw [← h1]
    exact Finset.single_le_sum (f := fun j => R i j * Rᵀ j i) (fun j _ => mul_self_nonneg _) (Finset.mem_univ i)
  constructor <;> nlinarith

theorem argmax3_max (d : Fin 3 → ℝ) (i : Fin 3) : d i ≤ d (argmax3 d) := by
  unfold argmax3
  split
  · rename_i h
    fin_cases i
    · exact le_refl _
    · exact h.1
    · exact h.2
  · rename_i h
    rw [not_and_or, not_le, not_le] at h
    split
    · rename_i h2
      fin_cases i
      · rcases h with h | h
        · exact h.le
        · exact h.le.trans h2
      · exact le_refl _
      · exact h2
    · rename_i h2
      rw [not_le] at h2
      fin_cases i
      · rcases h with h | h
        · exact h.le.trans h2.le
        · exact h.le
      · exact h2.le
      · exact le_refl _

/-- **C59** `axis_angle_to_rotation_matrix` undoes `rotation_matrix_to_axis_angle` for every rotation matrix whose trace is not within the
tolerances of the two corner cases (`1e-14` around 3, `1e-10` around -1), and for the exact corner cases (the identity, half turns): the axis
is a unit vector, the angle lies in `[0, π]`. The caller's matrix is unchanged, except for half turns. -/
theorem C59_rotation_matrix_to_axis_angle (R : Matrix (Fin 3) (Fin 3) ℝ) (h : IsRotation R)
    (ht : R.trace = 3 ∨ R.trace = -1 ∨ (1 / 10 ^ 14 ≤ |R.trace - 3| ∧ 1 / 10 ^ 10 ≤ |R.trace + 1|)) :
    ∃ k θ R', rotationMatrixToAxisAngle R = (k, θ, R') ∧ IsUnit3 k ∧ 0 ≤ θ ∧ θ ≤ Real.pi ∧ axisAngleToRotationMatrix k θ = .ok (R, k) ∧
      (R.trace ≠ -1 → R' = R) := by
  have htr : R.trace = R 0 0 + R 1 1 + R 2 2 := by rw [trace_fin_three]
  rw [htr] at ht
  obtain ⟨hlo, hhi⟩ := trace_bounds h
  obtain ⟨hax, hsym⟩ := rotation_axis h _ rfl _ rfl
  generalize hadef : (![R 2 1 - R 1 2, R 0 2 - R 2 0, R 1 0 - R 0 1] : Fin 3 → ℝ) = a at hax hsym
  generalize htdef : R 0 0 + R 1 1 + R 2 2 = t at *
  have hRa : ∀ i j, R i j - R j i = hat a i j := by
    intro i j
    rw [← hadef]
    fin_cases i <;> fin_cases j <;> simp [hat]
  unfold rotationMatrixToAxisAngle
  simp only [hadef, htdef]
  rcases ht with rfl | rfl | ⟨h3, h1⟩
  · -- identity
    have hd : ∀ i, R i i = 1 := by
      intro i
      have d0 := diag_le h 0
      have d1 := diag_le h 1
      have d2 := diag_le h 2
      fin_cases i
      · show R 0 0 = 1; linarith [d0.2, d1.2, d2.2]
      · show R 1 1 = 1; linarith [d0.2, d1.2, d2.2]
      · show R 2 2 = 1; linarith [d0.2, d1.2, d2.2]
    have ha0 : a = 0 := dotProduct_self_eq_zero.1 (by rw [hax]; norm_num)
    have hR1 : R = 1 := by
      ext i j
      have e1 := hsym i j
      have e2 := hRa i j
      rw [ha0] at e1 e2
      have e3 : hat (0 : Fin 3 → ℝ) i j = 0 := by fin_cases i <;> fin_cases j <;> simp [hat]
      rw [e3] at e2
      simp only [Pi.zero_apply, mul_zero] at e1
      linarith
    have hn0 : norm a = 0 := by rw [ha0]; simp [norm]
    rw [if_pos (by norm_num), hn0, if_neg (lt_irrefl _)]
    have hu : IsUnit3 (![1, 0, 0] : Fin 3 → ℝ) := by
      show ![1, 0, 0] ⬝ᵥ ![1, 0, 0] = (1 : ℝ)
      simp
    refine ⟨_, _, _, rfl, hu, le_refl _, Real.pi_pos.le, ?_, fun _ => rfl⟩
    rw [axisAngle_ok hu.ne_zero, divBy_unit hu, Real.cos_zero, Real.sin_zero, hR1]
    congr 2
    simp [rod]
  · -- half turn
    have ha0 : a = 0 := dotProduct_self_eq_zero.1 (by rw [hax]; norm_num)
    have hn0 : norm a = 0 := by rw [ha0]; simp [norm]
    rw [if_neg (by norm_num), if_pos (by norm_num), hn0, if_pos (by norm_num)]
    generalize hi : argmax3 (fun i => R i i) = i
    have hmax : ∀ j, R j j ≤ R i i := fun j => hi ▸ argmax3_max (fun i => R i i) j
    have hpos : 0 < 1 + R i i := by linarith [hmax 0, hmax 1, hmax 2]
    have hs : ∀ i j, R i j = R j i := by
      intro i j
      have e2 := hRa i j
      have e3 : hat (0 : Fin 3 → ℝ) i j = 0 := by fin_cases i <;> fin_cases j <;> simp [hat]
      rw [ha0, e3] at e2
      linarith
    set w : Fin 3 → ℝ := fun j => if j = i then R j i + 1 else R j i with hw
    have hprod : ∀ i j l : Fin 3, (R j i + (1 : Matrix (Fin 3) (Fin 3) ℝ) j i) * (R l i + (1 : Matrix (Fin 3) (Fin 3) ℝ) l i) =
        (1 + R i i) * (R j l + (1 : Matrix (Fin 3) (Fin 3) ℝ) j l) := by
      have hadj := cofactors h
      rw [adjugate_fin_three] at hadj
      have c : ∀ i j : Fin 3, _ := fun i j => congrFun (congrFun hadj i) j
      have c00 := c 0 0
      have c01 := c 0 1
      have c02 := c 0 2
      have c11 := c 1 1
      have c12 := c 1 2
      have c22 := c 2 2
      have s10 := hs 1 0
      have s20 := hs 2 0
      have s21 := hs 2 1
      clear c
      simp [s10, s20, s21] at c00 c01 c02 c11 c12 c22
      intro i j l
      fin_cases i <;> fin_cases j <;> fin_cases l <;> simp [-mul_eq_mul_left_iff, -mul_eq_mul_right_iff, s10, s20, s21]
      all_goals first
        | ring1
        | linear_combination -c00 - htdef
        | linear_combination -c11 - htdef
        | linear_combination -c22 - htdef
        | linear_combination c01
        | linear_combination c02
        | linear_combination c12
    have hw' : ∀ j, w j = R j i + (1 : Matrix (Fin 3) (Fin 3) ℝ) j i := by
      intro j
      rw [hw]
      by_cases hj : j = i
      · subst hj; simp
      · simp [hj]
    have hww : w ⬝ᵥ w = 2 * (1 + R i i) := by
      have : w ⬝ᵥ w = ∑ j, (1 + R i i) * (R j j + (1 : Matrix (Fin 3) (Fin 3) ℝ) j j) := by
        unfold dotProduct
        exact Finset.sum_congr rfl (fun j _ => by rw [hw', hprod])
      rw [this, Fin.sum_univ_three]
      simp
      linear_combination (1 + R i i) * htdef
    have hw0 : w ≠ 0 := by
      intro h0
      rw [h0] at hww
      simp at hww
      linarith
    have hu := unit_divBy hw0
    refine ⟨_, _, _, rfl, hu, Real.pi_pos.le, le_refl _, ?_, fun hne => absurd htr hne⟩
    rw [axisAngle_ok hu.ne_zero, divBy_unit hu, Real.cos_pi, Real.sin_pi]
    congr 2
    ext j l
    have hnw := norm_pos' hw0
    have e1 : divBy w (norm w) j * divBy w (norm w) l = (R j l + (1 : Matrix (Fin 3) (Fin 3) ℝ) j l) / 2 := by
      unfold divBy
      rw [div_mul_div_comm, norm_sq, hww, hw', hw', hprod]
      field_simp
    have e2 : rod (divBy w (norm w)) (-1) 0 j l = -(1 : Matrix (Fin 3) (Fin 3) ℝ) j l + 2 * (divBy w (norm w) j * divBy w (norm w) l) := by
      simp [rod, vecMulVec_apply]
      left
      norm_num
    rw [e2, e1]
    ring
  · -- general case
    have hlt : t < 3 := lt_of_le_of_ne hhi (by rintro rfl; norm_num at h3)
    have hgt : -1 < t := lt_of_le_of_ne hlo (by rintro rfl; norm_num at h1)
    rw [if_neg (not_lt.2 h3), if_neg (not_lt.2 h1)]
    have hpos : 0 < (3 - t) * (1 + t) := mul_pos (by linarith) (by linarith)
    have ha0 : a ≠ 0 := by
      rintro rfl
      rw [← hax] at hpos
      simp at hpos
    have hn := norm_pos' ha0
    have hu := unit_divBy ha0
    have hcl : Angle.constrainToRange ((t - 1) / 2) (-1) 1 = (t - 1) / 2 := by
      unfold Angle.constrainToRange
      rw [min_eq_left (by linarith), max_eq_left (by linarith)]
    rw [hcl]
    refine ⟨_, _, _, rfl, hu, Real.arccos_nonneg _, Real.arccos_le_pi _, ?_, fun _ => rfl⟩
    rw [axisAngle_ok hu.ne_zero, divBy_unit hu, Real.cos_arccos (by linarith) (by linarith), Real.sin_arccos]
    have hsin : √(1 - ((t - 1) / 2) ^ 2) = norm a / 2 := by
      rw [show 1 - ((t - 1) / 2) ^ 2 = (norm a / 2) * (norm a / 2) from by
        have := norm_sq a
        rw [hax] at this
        linear_combination -this / 4, Real.sqrt_mul_self (by linarith)]
    rw [hsin]
    congr 2
    ext i j
    have e1 : rod (divBy a (norm a)) ((t - 1) / 2) (norm a / 2) i j =
        (t - 1) / 2 * (1 : Matrix (Fin 3) (Fin 3) ℝ) i j + 1 / 2 * hat a i j + (3 - t) / 2 * (a i * a j) / ((3 - t) * (1 + t)) := by
      have e3 : norm a / 2 * hat (divBy a (norm a)) i j = 1 / 2 * hat a i j := by
        fin_cases i <;> fin_cases j <;> simp [hat, divBy] <;> field_simp
      have e4 : divBy a (norm a) i * divBy a (norm a) j = (a i * a j) / ((3 - t) * (1 + t)) := by
        unfold divBy
        rw [div_mul_div_comm, norm_sq, hax]
      simp only [rod, Matrix.add_apply, Matrix.smul_apply, smul_eq_mul, vecMulVec_apply]
      rw [e3, e4]
      ring
    rw [e1, ← hsym, ← hRa]
    have x1 : (3 - t) ≠ 0 := by linarith
    have x2 : (1 + t) ≠ 0 := by linarith
    field_simp
    ring

/-- **C59** Rigid motions preserve distances, the origin is moved by the translation and differences are rotated. -/
theorem C59_move {n : Nat} (R : Matrix (Fin n) (Fin n) ℝ) (h : IsRotation R) (t v w : Fin n → ℝ) :
    (move R t v - move R t w) ⬝ᵥ (move R t v - move R t w) = (v - w) ⬝ᵥ (v - w) ∧ move R t 0 = t ∧ move R t v - move R t w = R *ᵥ (v - w) := by
  have : move R t v - move R t w = R *ᵥ (v - w) := by
    unfold move
    rw [mulVec_sub]
    abel
  refine ⟨?_, by simp [move], this⟩
  rw [this, dotProduct_mulVec, vecMul_mulVec, h.2.1, vecMul_one]

/-- **C59** `is_parallel` holds for all vectors on a common line, in either direction; and it depends only on the angle: it holds iff the cosine
of the angle is within the tolerance of 1 or -1. -/
theorem C59_is_parallel {n : Nat} (v w : Fin n → ℝ) :
    (∀ t : ℝ, isParallel v (t • v)) ∧
    (1 / 10 ^ 12 ≤ √(v ⬝ᵥ v) → 1 / 10 ^ 12 ≤ √(w ⬝ᵥ w) → ∀ θ, IsAngle v w θ →
      (isParallel v w ↔ |Real.cos θ - 1| < 1 / 10 ^ 12 ∨ |Real.cos θ + 1| < 1 / 10 ^ 12)) := by
  refine ⟨fun t => ?_, fun hv hw θ hθ => ?_⟩
  · unfold isParallel
    simp only
    split
    · trivial
    · rename_i h
      rw [not_or, not_lt, not_lt] at h
      have hv : 0 < norm v := lt_of_lt_of_le (by norm_num) h.1
      have hn : norm (t • v) = |t| * norm v := by
        unfold norm
        rw [smul_dotProduct, dotProduct_smul, smul_eq_mul, smul_eq_mul, ← mul_assoc, Real.sqrt_mul (mul_self_nonneg t), Real.sqrt_mul_self_eq_abs]
      have ht : t ≠ 0 := by
        rintro rfl
        rw [hn] at h
        have := h.2
        norm_num at this
      have e : v ⬝ᵥ t • v / (norm v * norm (t • v)) = t / |t| := by
        have ha : |t| ≠ 0 := abs_ne_zero.2 ht
        rw [hn, dotProduct_smul, smul_eq_mul, ← norm_sq]
        field_simp
      rw [e]
      rcases lt_or_gt_of_ne ht with h1 | h1
      · right
        rw [abs_of_neg h1, div_neg, div_self ht]
        norm_num
      · left
        rw [abs_of_pos h1, div_self ht]
        norm_num
  · have pv : 0 < √(v ⬝ᵥ v) := lt_of_lt_of_le (by norm_num) hv
    have pw : 0 < √(w ⬝ᵥ w) := lt_of_lt_of_le (by norm_num) hw
    unfold isParallel norm
    simp only
    rw [if_neg (by rw [not_or, not_lt, not_lt]; exact ⟨hv, hw⟩), hθ.2.2, mul_div_cancel_left₀ _ (mul_pos pv pw).ne']

example : IsRotation (!![0, -1, 0; 1, 0, 0; 0, 0, 1] : Matrix (Fin 3) (Fin 3) ℝ) ∧
    1 / 10 ^ 14 ≤ |(!![0, -1, 0; 1, 0, 0; 0, 0, 1] : Matrix (Fin 3) (Fin 3) ℝ).trace - 3| ∧
    1 / 10 ^ 10 ≤ |(!![0, -1, 0; 1, 0, 0; 0, 0, 1] : Matrix (Fin 3) (Fin 3) ℝ).trace + 1| := by
  refine ⟨⟨?_, ?_, by rw [det_fin_three]; simp⟩, ?_, ?_⟩
  · ext i j
    fin_cases i <;> fin_cases j <;> simp [Matrix.mul_apply, Fin.sum_univ_three]
  · ext i j
    fin_cases i <;> fin_cases j <;> simp [Matrix.mul_apply, Fin.sum_univ_three]
  · rw [trace_fin_three]
    simp
    norm_num
  · rw [trace_fin_three]
    simp
    norm_num

end Verif.Linalg
