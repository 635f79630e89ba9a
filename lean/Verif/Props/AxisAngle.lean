import Verif.Props.Rotation
import Mathlib.Analysis.SpecialFunctions.Trigonometric.Bounds
/-!
# C59: axis and angle of all rotation matrices, within the tolerance windows of the code
-/

namespace Verif.Linalg
open Verif Matrix

/-- A rotation that is neither the identity nor a half turn, by its axis and the sine and cosine of its angle. -/
theorem rod_of_rotation {R : Matrix (Fin 3) (Fin 3) ℝ} (h : IsRotation R) {t : ℝ} (ht : t = R 0 0 + R 1 1 + R 2 2) {a : Fin 3 → ℝ}
    (ha : a = ![R 2 1 - R 1 2, R 0 2 - R 2 0, R 1 0 - R 0 1]) (hgt : -1 < t) (hlt : t < 3) :
    a ≠ 0 ∧ norm a * norm a = (3 - t) * (1 + t) ∧ R = rod (divBy a (norm a)) ((t - 1) / 2) (norm a / 2) := by
  obtain ⟨hax, hsym⟩ := rotation_axis h _ ht _ ha
  have hRa : ∀ i j, R i j - R j i = hat a i j := by
    intro i j
    rw [ha]
    fin_cases i <;> fin_cases j <;> simp [hat]
  have hpos : 0 < (3 - t) * (1 + t) := mul_pos (by linarith) (by linarith)
  have ha0 : a ≠ 0 := by
    rintro h0
    rw [← hax, h0] at hpos
    simp at hpos
  have hn := norm_pos' ha0
  refine ⟨ha0, by rw [norm_sq, hax], ?_⟩
  ext i j
  have e1 : rod (divBy a (norm a)) ((t - 1) / 2) (norm a / 2) i j =
      (t - 1) / 2 * (1 : Matrix (Fin 3) (Fin 3) ℝ) i j + 1 / 2 * hat a i j + (3 - t) / 2 * (a i * a j) / ((3 - t) * (1 + t)) := by
    have e3 : norm a / 2 * hat (divBy a (norm a)) i j = 1 / 2 * hat a i j := by
      fin_cases i <;> fin_cases j <;> simp [hat, divBy] <;> field_simp
    have e4 : divBy a (norm a) i * divBy a (norm a) j = (a i * a j) / ((3 - t) * (1 + t)) := by
      unfold divBy
      rw [div_mul_div_comm, norm_sq, hax]
    simp only [rod, Matrix.add_apply, Matrix.smul_apply, smul_eq_mul, vecMulVec_apply]
    rw [e3, e4]
    ring
  rw [e1, ← hsym, ← hRa]
  have x1 : (3 - t) ≠ 0 := by linarith
  have x2 : (1 + t) ≠ 0 := by linarith
  field_simp
  ring

theorem unit_le {k : Fin 3 → ℝ} (h : IsUnit3 k) (i : Fin 3) : |k i| ≤ 1 := by
  have hu := unit_eq h
  rw [abs_le_one_iff_mul_self_le_one]
  fin_cases i
  · show k 0 * k 0 ≤ 1; nlinarith [mul_self_nonneg (k 1), mul_self_nonneg (k 2)]
  · show k 1 * k 1 ≤ 1; nlinarith [mul_self_nonneg (k 0), mul_self_nonneg (k 2)]
  · show k 2 * k 2 ≤ 1; nlinarith [mul_self_nonneg (k 1), mul_self_nonneg (k 0)]

theorem hat_le {k : Fin 3 → ℝ} (h : IsUnit3 k) (i j : Fin 3) : |hat k i j| ≤ 1 := by
  have h0 := unit_le h 0
  have h1 := unit_le h 1
  have h2 := unit_le h 2
  fin_cases i <;> fin_cases j <;> simp [hat, h0, h1, h2]

theorem one_entry_le (i j : Fin 3) : |(1 : Matrix (Fin 3) (Fin 3) ℝ) i j| ≤ 1 := by
  rw [Matrix.one_apply]
  split <;> simp

theorem rod_apply (k : Fin 3 → ℝ) (c s : ℝ) (i j : Fin 3) :
    rod k c s i j = c * (1 : Matrix (Fin 3) (Fin 3) ℝ) i j + s * hat k i j + (1 - c) * (k i * k j) := by
  simp only [rod, Matrix.add_apply, Matrix.smul_apply, smul_eq_mul, vecMulVec_apply]

/-- Rotations with nearby axes and angles, and small sines, are near each other. -/
theorem rod_close {k k' : Fin 3 → ℝ} (hk : IsUnit3 k) (hk' : IsUnit3 k') {c c' s s' δ η σ : ℝ} (hδ : ∀ i, |k' i - k i| ≤ δ) (hη : |c' - c| ≤ η)
    (hs : |s| ≤ σ) (hs' : |s'| ≤ σ) (hc : |1 - c| ≤ 2) (i j : Fin 3) : |rod k' c' s' i j - rod k c s i j| ≤ 2 * η + 2 * σ + 4 * δ := by
  rw [rod_apply, rod_apply]
  have e : c' * (1 : Matrix (Fin 3) (Fin 3) ℝ) i j + s' * hat k' i j + (1 - c') * (k' i * k' j) -
      (c * (1 : Matrix (Fin 3) (Fin 3) ℝ) i j + s * hat k i j + (1 - c) * (k i * k j)) =
      (c' - c) * (1 : Matrix (Fin 3) (Fin 3) ℝ) i j + s' * hat k' i j - s * hat k i j - (c' - c) * (k' i * k' j) +
        (1 - c) * ((k' i - k i) * k' j + k i * (k' j - k j)) := by ring
  rw [e]
  have m : ∀ {x y a b : ℝ}, |x| ≤ a → |y| ≤ b → |x * y| ≤ a * b := fun {x y a b} hx hy => by
    rw [abs_mul]
    exact mul_le_mul hx hy (abs_nonneg _) ((abs_nonneg _).trans hx)
  have b1 := m hη (one_entry_le i j)
  have b2 := m hs' (hat_le hk' i j)
  have b3 := m hs (hat_le hk i j)
  have b4 := m hη (m (unit_le hk' i) (unit_le hk' j))
  have b5 := m (hδ i) (unit_le hk' j)
  have b6 := m (unit_le hk i) (hδ j)
  have b7 := m hc ((abs_add_le _ _).trans (add_le_add b5 b6))
  rw [abs_le] at *
  constructor <;> linarith [b1.1, b1.2, b2.1, b2.2, b3.1, b3.2, b4.1, b4.2, b7.1, b7.2]

/-- The value of a small angle: sine and cosine. -/
theorem small_angle {s : ℝ} (h0 : 0 ≤ s) (h1 : s ≤ 1) : |Real.sin s| ≤ s ∧ 1 - s * s / 2 ≤ Real.cos s ∧ Real.cos s ≤ 1 := by
  refine ⟨?_, ?_, Real.cos_le_one s⟩
  · rw [abs_of_nonneg (Real.sin_nonneg_of_nonneg_of_le_pi h0 (h1.trans (by linarith [Real.two_le_pi])))]
    exact Real.sin_le h0
  · have := Real.one_sub_sq_div_two_le_cos (x := s)
    nlinarith

/-- Within the window of the first corner case (almost the identity) the axis is exact and the angle is replaced by its sine. -/
theorem window_identity {R : Matrix (Fin 3) (Fin 3) ℝ} (h : IsRotation R) (hlt : R.trace < 3) (hw : |R.trace - 3| < 1 / 10 ^ 14) :
    ∃ k θ, rotationMatrixToAxisAngle R = (k, θ, R) ∧ IsUnit3 k ∧ 0 ≤ θ ∧ θ ≤ Real.pi ∧
      ∃ R', axisAngleToRotationMatrix k θ = .ok (R', k) ∧ ∀ i j, |R' i j - R i j| ≤ 1 / 10 ^ 6 := by
  rw [trace_fin_three] at hlt hw
  rw [abs_lt] at hw
  obtain ⟨ha0, hn2, hR⟩ := rod_of_rotation h rfl rfl (by linarith [hw.1]) hlt
  unfold rotationMatrixToAxisAngle
  generalize hadef : (![R 2 1 - R 1 2, R 0 2 - R 2 0, R 1 0 - R 0 1] : Fin 3 → ℝ) = a at *
  generalize htdef : R 0 0 + R 1 1 + R 2 2 = t at *
  have hn := norm_pos' ha0
  have hu := unit_divBy ha0
  simp only [hadef, htdef]
  rw [if_pos (abs_lt.2 hw), if_pos hn]
  have hs2 : norm a / 2 * (norm a / 2) ≤ 1 / 10 ^ 14 := by
    rw [show norm a / 2 * (norm a / 2) = norm a * norm a / 4 by ring, hn2]
    nlinarith [hw.1]
  have hs : norm a / 2 ≤ 1 / 10 ^ 7 := by
    by_contra hc
    rw [not_le] at hc
    nlinarith
  refine ⟨_, _, rfl, hu, by linarith, by linarith [Real.two_le_pi], _, by rw [axisAngle_ok hu.ne_zero, divBy_unit hu], fun i j => ?_⟩
  obtain ⟨b1, b2, b3⟩ := small_angle (s := norm a / 2) (by linarith) (by linarith)
  rw [show 1 / 2 * norm a = norm a / 2 by ring]
  conv_lhs => rw [hR]
  refine (rod_close hu hu (δ := 0) (η := 1 / 10 ^ 13) (σ := 1 / 10 ^ 7) (by simp) ?_ ?_ (b1.trans hs) ?_ i j).trans (by norm_num)
  · rw [abs_le]
    constructor <;> nlinarith [hw.1]
  · rw [abs_of_pos (by linarith)]; exact hs
  · rw [abs_le]
    constructor <;> linarith [hw.1]

/-- The roots of the diagonal in the second corner case. -/
theorem root_close {k ε : ℝ} (hk : |k| ≤ 1) (hε : 0 ≤ ε) : |sgn k * √(k * k + ε * (1 - k * k)) - k| ≤ √ε ∧
    k * k ≤ (sgn k * √(k * k + ε * (1 - k * k))) * (sgn k * √(k * k + ε * (1 - k * k))) ∧
    (sgn k * √(k * k + ε * (1 - k * k))) * (sgn k * √(k * k + ε * (1 - k * k))) ≤ k * k + ε := by
  have hkk : k * k ≤ 1 := by rwa [← abs_le_one_iff_mul_self_le_one]
  have hin : 0 ≤ k * k + ε * (1 - k * k) := add_nonneg (mul_self_nonneg k) (mul_nonneg hε (by linarith))
  have hsq := Real.mul_self_sqrt hin
  have hge : |k| ≤ √(k * k + ε * (1 - k * k)) := by
    rw [← Real.sqrt_mul_self_eq_abs]
    exact Real.sqrt_le_sqrt (by nlinarith)
  have hle : √(k * k + ε * (1 - k * k)) ≤ |k| + √ε := by
    rw [← Real.sqrt_mul_self_eq_abs]
    refine (Real.sqrt_le_sqrt (show k * k + ε * (1 - k * k) ≤ k * k + ε by nlinarith)).trans ?_
    refine Real.sqrt_le_iff.2 ⟨by positivity, ?_⟩
    have e1 := Real.mul_self_sqrt (mul_self_nonneg k)
    have e2 := Real.mul_self_sqrt hε
    nlinarith [Real.sqrt_nonneg (k * k), Real.sqrt_nonneg ε, mul_nonneg (Real.sqrt_nonneg (k * k)) (Real.sqrt_nonneg ε)]
  unfold sgn
  rcases lt_trichotomy k 0 with h | h | h
  · rw [if_pos h]
    rw [abs_of_neg h] at hge hle
    refine ⟨?_, ?_, ?_⟩
    · rw [abs_le]; constructor <;> nlinarith
    · nlinarith
    · nlinarith
  · subst h
    rw [if_neg (lt_irrefl _), if_neg (lt_irrefl _)]
    simp [Real.sqrt_nonneg, hε]
  · rw [if_neg (not_lt.2 h.le), if_pos h]
    rw [abs_of_pos h] at hge hle
    refine ⟨?_, ?_, ?_⟩
    · rw [abs_le]; constructor <;> nlinarith
    · nlinarith
    · nlinarith

theorem sgn_mul_pos {r x : ℝ} (h : 0 < r) : sgn (r * x) = sgn x := by
  unfold sgn
  rcases lt_trichotomy x 0 with hx | hx | hx
  · rw [if_pos (mul_neg_of_pos_of_neg h hx), if_pos hx]
  · subst hx; simp
  · rw [if_neg (not_lt.2 (mul_pos h hx).le), if_pos (mul_pos h hx), if_neg (not_lt.2 hx.le), if_pos hx]

/-- Within the window of the second corner case (almost a half turn), first possibility: the antisymmetric part is not tiny. -/
theorem window_half_turn {R : Matrix (Fin 3) (Fin 3) ℝ} (h : IsRotation R) (hgt : -1 < R.trace) (hw : |R.trace + 1| < 1 / 10 ^ 10)
    (ha : ¬ |norm (![R 2 1 - R 1 2, R 0 2 - R 2 0, R 1 0 - R 0 1] : Fin 3 → ℝ)| < 1 / 10 ^ 14) :
    ∃ k θ, rotationMatrixToAxisAngle R = (k, θ, R) ∧ (0 ≤ k ⬝ᵥ k - 1 ∧ k ⬝ᵥ k - 1 ≤ 1 / 10 ^ 10) ∧ 0 ≤ θ ∧ θ ≤ Real.pi ∧
      ∃ R' k', axisAngleToRotationMatrix k θ = .ok (R', k') ∧ ∀ i j, |R' i j - R i j| ≤ 1 / 10 ^ 4 := by
  rw [trace_fin_three] at hgt hw
  rw [abs_lt] at hw
  obtain ⟨ha0, hn2, hR⟩ := rod_of_rotation h rfl rfl hgt (by linarith [hw.2])
  unfold rotationMatrixToAxisAngle
  generalize hadef : (![R 2 1 - R 1 2, R 0 2 - R 2 0, R 1 0 - R 0 1] : Fin 3 → ℝ) = a at *
  generalize htdef : R 0 0 + R 1 1 + R 2 2 = t at *
  have hn := norm_pos' ha0
  have hu := unit_divBy ha0
  generalize hk : divBy a (norm a) = k at *
  have hak : ∀ i, a i = norm a * k i := by
    intro i
    rw [← hk]
    unfold divBy
    field_simp
  simp only [hadef, htdef]
  rw [if_neg (by rw [abs_lt]; rintro ⟨h1, -⟩; norm_num at h1; linarith [hw.2]), if_pos (abs_lt.2 hw), if_neg ha]
  obtain ⟨ε, hε⟩ : ∃ ε, ε = (1 + t) / 4 := ⟨_, rfl⟩
  have hε0 : 0 ≤ ε := by rw [hε]; linarith
  have hε1 : ε ≤ 1 / 4 / 10 ^ 10 := by rw [hε]; linarith [hw.2]
  have hsε : √ε ≤ 5 / 10 ^ 6 := by
    refine Real.sqrt_le_iff.2 ⟨by norm_num, hε1.trans (by norm_num)⟩
  have hd : ∀ i, 1 / 2 * (R i i + 1) = k i * k i + ε * (1 - k i * k i) := by
    intro i
    rw [hR, rod_apply, Matrix.one_apply_eq, hε]
    have : hat k i i = 0 := by fin_cases i <;> simp [hat]
    rw [this]
    ring
  obtain ⟨b, hb⟩ : ∃ b : Fin 3 → ℝ, b = fun i => sgn (k i) * √(k i * k i + ε * (1 - k i * k i)) := ⟨_, rfl⟩
  have hb' : (![sgn (a 0) * √(1 / 2 * (R 0 0 + 1)), sgn (a 1) * √(1 / 2 * (R 1 1 + 1)), sgn (a 2) * √(1 / 2 * (R 2 2 + 1))] : Fin 3 → ℝ) = b := by
    rw [hb, hd, hd, hd, hak 0, hak 1, hak 2, sgn_mul_pos hn, sgn_mul_pos hn, sgn_mul_pos hn]
    funext i
    fin_cases i <;> rfl
  rw [hb']
  have hc : ∀ i, |b i - k i| ≤ √ε ∧ k i * k i ≤ b i * b i ∧ b i * b i ≤ k i * k i + ε := by
    intro i
    obtain ⟨h1, h2, h3⟩ := root_close (unit_le hu i) hε0
    rw [hb]
    exact ⟨h1, h2, h3⟩
  have huk := unit_eq hu
  have hbb : 0 ≤ b ⬝ᵥ b - 1 ∧ b ⬝ᵥ b - 1 ≤ 3 * ε := by
    rw [dotProduct, Fin.sum_univ_three]
    constructor <;> linarith [(hc 0).2.1, (hc 0).2.2, (hc 1).2.1, (hc 1).2.2, (hc 2).2.1, (hc 2).2.2]
  have hs2 : norm a / 2 * (norm a / 2) ≤ 1 / 10 ^ 10 := by
    rw [show norm a / 2 * (norm a / 2) = norm a * norm a / 4 by ring, hn2]
    nlinarith [hw.2]
  have hs : norm a / 2 ≤ 1 / 10 ^ 5 := by
    by_contra hc
    rw [not_le] at hc
    nlinarith
  have hb0 : b ≠ 0 := by
    rintro h0
    rw [h0] at hbb
    simp at hbb
    linarith [hbb.1]
  have hbn := norm_pos' hb0
  have hbn2 := norm_sq b
  have hN1 : 1 ≤ norm b := by
    by_contra hcon
    rw [not_le] at hcon
    nlinarith [hbb.1]
  have hN2 : norm b ≤ 1 + 3 * ε := by
    by_contra hcon
    rw [not_le] at hcon
    nlinarith [hbb.2]
  have hub := unit_divBy hb0
  refine ⟨_, _, rfl, ⟨hbb.1, hbb.2.trans (by linarith)⟩, by linarith [Real.two_le_pi], by linarith, _, _, axisAngle_ok hb0 _, fun i j => ?_⟩
  obtain ⟨b1, b2, b3⟩ := small_angle (s := norm a / 2) (by linarith) (by linarith)
  rw [show Real.pi - 1 / 2 * norm a = Real.pi - norm a / 2 by ring, Real.cos_pi_sub, Real.sin_pi_sub]
  conv_lhs => rw [hR]
  refine (rod_close hu hub (δ := 6 / 10 ^ 6) (η := 1 / 10 ^ 9) (σ := 1 / 10 ^ 5) ?_ ?_ ?_ (b1.trans hs) ?_ i j).trans (by norm_num)
  · intro i
    have e1 : divBy b (norm b) i * norm b = b i := by unfold divBy; field_simp
    have e2 := unit_le hub i
    have e3 : |divBy b (norm b) i - b i| ≤ 3 * ε := by
      rw [show divBy b (norm b) i - b i = divBy b (norm b) i * (1 - norm b) by rw [mul_sub, e1, mul_one], abs_mul]
      have : |1 - norm b| ≤ 3 * ε := by rw [abs_le]; constructor <;> linarith
      calc _ ≤ 1 * |1 - norm b| := mul_le_mul_of_nonneg_right e2 (abs_nonneg _)
        _ ≤ _ := by linarith
    have e4 := abs_sub_le (divBy b (norm b) i) (b i) (k i)
    linarith [(hc i).1]
  · rw [abs_le]
    constructor <;> nlinarith [hw.1, hw.2]
  · rw [abs_of_pos (by linarith)]; exact hs
  · rw [abs_le]
    constructor <;> linarith [hw.1, hw.2]

/-- The third branch for half turns and rotations that cannot be told from half turns: column `i` of the matrix plus the unit vector. -/
theorem column_axis {R : Matrix (Fin 3) (Fin 3) ℝ} (h : IsRotation R) (hw : |R.trace + 1| < 1 / 10 ^ 10)
    (ha : |norm (![R 2 1 - R 1 2, R 0 2 - R 2 0, R 1 0 - R 0 1] : Fin 3 → ℝ)| < 1 / 10 ^ 14) :
    ∃ k i, rotationMatrixToAxisAngle R = (k, Real.pi, R.updateCol i k) ∧ IsUnit3 k ∧ 0 < k i ∧ 1 / 2 ≤ 1 + R i i ∧
      ∀ j l, 2 * (k j * k l) * (1 + R i i) = (R j i + (1 : Matrix (Fin 3) (Fin 3) ℝ) j i) * (R l i + (1 : Matrix (Fin 3) (Fin 3) ℝ) l i) := by
  rw [trace_fin_three] at hw
  rw [abs_lt] at hw
  unfold rotationMatrixToAxisAngle
  simp only
  rw [if_neg (by rw [abs_lt]; rintro ⟨h1, -⟩; norm_num at h1; linarith [hw.2]), if_pos (abs_lt.2 hw), if_pos ha]
  generalize hi : argmax3 (fun i => R i i) = i
  have hmax : ∀ j, R j j ≤ R i i := fun j => hi ▸ argmax3_max (fun i => R i i) j
  have hpos : 1 / 2 ≤ 1 + R i i := by linarith [hmax 0, hmax 1, hmax 2, hw.1]
  set w : Fin 3 → ℝ := fun j => if j = i then R j i + 1 else R j i with hwdef
  have hw' : ∀ j, w j = R j i + (1 : Matrix (Fin 3) (Fin 3) ℝ) j i := by
    intro j
    rw [hwdef]
    by_cases hj : j = i
    · subst hj; simp
    · simp [hj]
  have hww : w ⬝ᵥ w = 2 * (1 + R i i) := by
    have h1 := congrFun (congrFun h.2.1 i) i
    rw [Matrix.mul_apply, Matrix.one_apply_eq] at h1
    have : w ⬝ᵥ w = ∑ j, (Rᵀ i j * R j i + 2 * (R j i * (1 : Matrix (Fin 3) (Fin 3) ℝ) j i) +
        (1 : Matrix (Fin 3) (Fin 3) ℝ) j i * (1 : Matrix (Fin 3) (Fin 3) ℝ) j i) := by
      unfold dotProduct
      refine Finset.sum_congr rfl fun j _ => ?_
      rw [hw', transpose_apply]
      ring
    rw [this, Finset.sum_add_distrib, Finset.sum_add_distrib, h1, ← Finset.mul_sum]
    simp only [Matrix.one_apply, mul_ite, mul_one, mul_zero, Finset.sum_ite_eq', Finset.mem_univ, if_true]
    ring
  have hw0 : w ≠ 0 := by
    intro h0
    rw [h0] at hww
    simp at hww
    linarith
  have hn := norm_pos' hw0
  refine ⟨_, i, rfl, unit_divBy hw0, ?_, hpos, fun j l => ?_⟩
  · show 0 < w i / norm w
    refine div_pos ?_ hn
    rw [hw', Matrix.one_apply_eq]
    linarith
  · show 2 * (w j / norm w * (w l / norm w)) * (1 + R i i) = _
    rw [div_mul_div_comm, norm_sq, hww, hw', hw']
    have : 1 + R i i ≠ 0 := by linarith
    field_simp

theorem rod_pi (k : Fin 3 → ℝ) (j l : Fin 3) : rod k (Real.cos Real.pi) (Real.sin Real.pi) j l = -(1 : Matrix (Fin 3) (Fin 3) ℝ) j l + 2 * (k j * k l) := by
  rw [rod_apply, Real.cos_pi, Real.sin_pi]
  ring

/-- Within the window of the second corner case, second possibility: the antisymmetric part is tiny. -/
theorem window_tiny {R : Matrix (Fin 3) (Fin 3) ℝ} (h : IsRotation R) (hgt : -1 < R.trace) (hw : |R.trace + 1| < 1 / 10 ^ 10)
    (ha : |norm (![R 2 1 - R 1 2, R 0 2 - R 2 0, R 1 0 - R 0 1] : Fin 3 → ℝ)| < 1 / 10 ^ 14) :
    ∃ k R₁, rotationMatrixToAxisAngle R = (k, Real.pi, R₁) ∧ IsUnit3 k ∧
      ∃ R', axisAngleToRotationMatrix k Real.pi = .ok (R', k) ∧ ∀ i j, |R' i j - R i j| ≤ 1 / 10 ^ 4 := by
  obtain ⟨k, i, e0, hku, -, hpos, hkk⟩ := column_axis h hw ha
  refine ⟨k, _, e0, hku, _, by rw [axisAngle_ok hku.ne_zero, divBy_unit hku], fun j l => ?_⟩
  rw [rod_pi]
  rw [trace_fin_three] at hgt hw
  rw [abs_lt] at hw
  obtain ⟨ha0, hn2, hR⟩ := rod_of_rotation h rfl rfl hgt (by linarith [hw.2])
  generalize hadef : (![R 2 1 - R 1 2, R 0 2 - R 2 0, R 1 0 - R 0 1] : Fin 3 → ℝ) = a at *
  generalize htdef : R 0 0 + R 1 1 + R 2 2 = t at *
  have hn := norm_pos' ha0
  have hu := unit_divBy ha0
  generalize divBy a (norm a) = u at *
  rw [abs_of_pos hn] at ha
  obtain ⟨s, hs⟩ : ∃ s, s = norm a / 2 := ⟨_, rfl⟩
  obtain ⟨ε, hε⟩ : ∃ ε, ε = (1 + t) / 2 := ⟨_, rfl⟩
  have hc : (t - 1) / 2 = -1 + ε := by rw [hε]; ring
  rw [← hs, hc] at hR
  have m : ∀ {x y a b : ℝ}, |x| ≤ a → |y| ≤ b → |x * y| ≤ a * b := fun {x y a b} hx hy => by
    rw [abs_mul]
    exact mul_le_mul hx hy (abs_nonneg _) ((abs_nonneg _).trans hx)
  have hε0 : |ε| ≤ 1 / 10 ^ 10 := by rw [abs_le, hε]; constructor <;> linarith [hw.2]
  have hs0 : |s| ≤ 1 / 10 ^ 10 := by rw [abs_le, hs]; constructor <;> linarith
  have hε2 : |2 - ε| ≤ 2 := by rw [abs_le, hε]; constructor <;> linarith [hw.2]
  -- `R j l + 1 j l = (2 - ε) u j u l + p j l` with a small `p`
  have hp : ∀ j l, ∃ p, R j l + (1 : Matrix (Fin 3) (Fin 3) ℝ) j l = (2 - ε) * (u j * u l) + p ∧ |p| ≤ 2 / 10 ^ 10 := by
    intro j l
    refine ⟨ε * (1 : Matrix (Fin 3) (Fin 3) ℝ) j l + s * hat u j l, ?_, ?_⟩
    · rw [hR, rod_apply]; ring
    · refine (abs_add_le _ _).trans ?_
      have b1 := m hε0 (one_entry_le j l)
      have b2 := m hs0 (hat_le hu j l)
      linarith
  obtain ⟨p1, e1, b1⟩ := hp j i
  obtain ⟨p2, e2, b2⟩ := hp l i
  obtain ⟨p3, e3, b3⟩ := hp j l
  obtain ⟨p4, e4, b4⟩ := hp i i
  rw [Matrix.one_apply_eq, add_comm] at e4
  have key := hkk j l
  rw [e1, e2] at key
  have hq : ∀ x y, |(2 - ε) * (u x * u y)| ≤ 2 := fun x y => (m hε2 (m (unit_le hu x) (unit_le hu y))).trans (by norm_num)
  have hdiff : (-(1 : Matrix (Fin 3) (Fin 3) ℝ) j l + 2 * (k j * k l) - R j l) * (1 + R i i) =
      (2 - ε) * (u j * u i) * p2 + p1 * ((2 - ε) * (u l * u i)) + p1 * p2 - p4 * ((2 - ε) * (u j * u l)) - p3 * ((2 - ε) * (u i * u i)) - p4 * p3 := by
    have : (-(1 : Matrix (Fin 3) (Fin 3) ℝ) j l + 2 * (k j * k l) - R j l) * (1 + R i i) = 2 * (k j * k l) * (1 + R i i) -
        (R j l + (1 : Matrix (Fin 3) (Fin 3) ℝ) j l) * (1 + R i i) := by ring
    rw [this, key, e3, e4]
    ring
  have d1 := m (hq j i) b2
  have d2 := m b1 (hq l i)
  have d3 := m b1 b2
  have d4 := m b4 (hq j l)
  have d5 := m b3 (hq i i)
  have d6 := m b4 b3
  have hfin : |(-(1 : Matrix (Fin 3) (Fin 3) ℝ) j l + 2 * (k j * k l) - R j l) * (1 + R i i)| ≤ 1 / 10 ^ 8 := by
    rw [hdiff, abs_le]
    rw [abs_le] at d1 d2 d3 d4 d5 d6
    constructor <;> linarith [d1.1, d1.2, d2.1, d2.2, d3.1, d3.2, d4.1, d4.2, d5.1, d5.2, d6.1, d6.2]
  rw [abs_mul, abs_of_pos (by linarith : 0 < 1 + R i i)] at hfin
  nlinarith [abs_nonneg (-(1 : Matrix (Fin 3) (Fin 3) ℝ) j l + 2 * (k j * k l) - R j l)]

/-- **C59** For every rotation matrix, also within the tolerance windows of the code, `rotation_matrix_to_axis_angle` returns a vector of length one (up to
`1e-10`) and an angle in `[0, π]` for which `axis_angle_to_rotation_matrix` gives the matrix back up to `1e-4`. -/
theorem C59_all_rotations (R : Matrix (Fin 3) (Fin 3) ℝ) (h : IsRotation R) :
    ∃ k θ R₁, rotationMatrixToAxisAngle R = (k, θ, R₁) ∧ |k ⬝ᵥ k - 1| ≤ 1 / 10 ^ 10 ∧ 0 ≤ θ ∧ θ ≤ Real.pi ∧
      ∃ R' k', axisAngleToRotationMatrix k θ = .ok (R', k') ∧ ∀ i j, |R' i j - R i j| ≤ 1 / 10 ^ 4 := by
  have hun : ∀ {k : Fin 3 → ℝ}, IsUnit3 k → |k ⬝ᵥ k - 1| ≤ 1 / 10 ^ 10 := fun {k} hk => by
    rw [show k ⬝ᵥ k = 1 from hk]
    norm_num
  by_cases ht : R.trace = 3 ∨ R.trace = -1 ∨ (1 / 10 ^ 14 ≤ |R.trace - 3| ∧ 1 / 10 ^ 10 ≤ |R.trace + 1|)
  · obtain ⟨k, θ, R₁, h1, h2, h3, h4, h5, -⟩ := C59_rotation_matrix_to_axis_angle R h ht
    exact ⟨k, θ, R₁, h1, hun h2, h3, h4, R, k, h5, fun i j => by rw [sub_self, abs_zero]; norm_num⟩
  · push Not at ht
    obtain ⟨h3, h1, h2⟩ := ht
    obtain ⟨hlo, hhi⟩ := trace_bounds h
    rw [← trace_fin_three] at hlo hhi
    have hlo' : -1 < R.trace := lt_of_le_of_ne hlo (Ne.symm h1)
    have hhi' : R.trace < 3 := lt_of_le_of_ne hhi h3
    by_cases hw : |R.trace - 3| < 1 / 10 ^ 14
    · obtain ⟨k, θ, e1, e2, e3, e4, R', e5, e6⟩ := window_identity h hhi' hw
      exact ⟨k, θ, R, e1, hun e2, e3, e4, R', k, e5, fun i j => (e6 i j).trans (by norm_num)⟩
    · have hw2 := h2 (not_lt.1 hw)
      by_cases ha : |norm (![R 2 1 - R 1 2, R 0 2 - R 2 0, R 1 0 - R 0 1] : Fin 3 → ℝ)| < 1 / 10 ^ 14
      · obtain ⟨k, R₁, e1, e2, R', e3, e4⟩ := window_tiny h hlo' hw2 ha
        exact ⟨k, _, R₁, e1, hun e2, Real.pi_pos.le, le_rfl, R', k, e3, e4⟩
      · obtain ⟨k, θ, e1, e2, e3, e4, R', k', e5, e6⟩ := window_half_turn h hlo' hw2 ha
        refine ⟨k, θ, R, e1, ?_, e3, e4, R', k', e5, e6⟩
        rw [abs_of_nonneg e2.1]
        exact e2.2

/-- **C59** For a half turn the function overwrites a column of the caller's matrix with the axis. Afterwards the caller's matrix is a rotation matrix only
if the axis is a coordinate axis (and then it is unchanged). -/
theorem C59_half_turn_overwrites (R : Matrix (Fin 3) (Fin 3) ℝ) (h : IsRotation R) (ht : R.trace = -1) :
    ∃ k i, rotationMatrixToAxisAngle R = (k, Real.pi, R.updateCol i k) ∧ IsUnit3 k ∧ axisAngleToRotationMatrix k Real.pi = .ok (R, k) ∧
      (IsRotation (R.updateCol i k) ↔ k = Pi.single i 1) ∧ (R.updateCol i k = R ↔ k = Pi.single i 1) := by
  have ha : |norm (![R 2 1 - R 1 2, R 0 2 - R 2 0, R 1 0 - R 0 1] : Fin 3 → ℝ)| < 1 / 10 ^ 14 := by
    have h1 := (rotation_axis h _ rfl _ rfl).1
    rw [← trace_fin_three, ht] at h1
    rw [norm, h1]
    norm_num
  obtain ⟨k, i, e0, hku, hki, -, -⟩ := column_axis h (by rw [ht]; norm_num) ha
  obtain ⟨k', θ, R', e1, e2, -, -, e3, -⟩ := C59_rotation_matrix_to_axis_angle R h (Or.inr (Or.inl ht))
  rw [e0] at e1
  obtain ⟨rfl, rfl, rfl⟩ : k = k' ∧ Real.pi = θ ∧ R.updateCol i k = R' := by simpa using e1
  have hR : ∀ j l, R j l = -(1 : Matrix (Fin 3) (Fin 3) ℝ) j l + 2 * (k j * k l) := by
    intro j l
    rw [axisAngle_ok hku.ne_zero, divBy_unit hku] at e3
    have := congrArg Prod.fst (Except.ok.inj e3)
    rw [← rod_pi, ← show _ = R from this]
  have hbase : k = Pi.single i 1 → R.updateCol i k = R := by
    intro hk
    ext j l
    rw [updateCol_apply]
    split
    · rename_i hl
      subst hl
      rw [hR, hk]
      by_cases hj : j = l
      · subst hj; simp; norm_num
      · simp [hj]
    · rfl
  have hrot : IsRotation (R.updateCol i k) → k = Pi.single i 1 := by
    intro hr
    have hz : ∀ j, j ≠ i → k j = 0 := by
      intro j hj
      have h1 := congrFun (congrFun hr.2.1 i) j
      rw [Matrix.mul_apply, Matrix.one_apply_ne (Ne.symm hj)] at h1
      have h2 : ∑ x, (R.updateCol i k)ᵀ i x * R.updateCol i k x j = ∑ x, (-(k x * (1 : Matrix (Fin 3) (Fin 3) ℝ) x j) + 2 * k j * (k x * k x)) := by
        refine Finset.sum_congr rfl fun x _ => ?_
        rw [transpose_apply, updateCol_self, updateCol_ne hj, hR]
        ring
      rw [h2, Finset.sum_add_distrib, ← Finset.mul_sum, show ∑ x, k x * k x = 1 from hku] at h1
      simp only [Matrix.one_apply, mul_ite, mul_one, mul_zero, Finset.sum_neg_distrib, Finset.sum_ite_eq', Finset.mem_univ, if_true] at h1
      linarith
    have hone : k i * k i = 1 := by
      have h1 : k ⬝ᵥ k = 1 := hku
      rw [dotProduct, Finset.sum_eq_single i (fun j _ hj => by rw [hz j hj, zero_mul]) (fun hi => absurd (Finset.mem_univ i) hi)] at h1
      exact h1
    have hki1 : k i = 1 := by nlinarith
    funext j
    by_cases hj : j = i
    · subst hj; simp [hki1]
    · rw [hz j hj]; simp [hj]
  exact ⟨k, i, e0, hku, e3, ⟨hrot, fun hk => by rw [hbase hk]; exact h⟩, ⟨fun he => hrot (by rw [he]; exact h), hbase⟩⟩

/-- The branch of the code for rotations by almost a half turn. -/
theorem half_turn_formula {k : Fin 3 → ℝ} (hk : IsUnit3 k) {c s : ℝ} (hs : 1 / 10 ^ 14 ≤ s) (hc : |2 + 2 * c| < 1 / 10 ^ 10) :
    rotationMatrixToAxisAngle (rod k c s) =
      (fun i => sgn (k i) * √(1 / 2 * (rod k c s i i + 1)), Real.pi - s, rod k c s) := by
  have hs0 : 0 < s := lt_of_lt_of_le (by norm_num) hs
  have hu := unit_eq hk
  have htr : rod k c s 0 0 + rod k c s 1 1 + rod k c s 2 2 = 1 + 2 * c := by
    rw [rod_eq]
    simp
    linear_combination (1 - c) * hu
  have hax : (![rod k c s 2 1 - rod k c s 1 2, rod k c s 0 2 - rod k c s 2 0, rod k c s 1 0 - rod k c s 0 1] : Fin 3 → ℝ) = (2 * s) • k := by
    rw [rod_eq]
    funext i
    fin_cases i <;> simp <;> ring
  have hn : norm ((2 * s) • k) = 2 * s := by
    rw [norm_smul', norm_unit hk, abs_of_pos (by linarith), mul_one]
  unfold rotationMatrixToAxisAngle
  simp only [htr, hax, hn]
  rw [abs_lt] at hc
  rw [if_neg (by rw [abs_lt]; rintro ⟨h1, -⟩; norm_num at h1; linarith [hc.2]),
    if_pos (by rw [abs_lt]; constructor <;> linarith [hc.1, hc.2]), if_neg (by rw [not_lt, abs_of_pos (by linarith)]; linarith)]
  refine Prod.ext ?_ (Prod.ext ?_ rfl)
  · funext i
    have e : ∀ i, ((2 * s) • k) i = (2 * s) * k i := fun _ => rfl
    simp only [e, sgn_mul_pos (show 0 < 2 * s by linarith)]
    fin_cases i <;> rfl
  · show Real.pi - 1 / 2 * (2 * s) = Real.pi - s
    ring

/-- **C59** Within the window around half turns the result is not accurate to the tolerance of the window: there is a rotation for which an entry of the
matrix of the returned axis and angle is wrong by more than `1e-6`. -/
theorem C59_half_turn_inaccurate :
    ∃ R : Matrix (Fin 3) (Fin 3) ℝ, IsRotation R ∧ ∃ k θ R₁ R' k', rotationMatrixToAxisAngle R = (k, θ, R₁) ∧
      axisAngleToRotationMatrix k θ = .ok (R', k') ∧ 1 / 10 ^ 6 ≤ |R' 0 1 - R 0 1| := by
  obtain ⟨c, hc⟩ : ∃ c : ℝ, c = -(1 - (1 / 250000) ^ 2) / (1 + (1 / 250000) ^ 2) := ⟨_, rfl⟩
  obtain ⟨s, hs⟩ : ∃ s : ℝ, s = 2 * (1 / 250000) / (1 + (1 / 250000) ^ 2) := ⟨_, rfl⟩
  obtain ⟨x, hx⟩ : ∃ x : ℝ, x = 2 * (1 / 10 ^ 9) / (1 + (1 / 10 ^ 9) ^ 2) := ⟨_, rfl⟩
  obtain ⟨y, hy⟩ : ∃ y : ℝ, y = (1 - (1 / 10 ^ 9) ^ 2) / (1 + (1 / 10 ^ 9) ^ 2) := ⟨_, rfl⟩
  have hcs : c ^ 2 + s ^ 2 = 1 := by rw [hc, hs]; norm_num
  have hk : IsUnit3 (![x, y, 0] : Fin 3 → ℝ) := by
    show ![x, y, 0] ⬝ᵥ ![x, y, 0] = (1 : ℝ)
    simp [dotProduct, Fin.sum_univ_three]
    rw [hx, hy]
    norm_num
  have hrot := rod_isRotation hk hcs
  have hf := half_turn_formula hk (c := c) (s := s) (by rw [hs]; norm_num) (by rw [hc]; norm_num [abs_lt])
  generalize hR : rod (![x, y, 0] : Fin 3 → ℝ) c s = R at *
  have hx0 : 0 < x := by rw [hx]; norm_num
  have hy0 : 0 < y := by rw [hy]; norm_num
  have e00 : R 0 0 = c + (1 - c) * (x * x) := by rw [← hR, rod_eq]; simp
  have e11 : R 1 1 = c + (1 - c) * (y * y) := by rw [← hR, rod_eq]; simp
  have e01 : R 0 1 = (1 - c) * (x * y) := by rw [← hR, rod_eq]; simp
  obtain ⟨b, hb⟩ : ∃ b : Fin 3 → ℝ, b = fun i => sgn ((![x, y, 0] : Fin 3 → ℝ) i) * √(1 / 2 * (R i i + 1)) := ⟨_, rfl⟩
  rw [← hb] at hf
  have hb0 : b 0 = √(1 / 2 * (R 0 0 + 1)) := by
    rw [hb]
    simp [sgn, hx0, hx0.le]
  have hb1 : b 1 = √(1 / 2 * (R 1 1 + 1)) := by
    rw [hb]
    simp [sgn, hy0, hy0.le]
  have hb2 : b 2 = 0 := by
    rw [hb]
    simp [sgn]
  have l0 : 3 / 10 ^ 6 ≤ b 0 := by
    rw [hb0]
    refine Real.le_sqrt_of_sq_le ?_
    rw [e00, hc, hx]
    norm_num
  have l1 : 9 / 10 ≤ b 1 := by
    rw [hb1]
    refine Real.le_sqrt_of_sq_le ?_
    rw [e11, hc, hy]
    norm_num
  have hN : b ⬝ᵥ b ≤ 2 := by
    rw [dotProduct, Fin.sum_univ_three, hb2, hb0, hb1, Real.mul_self_sqrt (by linarith [(diag_le hrot 0).1]),
      Real.mul_self_sqrt (by linarith [(diag_le hrot 1).1])]
    linarith [(diag_le hrot 0).2, (diag_le hrot 1).2]
  have hbne : b ≠ 0 := by
    intro h0
    rw [h0] at l1
    norm_num at l1
  have hpos : 0 < b ⬝ᵥ b := by
    rw [← norm_sq]
    exact mul_pos (norm_pos' hbne) (norm_pos' hbne)
  refine ⟨R, hrot, _, _, _, _, _, hf, axisAngle_ok hbne _, ?_⟩
  rw [rod_apply, Real.cos_pi_sub, Real.sin_pi_sub]
  have hh : hat (divBy b (norm b)) 0 1 = 0 := by
    simp [hat, divBy, hb2]
  rw [hh, e01]
  have hprod : divBy b (norm b) 0 * divBy b (norm b) 1 = b 0 * b 1 / (b ⬝ᵥ b) := by
    unfold divBy
    rw [div_mul_div_comm, norm_sq]
  have hge : 135 / 10 ^ 8 ≤ divBy b (norm b) 0 * divBy b (norm b) 1 := by
    rw [hprod, le_div_iff₀ hpos]
    nlinarith
  have hcos := (small_angle (s := s) (by rw [hs]; norm_num) (by rw [hs]; norm_num)).2.1
  have hs1 : s * s / 2 ≤ 1 / 10 := by rw [hs]; norm_num
  have hR01 : (1 - c) * (x * y) ≤ 1 / 10 ^ 8 := by
    rw [hc, hx, hy]
    norm_num
  refine le_trans ?_ (le_abs_self _)
  simp only [Matrix.one_apply_ne (show (0 : Fin 3) ≠ 1 by decide), mul_zero, zero_add]
  nlinarith

/-! ## The hypotheses are met -/

/-- The half turn about the diagonal of a face of the cube. -/
theorem half_turn_example : IsRotation (!![0, 1, 0; 1, 0, 0; 0, 0, -1] : Matrix (Fin 3) (Fin 3) ℝ) ∧
    (!![0, 1, 0; 1, 0, 0; 0, 0, -1] : Matrix (Fin 3) (Fin 3) ℝ).trace = -1 := by
  refine ⟨⟨?_, ?_, ?_⟩, ?_⟩
  · ext i j
    fin_cases i <;> fin_cases j <;> simp [Matrix.mul_apply, Fin.sum_univ_three]
  · ext i j
    fin_cases i <;> fin_cases j <;> simp [Matrix.mul_apply, Fin.sum_univ_three]
  · rw [det_fin_three]; simp
  · rw [trace_fin_three]; simp

/-- The caller's matrix is lost for this half turn. -/
example : ∃ k θ R', rotationMatrixToAxisAngle (!![0, 1, 0; 1, 0, 0; 0, 0, -1] : Matrix (Fin 3) (Fin 3) ℝ) = (k, θ, R') ∧ ¬ IsRotation R' := by
  obtain ⟨k, i, e, hk, hR, h1, -⟩ := C59_half_turn_overwrites _ half_turn_example.1 half_turn_example.2
  refine ⟨k, _, _, e, fun hrot => ?_⟩
  have hki := h1.1 hrot
  rw [axisAngle_ok hk.ne_zero, divBy_unit hk] at hR
  have := congrArg Prod.fst (Except.ok.inj hR)
  have h01 := congrFun (congrFun this 0) 1
  simp only at h01
  rw [rod_pi, hki] at h01
  fin_cases i <;> simp at h01

end Verif.Linalg
