import Verif.Spec.RandomRotation
import Verif.Model.RandomRotation
import Verif.Props.Rotation
import Verif.Props.SamplingSphere
import Verif.Model.PointClouds
import Mathlib.MeasureTheory.Integral.IntervalIntegral.Periodic
import Mathlib.MeasureTheory.Function.SpecialFunctions.Basic
/-!
# C85: random rotations are uniformly distributed

If the numbers of the generator are independent, uniformly distributed in [0, 1) and standard normally distributed, then the matrices of `random_rotation_matrix_2` and
`random_rotation_matrix_3` have the uniform distribution on the group of rotations.
-/

namespace Verif.Linalg
open Verif Verif.Random Verif.Sampling MeasureTheory ProbabilityTheory Matrix

variable {Ω : Type} [MeasurableSpace Ω] {P : Measure Ω} {n : ℕ}

/-! ## The uniform distribution -/

theorem measurable_matrix {α : Type} [MeasurableSpace α] {f : α → Matrix (Fin n) (Fin n) ℝ} (h : ∀ i j, Measurable fun a => f a i j) : Measurable f :=
  measurable_pi_lambda _ fun i => measurable_pi_lambda _ fun j => h i j

theorem measurable_entry (i j : Fin n) : Measurable fun R : Matrix (Fin n) (Fin n) ℝ => R i j :=
  (measurable_pi_apply j).comp (measurable_pi_apply (X := fun _ : Fin n => Fin n → ℝ) i)

theorem measurable_mul_matrix {α : Type} [MeasurableSpace α] {f g : α → Matrix (Fin n) (Fin n) ℝ} (hf : Measurable f) (hg : Measurable g) :
    Measurable fun a => f a * g a := by
  refine measurable_matrix fun i j => ?_
  simp only [Matrix.mul_apply]
  exact Finset.measurable_sum _ fun k _ => ((measurable_entry i k).comp hf).mul ((measurable_entry k j).comp hg)

theorem measurable_transpose_matrix : Measurable fun R : Matrix (Fin n) (Fin n) ℝ => Rᵀ :=
  measurable_matrix fun i j => measurable_entry j i

theorem IsRotation.transpose' {R : Matrix (Fin n) (Fin n) ℝ} (h : IsRotation R) : IsRotation Rᵀ :=
  ⟨by rw [transpose_transpose]; exact h.2.1, by rw [transpose_transpose]; exact h.1, by rw [det_transpose]; exact h.2.2⟩

theorem measurableSet_rotation : MeasurableSet {R : Matrix (Fin n) (Fin n) ℝ | IsRotation R} := by
  have heq : ∀ {f g : Matrix (Fin n) (Fin n) ℝ → Matrix (Fin n) (Fin n) ℝ}, Measurable f → Measurable g → MeasurableSet {R | f R = g R} := fun {f g} hf hg => by
    have : {R | f R = g R} = ⋂ i, ⋂ j, {R | f R i j = g R i j} := by
      ext R
      simp only [Set.mem_ofPred_eq, Set.mem_iInter]
      exact ⟨fun h i j => by rw [h], fun h => by ext i j; exact h i j⟩
    rw [this]
    exact MeasurableSet.iInter fun i => MeasurableSet.iInter fun j => measurableSet_eq_fun ((measurable_entry i j).comp hf) ((measurable_entry i j).comp hg)
  have hdet : Measurable fun R : Matrix (Fin n) (Fin n) ℝ => R.det := by
    simp only [Matrix.det_apply']
    exact Finset.measurable_sum _ fun σ _ => measurable_const.mul (Finset.measurable_prod _ fun i _ => measurable_entry _ _)
  exact (heq (measurable_mul_matrix measurable_id measurable_transpose_matrix) measurable_const).inter
    ((heq (measurable_mul_matrix measurable_transpose_matrix measurable_id) measurable_const).inter (measurableSet_eq_fun hdet measurable_const))

theorem uniform_transpose {μ ν : Measure (Matrix (Fin n) (Fin n) ℝ)} (hμ : IsUniformRotation μ) (hν : IsUniformRotation ν)
    {B : Set (Matrix (Fin n) (Fin n) ℝ)} (hB : MeasurableSet B) : μ B = ν {Q | Qᵀ ∈ B} := by
  have := hμ.prob
  have := hν.prob
  have hm : MeasurableSet {p : Matrix (Fin n) (Fin n) ℝ × Matrix (Fin n) (Fin n) ℝ | p.1ᵀ * p.2 ∈ B} :=
    measurable_mul_matrix (measurable_transpose_matrix.comp measurable_fst) measurable_snd hB
  have h1 : (ν.prod μ) {p | p.1ᵀ * p.2 ∈ B} = μ B := by
    rw [Measure.prod_apply hm]
    have : (fun Q => μ (Prod.mk Q ⁻¹' {p : Matrix (Fin n) (Fin n) ℝ × Matrix (Fin n) (Fin n) ℝ | p.1ᵀ * p.2 ∈ B})) =ᵐ[ν] fun _ => μ B := by
      filter_upwards [hν.rotation] with Q hQ
      have h2 : (μ.map fun R => Qᵀ * R) B = μ B := by rw [hμ.invariant Qᵀ hQ.transpose']
      rw [Measure.map_apply (f := fun R => Qᵀ * R) (measurable_mul_matrix measurable_const measurable_id) hB] at h2
      exact h2
    rw [lintegral_congr_ae this]
    simp
  have h3 : (ν.prod μ) {p | p.1ᵀ * p.2 ∈ B} = ν {Q | Qᵀ ∈ B} := by
    rw [Measure.prod_apply_symm hm]
    have : (fun R => ν ((fun Q => (Q, R)) ⁻¹' {p : Matrix (Fin n) (Fin n) ℝ × Matrix (Fin n) (Fin n) ℝ | p.1ᵀ * p.2 ∈ B})) =ᵐ[μ] fun _ => ν {Q | Qᵀ ∈ B} := by
      filter_upwards [hμ.rotation] with R hR
      have h2 : (ν.map fun Q => Rᵀ * Q) {Q | Qᵀ ∈ B} = ν {Q | Qᵀ ∈ B} := by rw [hν.invariant Rᵀ hR.transpose']
      rw [Measure.map_apply (f := fun Q => Rᵀ * Q) (s := {Q | Qᵀ ∈ B}) (measurable_mul_matrix measurable_const measurable_id) (measurable_transpose_matrix hB)] at h2
      rw [← h2]
      congr 1
      ext Q
      simp [transpose_mul]
    rw [lintegral_congr_ae this]
    simp
  rw [← h1, h3]

/-- **C85** There is only one uniform distribution on rotations: it is determined by the invariance. -/
theorem C85_unique {μ ν : Measure (Matrix (Fin n) (Fin n) ℝ)} (hμ : IsUniformRotation μ) (hν : IsUniformRotation ν) : μ = ν := by
  ext B hB
  have h1 := uniform_transpose hμ hμ hB
  have h2 := uniform_transpose hμ hν (measurable_transpose_matrix hB)
  rw [h1]
  exact h2

/-- **C85** The uniform distribution is also invariant under composition in the other order, and under inversion (transposition) of the rotation. -/
theorem C85_right_invariant {μ : Measure (Matrix (Fin n) (Fin n) ℝ)} (h : IsUniformRotation μ) :
    μ.map (fun R => Rᵀ) = μ ∧ ∀ Q, IsRotation Q → μ.map (fun R => R * Q) = μ := by
  have h1 : μ.map (fun R => Rᵀ) = μ := by
    ext B hB
    rw [Measure.map_apply measurable_transpose_matrix hB]
    exact (uniform_transpose h h hB).symm
  refine ⟨h1, fun Q hQ => ?_⟩
  have h2 : (fun R : Matrix (Fin n) (Fin n) ℝ => R * Q) = (fun R => Rᵀ) ∘ (fun R => Qᵀ * R) ∘ (fun R => Rᵀ) := by
    funext R
    simp [Function.comp, transpose_mul]
  have m1 : Measurable fun R : Matrix (Fin n) (Fin n) ℝ => Qᵀ * R := measurable_mul_matrix measurable_const measurable_id
  rw [h2, ← Measure.map_map measurable_transpose_matrix (m1.comp measurable_transpose_matrix), ← Measure.map_map m1 measurable_transpose_matrix, h1,
    h.invariant _ hQ.transpose', h1]

/-! ## Angles -/

/-- A random angle plus a constant, modulo a full turn, is a random angle. -/
theorem rand_shift {S : Set ℝ} (hS : MeasurableSet S) (hper : ∀ u, u + 1 ∈ S ↔ u ∈ S) (a : ℝ) : rand {u | a + u ∈ S} = rand S := by
  have := rand_prob
  have hper' : Function.Periodic (S.indicator fun _ => (1 : ℝ)) 1 := fun u => by
    by_cases h : u ∈ S
    · rw [Set.indicator_of_mem h, Set.indicator_of_mem ((hper u).2 h)]
    · rw [Set.indicator_of_notMem h, Set.indicator_of_notMem fun h' => h ((hper u).1 h')]
  have hval : ∀ T : Set ℝ, MeasurableSet T → rand.real T = ∫ u in (0 : ℝ)..1, T.indicator (fun _ => (1 : ℝ)) u := fun T hT => by
    rw [intervalIntegral.integral_of_le zero_le_one, integral_indicator hT, Measure.restrict_restrict hT, setIntegral_const, smul_eq_mul, mul_one, rand, measureReal_restrict_apply hT]
    exact measureReal_congr ((ae_eq_refl T).inter Ico_ae_eq_Ioc)
  have h1 : rand.real {u | a + u ∈ S} = rand.real S := by
    rw [hval {u | a + u ∈ S} (measurable_const_add a hS), hval _ hS]
    have h2 := hper'.intervalIntegral_add_eq a 0
    rw [zero_add] at h2
    rw [← h2]
    have h3 := intervalIntegral.integral_comp_add_left (a := 0) (b := 1) (S.indicator fun _ => (1 : ℝ)) a
    rw [add_zero] at h3
    rw [← h3]
    rfl
  rw [measureReal_def, measureReal_def] at h1
  exact (ENNReal.toReal_eq_toReal_iff' (measure_ne_top _ _) (measure_ne_top _ _)).1 h1

theorem exists_turn {c s : ℝ} (h : c ^ 2 + s ^ 2 = 1) : ∃ a, Real.cos (2 * Real.pi * a) = c ∧ Real.sin (2 * Real.pi * a) = s := by
  have hz : ‖(⟨c, s⟩ : ℂ)‖ = 1 := by
    rw [Complex.norm_def, Complex.normSq_mk, ← pow_two, ← pow_two, h, Real.sqrt_one]
  have h0 : (⟨c, s⟩ : ℂ) ≠ 0 := fun h0 => by rw [h0, norm_zero] at hz; exact zero_ne_one hz
  refine ⟨Complex.arg ⟨c, s⟩ / (2 * Real.pi), ?_, ?_⟩
  · rw [mul_div_cancel₀ _ (by positivity), Complex.cos_arg h0, hz, div_one]
  · rw [mul_div_cancel₀ _ (by positivity), Complex.sin_arg, hz, div_one]

theorem rotationMatrix2_add (a u : ℝ) : rotationMatrix2 (a + u) = rotationMatrix2 a * rotationMatrix2 u := by
  unfold rotationMatrix2
  simp only [mul_add, Real.cos_add, Real.sin_add]
  ext i j
  fin_cases i <;> fin_cases j <;> simp [Matrix.mul_apply, Fin.sum_univ_two] <;> ring

theorem rotationMatrix2_one (u : ℝ) : rotationMatrix2 (u + 1) = rotationMatrix2 u := by
  unfold rotationMatrix2
  simp [mul_add]

theorem measurable_rotationMatrix2 : Measurable rotationMatrix2 := by
  refine measurable_matrix fun i j => ?_
  unfold rotationMatrix2
  fin_cases i <;> fin_cases j <;> simp <;> fun_prop

theorem exists_rotationMatrix2 {Q : Matrix (Fin 2) (Fin 2) ℝ} (hQ : IsRotation Q) : ∃ a, Q = rotationMatrix2 a := by
  have h1 : Q.adjugate = Qᵀ := by
    have h2 := congrArg (fun M => Qᵀ * M) (mul_adjugate Q)
    simp only [← Matrix.mul_assoc, hQ.2.1, Matrix.one_mul, hQ.2.2, one_smul, Matrix.mul_one] at h2
    exact h2
  rw [adjugate_fin_two] at h1
  have e00 := congrFun (congrFun h1 0) 0
  have e01 := congrFun (congrFun h1 0) 1
  have hd := hQ.2.2
  rw [det_fin_two] at hd
  simp at e00 e01
  obtain ⟨a, ha1, ha2⟩ := exists_turn (c := Q 0 0) (s := Q 1 0) (by rw [e00] at hd; linear_combination hd - Q 1 0 * e01)
  refine ⟨a, ?_⟩
  unfold rotationMatrix2
  simp only [ha1, ha2]
  ext i j
  fin_cases i <;> fin_cases j <;> simp
  · linarith
  · exact e00

/-- **C85** The matrices of `random_rotation_matrix_2` are uniformly distributed rotations. -/
theorem C85_two {U : Ω → ℝ} (hU : Measurable U) (hlaw : P.map U = rand) : IsUniformRotation (P.map fun ω => rotationMatrix2 (U ω)) := by
  have := rand_prob
  have hmap : (P.map fun ω => rotationMatrix2 (U ω)) = rand.map rotationMatrix2 := by
    rw [← hlaw, Measure.map_map measurable_rotationMatrix2 hU]
    rfl
  rw [hmap]
  refine ⟨Measure.isProbabilityMeasure_map measurable_rotationMatrix2.aemeasurable, ?_, fun Q hQ => ?_⟩
  · rw [ae_map_iff measurable_rotationMatrix2.aemeasurable measurableSet_rotation]
    exact Filter.Eventually.of_forall fun u => C54_random_2 u
  · have m1 : Measurable fun R : Matrix (Fin 2) (Fin 2) ℝ => Q * R := measurable_mul_matrix measurable_const measurable_id
    ext B hB
    rw [Measure.map_apply m1 hB, Measure.map_apply measurable_rotationMatrix2 (m1 hB), Measure.map_apply measurable_rotationMatrix2 hB]
    obtain ⟨a, rfl⟩ := exists_rotationMatrix2 hQ
    have h1 := rand_shift (S := rotationMatrix2 ⁻¹' B) (measurable_rotationMatrix2 hB) (fun u => by simp only [Set.mem_preimage, rotationMatrix2_one]) a
    rw [← h1]
    congr 1
    ext u
    simp only [Set.mem_preimage, Set.mem_ofPred_eq, rotationMatrix2_add]

/-! ## Three dimensions -/

/-- The rotation by `u` turns about the third axis. -/
noncomputable def turn3 (u : ℝ) : Matrix (Fin 3) (Fin 3) ℝ :=
  !![Real.cos (2 * Real.pi * u), -Real.sin (2 * Real.pi * u), 0; Real.sin (2 * Real.pi * u), Real.cos (2 * Real.pi * u), 0; 0, 0, 1]

theorem turn3_add (a u : ℝ) : turn3 (a + u) = turn3 a * turn3 u := by
  unfold turn3
  simp only [mul_add, Real.cos_add, Real.sin_add]
  ext i j
  fin_cases i <;> fin_cases j <;> simp [Matrix.mul_apply, Fin.sum_univ_three] <;> ring

theorem turn3_zero : turn3 0 = 1 := by
  unfold turn3
  ext i j
  fin_cases i <;> fin_cases j <;> simp

theorem turn3_one (u : ℝ) : turn3 (u + 1) = turn3 u := by
  unfold turn3
  simp [mul_add]

theorem measurable_turn3 : Measurable turn3 := by
  refine measurable_matrix fun i j => ?_
  unfold turn3
  fin_cases i <;> fin_cases j <;> simp <;> fun_prop

/-- A rotation that fixes the third axis. -/
theorem exists_turn3 {S : Matrix (Fin 3) (Fin 3) ℝ} (h : IsRotation S) (h2 : S *ᵥ ![0, 0, 1] = ![0, 0, 1]) : ∃ a, S = turn3 a := by
  have c0 : S 0 2 = 0 := by simpa [mulVec, dotProduct, Fin.sum_univ_three] using congrFun h2 0
  have c1 : S 1 2 = 0 := by simpa [mulVec, dotProduct, Fin.sum_univ_three] using congrFun h2 1
  have c2 : S 2 2 = 1 := by simpa [mulVec, dotProduct, Fin.sum_univ_three] using congrFun h2 2
  have r22 := congrFun (congrFun h.1 2) 2
  simp [Matrix.mul_apply, Fin.sum_univ_three, c2] at r22
  have r20 : S 2 0 = 0 := by nlinarith [mul_self_nonneg (S 2 0), mul_self_nonneg (S 2 1)]
  have r21 : S 2 1 = 0 := by nlinarith [mul_self_nonneg (S 2 0), mul_self_nonneg (S 2 1)]
  have q00 := congrFun (congrFun h.1 0) 0
  have q01 := congrFun (congrFun h.1 0) 1
  have q11 := congrFun (congrFun h.1 1) 1
  have hd := h.2.2
  rw [det_fin_three] at hd
  simp [Matrix.mul_apply, Fin.sum_univ_three, c0, c1] at q00 q01 q11
  simp [c0, c1, c2, r20, r21] at hd
  have e1 : (S 0 0 - S 1 1) ^ 2 + (S 1 0 + S 0 1) ^ 2 = 0 := by nlinarith
  have e2 : S 0 0 - S 1 1 = 0 := by nlinarith [sq_nonneg (S 0 0 - S 1 1), sq_nonneg (S 1 0 + S 0 1)]
  have e3 : S 1 0 + S 0 1 = 0 := by nlinarith [sq_nonneg (S 0 0 - S 1 1), sq_nonneg (S 1 0 + S 0 1)]
  obtain ⟨a, ha1, ha2⟩ := exists_turn (c := S 0 0) (s := S 1 0) (by nlinarith)
  refine ⟨a, ?_⟩
  unfold turn3
  rw [ha1, ha2]
  ext i j
  fin_cases i <;> fin_cases j <;> simp [c0, c1, c2, r20, r21] <;> linarith

/-- The rotation that `random_rotation_matrix_3` composes with a turn about the third axis. -/
noncomputable def tilt (axis0 : Fin 3 → ℝ) (v : Fin 3 → ℝ) : Matrix (Fin 3) (Fin 3) ℝ :=
  open Classical in
  let axis := ![0, 0, 1] ⨯₃ v
  if axis ⬝ᵥ axis = 0 then
    if v 2 > 0 then rod ![1, 0, 0] (Real.cos 0) (Real.sin 0) else rod axis0 (Real.cos Real.pi) (Real.sin Real.pi)
  else rod (divBy axis (norm axis)) (Real.cos (computeAngle3 ![0, 0, 1] v)) (Real.sin (computeAngle3 ![0, 0, 1] v))

theorem exists_tilt : ∃ axis0, ∀ u v, v ≠ 0 → rotationMatrix3 u v = .ok (tilt axis0 v * turn3 u) := by
  have hu3 : IsUnit3 (![0, 0, 1] : Fin 3 → ℝ) := by
    show ![0, 0, 1] ⬝ᵥ ![0, 0, 1] = (1 : ℝ)
    simp [dotProduct, Fin.sum_univ_three]
  have hu1 : IsUnit3 (![1, 0, 0] : Fin 3 → ℝ) := by
    show ![1, 0, 0] ⬝ᵥ ![1, 0, 0] = (1 : ℝ)
    simp
  have hbranch : ∃ a, orthogonalVector [(0 : ℝ), 0, 1] = .ok a ∧ IsUnit3 (divBy (fun i : Fin 3 => a.getD i 0) (norm fun i : Fin 3 => a.getD i 0)) := by
    obtain ⟨w, hw, hlen, -, x, hx, hx0⟩ := C59_orthogonal_vector [(0 : ℝ), 0, 1] (by simp) ⟨1, by simp, one_ne_zero⟩
    obtain ⟨p, q, r, rfl⟩ := List.length_eq_three.1 hlen
    refine ⟨_, hw, unit_divBy fun h0 => hx0 ?_⟩
    have h1 := congrFun h0 0
    have h2 := congrFun h0 1
    have h3 := congrFun h0 2
    simp at h1 h2 h3
    simpa [h1, h2, h3] using hx
  obtain ⟨a, ha, hua⟩ := hbranch
  refine ⟨divBy (fun i : Fin 3 => a.getD i 0) (norm fun i : Fin 3 => a.getD i 0), fun u v hv => ?_⟩
  have hcol : (fun i => (!![rotationMatrix2 u 0 0, rotationMatrix2 u 0 1, 0; rotationMatrix2 u 1 0, rotationMatrix2 u 1 1, 0; 0, 0, 1] : Matrix (Fin 3) (Fin 3) ℝ) i 2) = ![0, 0, 1] := by
    funext i
    fin_cases i <;> simp
  have hmat : (!![rotationMatrix2 u 0 0, rotationMatrix2 u 0 1, 0; rotationMatrix2 u 1 0, rotationMatrix2 u 1 1, 0; 0, 0, 1] : Matrix (Fin 3) (Fin 3) ℝ) = turn3 u := rfl
  unfold rotationMatrix3
  simp only
  rw [hcol, hmat]
  unfold computeRotation tilt
  simp only
  have hdot : (![0, 0, 1] : Fin 3 → ℝ) ⬝ᵥ v = v 2 := by simp [dotProduct, Fin.sum_univ_three]
  rw [hdot]
  split
  · split
    · simp only [Py.pure_eq, Py.bind_ok]
      unfold rotateMatrix
      rw [axisAngle_ok hu1.ne_zero, divBy_unit hu1]
      rfl
    · have hl : [(![0, 0, 1] : Fin 3 → ℝ) 0, (![0, 0, 1] : Fin 3 → ℝ) 1, (![0, 0, 1] : Fin 3 → ℝ) 2] = [(0 : ℝ), 0, 1] := by simp
      rw [hl, ha]
      simp only [Py.pure_eq, Py.bind_ok]
      unfold rotateMatrix
      rw [axisAngle_ok hua.ne_zero, divBy_unit hua]
      rfl
  · rename_i hne
    have hu : IsUnit3 (divBy ((![0, 0, 1] : Fin 3 → ℝ) ⨯₃ v) (norm ((![0, 0, 1] : Fin 3 → ℝ) ⨯₃ v))) := unit_divBy fun h0 => hne (by rw [h0]; simp)
    rw [computeAngle3_eq]
    simp only [Py.pure_eq, Py.bind_ok]
    unfold rotateMatrix
    rw [axisAngle_ok hu.ne_zero, divBy_unit hu]
    rfl

theorem measurable_tilt (axis0 : Fin 3 → ℝ) : Measurable (tilt axis0) := by
  have hcross : ∀ i, Measurable fun v : Fin 3 → ℝ => ((![0, 0, 1] : Fin 3 → ℝ) ⨯₃ v) i := fun i => by
    fin_cases i <;> simp [cross_apply] <;> fun_prop
  have hdot : ∀ {f : (Fin 3 → ℝ) → Fin 3 → ℝ}, (∀ i, Measurable fun v => f v i) → Measurable fun v => f v ⬝ᵥ f v := fun hf =>
    Finset.measurable_sum _ fun i _ => (hf i).mul (hf i)
  have hnorm : Measurable fun v : Fin 3 → ℝ => norm ((![0, 0, 1] : Fin 3 → ℝ) ⨯₃ v) := (hdot hcross).sqrt
  have hang : Measurable fun v : Fin 3 → ℝ => computeAngle3 ![0, 0, 1] v := by
    unfold computeAngle3 arctan2
    have h1 : Measurable fun v : Fin 3 → ℝ => (![0, 0, 1] : Fin 3 → ℝ) ⬝ᵥ v := Finset.measurable_sum _ fun i _ => measurable_const.mul (measurable_pi_apply i)
    have h2 : Measurable fun v : Fin 3 → ℝ => (⟨(![0, 0, 1] : Fin 3 → ℝ) ⬝ᵥ v, norm ((![0, 0, 1] : Fin 3 → ℝ) ⨯₃ v)⟩ : ℂ) :=
      Complex.measurableEquivRealProd.symm.measurable.comp (h1.prodMk hnorm)
    exact Complex.measurable_arg.comp h2
  have hrod : ∀ {k : (Fin 3 → ℝ) → Fin 3 → ℝ} {c s : (Fin 3 → ℝ) → ℝ}, (∀ i, Measurable fun v => k v i) → Measurable c → Measurable s →
      Measurable fun v => rod (k v) (c v) (s v) := fun {k c s} hk hc hs => by
    have k0 := hk 0
    have k1 := hk 1
    have k2 := hk 2
    refine measurable_matrix fun i j => ?_
    simp only [rod_eq]
    fin_cases i <;> fin_cases j <;> simp <;> fun_prop
  unfold tilt
  simp only
  refine Measurable.ite (measurableSet_eq_fun (hdot hcross) measurable_const) (Measurable.ite (measurableSet_lt measurable_const (measurable_pi_apply 2)) ?_ ?_) ?_
  · exact measurable_const
  · exact measurable_const
  · exact hrod (fun i => (hcross i).div hnorm) (Real.measurable_cos.comp hang) (Real.measurable_sin.comp hang)

theorem turn3_isRotation (u : ℝ) : IsRotation (turn3 u) := by
  have h := Real.cos_sq_add_sin_sq (2 * Real.pi * u)
  have h1 : turn3 u * (turn3 u)ᵀ = 1 := by
    unfold turn3
    ext i j
    fin_cases i <;> fin_cases j <;> simp [Matrix.mul_apply, Fin.sum_univ_three]
    · linear_combination h
    · ring
    · ring
    · linear_combination h
  refine ⟨h1, mul_eq_one_comm.1 h1, ?_⟩
  unfold turn3
  rw [det_fin_three]
  simp
  linear_combination h

theorem mulVec_e3 (M : Matrix (Fin 3) (Fin 3) ℝ) : M *ᵥ ![0, 0, 1] = fun i => M i 2 := by
  funext i
  simp [mulVec, dotProduct, Fin.sum_univ_three]

theorem tilt_spec {axis0 : Fin 3 → ℝ} (h : ∀ u v, v ≠ 0 → rotationMatrix3 u v = .ok (tilt axis0 v * turn3 u)) {v : Fin 3 → ℝ} (hv : IsUnit3 v) :
    IsRotation (tilt axis0 v) ∧ tilt axis0 v *ᵥ ![0, 0, 1] = v := by
  obtain ⟨R, hR, hrot, hcol⟩ := C59_random_3 0 v hv
  rw [h 0 v hv.ne_zero, turn3_zero, Matrix.mul_one] at hR
  rw [Except.ok.inj hR]
  exact ⟨hrot, by rw [mulVec_e3]; exact funext hcol⟩

/-- Composition with a rotation changes the point on the sphere and adds a constant to the angle. -/
theorem tilt_rotate {axis0 : Fin 3 → ℝ} (h : ∀ u v, v ≠ 0 → rotationMatrix3 u v = .ok (tilt axis0 v * turn3 u)) {Q : Matrix (Fin 3) (Fin 3) ℝ} (hQ : IsRotation Q)
    {v : Fin 3 → ℝ} (hv : IsUnit3 v) : ∃ a, ∀ u, Q * (tilt axis0 v * turn3 u) = tilt axis0 (Q *ᵥ v) * turn3 (a + u) := by
  have hQv : IsUnit3 (Q *ᵥ v) := by
    show Q *ᵥ v ⬝ᵥ Q *ᵥ v = 1
    rw [dotProduct_mulVec, vecMul_mulVec, hQ.2.1, vecMul_one]
    exact hv
  obtain ⟨r1, c1⟩ := tilt_spec h hv
  obtain ⟨r2, c2⟩ := tilt_spec h hQv
  obtain ⟨a, ha⟩ := exists_turn3 (r2.transpose'.mul (hQ.mul r1)) (by
    rw [← mulVec_mulVec, ← mulVec_mulVec, c1]
    nth_rewrite 2 [← c2]
    rw [mulVec_mulVec, r2.2.1, one_mulVec])
  refine ⟨a, fun u => ?_⟩
  rw [turn3_add, ← ha]
  simp only [← Matrix.mul_assoc]
  rw [r2.1, Matrix.one_mul]

theorem measurable_mulVec' (Q : Matrix (Fin n) (Fin n) ℝ) : Measurable fun x : Fin n → ℝ => Q *ᵥ x := by
  refine measurable_pi_lambda _ fun i => ?_
  simp only [mulVec, dotProduct]
  fun_prop

theorem sphere_law (n : ℕ) (Q : Matrix (Fin n) (Fin n) ℝ) (hQ : IsRotation Q) :
    ((Measure.pi fun _ : Fin n => randn).map direction).map (Q *ᵥ ·) = (Measure.pi fun _ : Fin n => randn).map direction := by
  have := randn_prob
  have hmul := measurable_mulVec' Q
  have hprob : IsProbabilityMeasure ((Measure.pi fun _ : Fin n => randn).map direction) := Measure.isProbabilityMeasure_map direction_measurable.aemeasurable
  have hshare : ∀ B, MeasurableSet B → ((Measure.pi fun _ : Fin n => randn).map direction).real B = sphereShare B := fun B hB => by
    rw [measureReal_def, Measure.map_apply direction_measurable hB, ← measureReal_def]
    exact gaussian_cone_share (fun c hc x => by simp only [Set.mem_preimage, direction_smul hc]) (direction_measurable hB)
  ext B hB
  rw [Measure.map_apply hmul hB]
  have h1 := C84_sphere_invariant Q ((mem_orthogonalGroup_iff (Fin n) ℝ).2 (by simpa [star_eq_conjTranspose] using hQ.1)) B
  have h2 : ((Measure.pi fun _ : Fin n => randn).map direction).real ((Q *ᵥ ·) ⁻¹' B) = ((Measure.pi fun _ : Fin n => randn).map direction).real B := by
    rw [hshare _ (hmul hB), hshare B hB]
    exact h1
  exact (ENNReal.toReal_eq_toReal_iff' (measure_ne_top _ _) (measure_ne_top _ _)).1 h2

theorem direction_unit {z : Fin n → ℝ} (hz : z ≠ 0) : IsUnit3 (direction z) := by
  have h1 : direction z = divBy z (norm z) := by
    funext i
    simp [direction, divBy, norm, dotProduct, pow_two]
  rw [h1]
  exact unit_divBy hz

theorem randn_ne_zero : ∀ᵐ z ∂(Measure.pi fun _ : Fin 3 => randn), z ≠ 0 := by
  rw [pi_randn]
  have h : ∀ᵐ z : Fin 3 → ℝ, z ≠ 0 := by
    rw [ae_iff]
    simp
  exact (withDensity_absolutelyContinuous _ _).ae_le h

theorem randomRotationMatrix3_eq (u : ℝ) (z : Fin 3 → ℝ) : randomRotationMatrix3 u z = rotationMatrix3 u (direction z) := by
  have h := nsphereSurface_eq 1 fun _ => z
  simp only [List.range_one, List.map_cons, List.map_nil] at h
  unfold randomRotationMatrix3
  rw [h, getE_ok (by simp)]
  simp only [Py.bind_ok, List.getElem_cons_zero]
  congr 1
  funext i
  fin_cases i <;> simp

theorem measurable_product (axis0 : Fin 3 → ℝ) : Measurable fun p : ℝ × (Fin 3 → ℝ) => tilt axis0 p.2 * turn3 p.1 :=
  measurable_mul_matrix ((measurable_tilt axis0).comp measurable_snd) (measurable_turn3.comp measurable_fst)

theorem measurable_sphere_product (axis0 : Fin 3 → ℝ) : Measurable fun p : ℝ × (Fin 3 → ℝ) => tilt axis0 (direction p.2) * turn3 p.1 :=
  measurable_mul_matrix ((measurable_tilt axis0).comp (direction_measurable.comp measurable_snd)) (measurable_turn3.comp measurable_fst)

/-- The probability, given the point on the sphere. -/
noncomputable def given (axis0 : Fin 3 → ℝ) (B : Set (Matrix (Fin 3) (Fin 3) ℝ)) (w : Fin 3 → ℝ) : ENNReal := rand {u | tilt axis0 w * turn3 u ∈ B}

theorem given_measurable (axis0 : Fin 3 → ℝ) {B : Set (Matrix (Fin 3) (Fin 3) ℝ)} (hB : MeasurableSet B) : Measurable (given axis0 B) := by
  have := rand_prob
  exact measurable_measure_prodMk_right (measurable_product axis0 hB)

theorem product_law (axis0 : Fin 3 → ℝ) {B : Set (Matrix (Fin 3) (Fin 3) ℝ)} (hB : MeasurableSet B) (ν : Measure (Fin 3 → ℝ)) [SFinite ν] :
    (rand.prod ν).map (fun p => tilt axis0 (direction p.2) * turn3 p.1) B = ∫⁻ z, given axis0 B (direction z) ∂ν := by
  have := rand_prob
  rw [Measure.map_apply (measurable_sphere_product axis0) hB, Measure.prod_apply_symm (measurable_sphere_product axis0 hB)]
  rfl

theorem given_rotate {axis0 : Fin 3 → ℝ} (h : ∀ u v, v ≠ 0 → rotationMatrix3 u v = .ok (tilt axis0 v * turn3 u)) {Q : Matrix (Fin 3) (Fin 3) ℝ} (hQ : IsRotation Q)
    {B : Set (Matrix (Fin 3) (Fin 3) ℝ)} (hB : MeasurableSet B) {v : Fin 3 → ℝ} (hv : IsUnit3 v) : given axis0 {R | Q * R ∈ B} v = given axis0 B (Q *ᵥ v) := by
  obtain ⟨a, ha⟩ := tilt_rotate h hQ hv
  have h1 := rand_shift (S := {u | tilt axis0 (Q *ᵥ v) * turn3 u ∈ B})
    (measurable_mul_matrix measurable_const measurable_turn3 hB) (fun u => by simp only [Set.mem_ofPred_eq, turn3_one]) a
  unfold given
  rw [← h1]
  congr 1
  ext u
  simp only [Set.mem_ofPred_eq, ha]

theorem given_integral {axis0 : Fin 3 → ℝ} (h : ∀ u v, v ≠ 0 → rotationMatrix3 u v = .ok (tilt axis0 v * turn3 u)) {Q : Matrix (Fin 3) (Fin 3) ℝ} (hQ : IsRotation Q)
    {B : Set (Matrix (Fin 3) (Fin 3) ℝ)} (hB : MeasurableSet B) :
    ∫⁻ z, given axis0 {R | Q * R ∈ B} (direction z) ∂(Measure.pi fun _ : Fin 3 => randn) = ∫⁻ z, given axis0 B (direction z) ∂(Measure.pi fun _ : Fin 3 => randn) := by
  have hg := given_measurable axis0 hB
  have hQm := measurable_mulVec' Q
  have h1 : (fun z => given axis0 {R | Q * R ∈ B} (direction z)) =ᵐ[Measure.pi fun _ : Fin 3 => randn] fun z => given axis0 B (Q *ᵥ direction z) := by
    filter_upwards [randn_ne_zero] with z hz
    exact given_rotate h hQ hB (direction_unit hz)
  rw [lintegral_congr_ae h1]
  have h2 := lintegral_map (μ := (Measure.pi fun _ : Fin 3 => randn).map direction) hg hQm
  rw [sphere_law 3 Q hQ, lintegral_map hg direction_measurable, lintegral_map (f := fun a => given axis0 B (Q *ᵥ a)) (hg.comp hQm) direction_measurable] at h2
  exact h2.symm

/-- **C85** The matrices of `random_rotation_matrix_3` are, with probability one, uniformly distributed rotations. -/
theorem C85_three [IsProbabilityMeasure P] {U : Ω → ℝ} {Z : Ω → Fin 3 → ℝ} (hU : Measurable U) (hZ : Measurable Z) (hlawU : P.map U = rand)
    (hlawZ : P.map Z = Measure.pi fun _ => randn) (hind : IndepFun U Z P) :
    ∃ R : Ω → Matrix (Fin 3) (Fin 3) ℝ, Measurable R ∧ (∀ᵐ ω ∂P, randomRotationMatrix3 (U ω) (Z ω) = .ok (R ω)) ∧ IsUniformRotation (P.map R) := by
  have := rand_prob
  have := randn_prob
  obtain ⟨axis0, hA⟩ := exists_tilt
  have hZ0 : ∀ᵐ ω ∂P, Z ω ≠ 0 := by
    have h1 := randn_ne_zero
    rw [← hlawZ] at h1
    exact ae_of_ae_map hZ.aemeasurable h1
  have hR : Measurable fun ω => tilt axis0 (direction (Z ω)) * turn3 (U ω) :=
    measurable_mul_matrix ((measurable_tilt axis0).comp (direction_measurable.comp hZ)) (measurable_turn3.comp hU)
  have hlaw : P.map (fun ω => tilt axis0 (direction (Z ω)) * turn3 (U ω)) =
      (rand.prod (Measure.pi fun _ : Fin 3 => randn)).map fun p => tilt axis0 (direction p.2) * turn3 p.1 := by
    rw [← hlawU, ← hlawZ, ← (indepFun_iff_map_prod_eq_prod_map_map hU.aemeasurable hZ.aemeasurable).1 hind,
      Measure.map_map (measurable_sphere_product axis0) (hU.prodMk hZ)]
    rfl
  refine ⟨_, hR, ?_, Measure.isProbabilityMeasure_map hR.aemeasurable, ?_, fun Q hQ => ?_⟩
  · filter_upwards [hZ0] with ω hω
    rw [randomRotationMatrix3_eq, hA _ _ (direction_unit hω).ne_zero]
  · rw [ae_map_iff hR.aemeasurable measurableSet_rotation]
    filter_upwards [hZ0] with ω hω
    exact (tilt_spec hA (direction_unit hω)).1.mul (turn3_isRotation _)
  · have m1 : Measurable fun R : Matrix (Fin 3) (Fin 3) ℝ => Q * R := measurable_mul_matrix measurable_const measurable_id
    ext B hB
    rw [Measure.map_apply m1 hB, hlaw, product_law axis0 hB, product_law axis0 (m1 hB)]
    exact given_integral hA hQ hB

/-! ## Rigid motions -/

/-- The first `N` results of `np.random.rand(n)`, if `x` are the numbers of the generator. -/
def rowsOf (n N : ℕ) (x : ℕ → ℝ) : List (List ℝ) := (List.range N).map fun i => List.ofFn (Random.row n x i)

/-- The random translation exists and belongs to `C`. -/
def transEvent (n : ℕ) (radius : ℝ) (C : Set (Fin n → ℝ)) : Set (ℕ → ℝ) := {x | ∃ N t, randomTranslation n radius (rowsOf n N x) = some t ∧ t ∈ C}

theorem reject_one {α β : Type} (acc : α → Option β) (rs : List α) (q : List β × List α) (h : reject acc 1 rs = some q) : ∃ p, q.1 = [p] := by
  induction rs with
  | nil => cases h
  | cons r rs ih =>
    rw [reject] at h
    cases hr : acc r with
    | none =>
      rw [hr] at h
      exact ih h
    | some y =>
      rw [hr] at h
      have h0 : reject acc 0 rs = some ([], rs) := by cases rs <;> rfl
      simp only [h0, Option.map_some, Option.some.injEq] at h
      rw [← h]
      exact ⟨y, rfl⟩

theorem translation_good (n : ℕ) (radius : ℝ) (rs : List (Fin n → ℝ)) (C : Set (Fin n → ℝ)) :
    (∃ t, randomTranslation n radius (rs.map List.ofFn) = some t ∧ t ∈ C) ↔ Good accBall [{p : Fin n → ℝ | (fun i => p i * radius) ∈ C}] rs := by
  unfold randomTranslation Good
  rw [nsphere_eq]
  simp only [List.length_cons, List.length_nil, Nat.zero_add]
  cases h : reject accBall 1 rs with
  | none => simp
  | some q =>
    obtain ⟨ps, rest⟩ := q
    obtain ⟨p, hp⟩ := reject_one _ _ _ h
    simp only at hp
    subst hp
    simp only [Option.map_some, List.map_cons, List.map_nil, Option.some.injEq, exists_eq_left', Hits, List.forall₂_cons, List.Forall₂.nil, and_true, Set.mem_ofPred_eq]
    have : (fun i : Fin n => (List.ofFn p).getD (↑i) 0 * radius) = fun i => p i * radius := by
      funext i
      simp
    rw [this]

theorem transEvent_eq (n : ℕ) (radius : ℝ) (C : Set (Fin n → ℝ)) :
    transEvent n radius C = {x | ∃ N, Good accBall [{p : Fin n → ℝ | (fun i => p i * radius) ∈ C}] ((List.range N).map (Random.row n x))} := by
  unfold transEvent
  refine congrArg Set.ofPred (funext fun x => propext (exists_congr fun N => ?_))
  rw [← translation_good, List.map_map]
  rfl

theorem accepted_ball (B : Set (Fin n → ℝ)) : Accepted accBall B = (fun (r : Fin n → ℝ) i => r i * 2 - 1) ⁻¹' (B ∩ Ball n) := by
  ext r
  have e : ∑ i, (r i * 2 - 1) * (r i * 2 - 1) = ∑ i, (r i * 2 - 1) ^ 2 := by simp only [sq]
  simp only [Accepted, accBall, Set.mem_ofPred_eq, Set.mem_inter_iff, Set.mem_preimage, Ball, e]
  by_cases hx : ∑ i, (r i * 2 - 1) ^ 2 ≤ 1
  · rw [if_pos hx]
    exact ⟨by rintro ⟨y, hy, h⟩; obtain rfl := Option.some.inj h; exact ⟨hy, hx⟩, fun h => ⟨_, h.1, rfl⟩⟩
  · rw [if_neg hx]
    exact ⟨(by rintro ⟨y, -, h⟩; cases h), fun h => absurd h.2 hx⟩

theorem transEvent_measurable (n : ℕ) (radius : ℝ) {C : Set (Fin n → ℝ)} (hC : MeasurableSet C) : MeasurableSet (transEvent n radius C) := by
  have hacc : ∀ B : Set (Fin n → ℝ), MeasurableSet B → MeasurableSet (Accepted accBall B) := fun B hB => by
    rw [accepted_ball]
    exact (by fun_prop : Measurable fun (r : Fin n → ℝ) i => r i * 2 - 1) (hB.inter (measurable_ball n))
  have hscale : MeasurableSet {p : Fin n → ℝ | (fun i => p i * radius) ∈ C} := (by fun_prop : Measurable fun (p : Fin n → ℝ) i => p i * radius) hC
  have h1 : transEvent n radius C = ⋃ N, (fun (x : ℕ → ℝ) (i : Fin N) => Random.row n x i) ⁻¹' event accBall N [{p : Fin n → ℝ | (fun i => p i * radius) ∈ C}] := by
    rw [transEvent_eq]
    ext x
    simp only [Set.mem_ofPred_eq, Set.mem_iUnion, Set.mem_preimage, event, prefix_eq]
  rw [h1]
  refine MeasurableSet.iUnion fun N => ?_
  have hm : Measurable fun (x : ℕ → ℝ) (i : Fin N) => Random.row n x i :=
    measurable_pi_lambda _ fun i => measurable_pi_lambda _ fun j => measurable_pi_apply _
  exact hm (event_measurable N _ (hacc _ MeasurableSet.univ) fun B hB => by
    rw [List.mem_singleton] at hB
    subst hB
    exact hacc _ hscale)

theorem share_scale {radius : ℝ} (hr : 0 < radius) (C : Set (Fin n → ℝ)) :
    share (Ball n) {p : Fin n → ℝ | (fun i => p i * radius) ∈ C} = share {x : Fin n → ℝ | ∑ i, x i ^ 2 ≤ radius ^ 2} C := by
  have hpre : ∀ D : Set (Fin n → ℝ), volume.real {p : Fin n → ℝ | (fun i => p i * radius) ∈ D} = (radius ^ n)⁻¹ * volume.real D := fun D => by
    have h1 : {p : Fin n → ℝ | (fun i => p i * radius) ∈ D} = (radius • ·) ⁻¹' D := by
      ext p
      have : (fun i => p i * radius) = radius • p := by
        funext i
        simp [mul_comm]
      simp only [Set.mem_ofPred_eq, Set.mem_preimage, this]
    rw [h1, measureReal_def, Measure.addHaar_preimage_smul volume hr.ne', Module.finrank_fin_fun, ENNReal.toReal_mul, measureReal_def,
      ENNReal.toReal_ofReal (abs_nonneg _), abs_of_pos (by positivity)]
  have hball : Ball n = {p : Fin n → ℝ | (fun i => p i * radius) ∈ {x : Fin n → ℝ | ∑ i, x i ^ 2 ≤ radius ^ 2}} := by
    ext p
    simp only [Ball, Set.mem_ofPred_eq, mul_pow, ← Finset.sum_mul]
    have h2 : 0 < radius ^ 2 := by positivity
    rw [← le_div_iff₀ h2, div_self h2.ne']
  unfold share
  have hinter : {p : Fin n → ℝ | (fun i => p i * radius) ∈ C} ∩ Ball n = {p : Fin n → ℝ | (fun i => p i * radius) ∈ C ∩ {x : Fin n → ℝ | ∑ i, x i ^ 2 ≤ radius ^ 2}} := by
    rw [hball]
    rfl
  rw [hinter, hpre, hball, hpre, mul_div_mul_left _ _ (by positivity)]

theorem transEvent_law [IsProbabilityMeasure P] {X : ℕ → Ω → ℝ} (h : IsSource P X rand) {radius : ℝ} (hr : 0 < radius) {C : Set (Fin n → ℝ)} (hC : MeasurableSet C) :
    P.real {ω | (fun i => X i ω) ∈ transEvent n radius C} = share {x : Fin n → ℝ | ∑ i, x i ^ 2 ≤ radius ^ 2} C := by
  have hscale : MeasurableSet {p : Fin n → ℝ | (fun i => p i * radius) ∈ C} := (by fun_prop : Measurable fun (p : Fin n → ℝ) i => p i * radius) hC
  have h1 := C84_ball h n [{p : Fin n → ℝ | (fun i => p i * radius) ∈ C}] fun D hD => by
    rw [List.mem_singleton] at hD
    subst hD
    exact hscale
  simp only [List.map_cons, List.map_nil, List.prod_cons, List.prod_nil, mul_one, share_scale hr, List.length_cons, List.length_nil, Nat.zero_add] at h1
  rw [← h1]
  congr 1
  ext ω
  simp only [Set.mem_ofPred_eq, transEvent_eq, returns_map (nsphere_eq 1)]
  constructor
  · rintro ⟨N, q, h2, h3⟩
    refine ⟨_, ⟨q.1, rfl, N, q.2, h2⟩, ?_⟩
    rw [List.forall₂_map_left_iff]
    exact List.Forall₂.imp (fun a b hab => ⟨a, hab, rfl⟩) h3
  · rintro ⟨_, ⟨zs, rfl, N, rest, h2⟩, h3⟩
    refine ⟨N, (zs, rest), h2, ?_⟩
    rw [List.forall₂_map_left_iff] at h3
    exact h3.imp fun a b ⟨x, hx, he⟩ => by rwa [List.ofFn_injective he]

/-- **C85** `random_rigid_motion(radius, 3)`: the rotation is uniformly distributed, the translation is uniformly distributed in the ball with the radius, and they are independent. Here
`U` is the result of `np.random.rand()`, `Z` the row of `np.random.randn(1, 3)`, whose direction is the point on the sphere, and `X` are the numbers of the calls of `np.random.rand(3)`. -/
theorem C85_rigid_motion_3 [IsProbabilityMeasure P] {U : Ω → ℝ} {Z : Ω → Fin 3 → ℝ} {X : ℕ → Ω → ℝ} (hU : Measurable U) (hZ : Measurable Z) (hlawU : P.map U = rand)
    (hlawZ : P.map Z = Measure.pi fun _ => randn) (hind : IndepFun U Z P) (hX : IsSource P X rand) (hindX : IndepFun (fun ω => (U ω, Z ω)) (fun ω i => X i ω) P)
    {radius : ℝ} (hr : 0 < radius) {μ : Measure (Matrix (Fin 3) (Fin 3) ℝ)} (hμ : IsUniformRotation μ) {B : Set (Matrix (Fin 3) (Fin 3) ℝ)} (hB : MeasurableSet B)
    {C : Set (Fin 3 → ℝ)} (hC : MeasurableSet C) :
    P.real {ω | ∃ N R t, randomRigidMotion radius 3 (U ω) (direction (Z ω)) (rowsOf 3 N (X · ω)) = .ok (some (.three R t)) ∧ R ∈ B ∧ t ∈ C} =
      μ.real B * share {x : Fin 3 → ℝ | ∑ i, x i ^ 2 ≤ radius ^ 2} C := by
  obtain ⟨axis0, hA⟩ := exists_tilt
  obtain ⟨R, hR, hret, huni⟩ := C85_three hU hZ hlawU hlawZ hind
  have hZ0 : ∀ᵐ ω ∂P, Z ω ≠ 0 := by
    have h1 := randn_ne_zero
    rw [← hlawZ] at h1
    exact ae_of_ae_map hZ.aemeasurable h1
  have hRt : (fun ω => R ω) =ᵐ[P] fun ω => tilt axis0 (direction (Z ω)) * turn3 (U ω) := by
    filter_upwards [hZ0, hret] with ω hω h1
    rw [randomRotationMatrix3_eq, hA _ _ (direction_unit hω).ne_zero] at h1
    exact (Except.ok.inj h1).symm
  have hindR : IndepFun (fun ω => tilt axis0 (direction (Z ω)) * turn3 (U ω)) (fun ω i => X i ω) P := hindX.comp (measurable_sphere_product axis0) measurable_id
  have h1 : {ω | ∃ N R t, randomRigidMotion radius 3 (U ω) (direction (Z ω)) (rowsOf 3 N (X · ω)) = .ok (some (.three R t)) ∧ R ∈ B ∧ t ∈ C} =ᵐ[P]
      ((fun ω => tilt axis0 (direction (Z ω)) * turn3 (U ω)) ⁻¹' B ∩ (fun ω i => X i ω) ⁻¹' transEvent 3 radius C : Set Ω) := by
    filter_upwards [hZ0] with ω hω
    refine propext ?_
    have h2 : ∀ N, randomRigidMotion radius 3 (U ω) (direction (Z ω)) (rowsOf 3 N (X · ω)) =
        .ok ((randomTranslation 3 radius (rowsOf 3 N (X · ω))).map (.three (tilt axis0 (direction (Z ω)) * turn3 (U ω)))) := fun N => by
      unfold randomRigidMotion
      rw [if_pos rfl, hA _ _ (direction_unit hω).ne_zero]
      rfl
    show (∃ N R t, _) ↔ (_ ∈ B ∧ _ ∈ transEvent 3 radius C)
    simp only [h2, Except.ok.injEq, Option.map_eq_some_iff, RigidMotion.three.injEq, transEvent, Set.mem_ofPred_eq]
    constructor
    · rintro ⟨N, R, t, ⟨t', h3, rfl, rfl⟩, h4, h5⟩
      exact ⟨h4, N, t', h3, h5⟩
    · rintro ⟨h4, N, t, h3, h5⟩
      exact ⟨N, _, t, ⟨t, h3, rfl, rfl⟩, h4, h5⟩
  rw [measureReal_congr h1, measureReal_def, hindR.measure_inter_preimage_eq_mul _ _ hB (transEvent_measurable 3 radius hC), ENNReal.toReal_mul]
  congr 1
  · rw [C85_unique hμ huni, measureReal_def, Measure.map_apply hR hB]
    refine congrArg ENNReal.toReal (measure_congr ?_)
    filter_upwards [hRt] with ω hω
    exact propext (by show _ ∈ B ↔ R ω ∈ B; rw [hω])
  · exact transEvent_law hX hr hC

/-- **C85** `random_rigid_motion(radius, 2)`. -/
theorem C85_rigid_motion_2 [IsProbabilityMeasure P] {U : Ω → ℝ} {X : ℕ → Ω → ℝ} (hU : Measurable U) (hlawU : P.map U = rand) (hX : IsSource P X rand)
    (hindX : IndepFun U (fun ω i => X i ω) P) {radius : ℝ} (hr : 0 < radius) (v : Fin 3 → ℝ) {μ : Measure (Matrix (Fin 2) (Fin 2) ℝ)} (hμ : IsUniformRotation μ)
    {B : Set (Matrix (Fin 2) (Fin 2) ℝ)} (hB : MeasurableSet B) {C : Set (Fin 2 → ℝ)} (hC : MeasurableSet C) :
    P.real {ω | ∃ N R t, randomRigidMotion radius 2 (U ω) v (rowsOf 2 N (X · ω)) = .ok (some (.two R t)) ∧ R ∈ B ∧ t ∈ C} =
      μ.real B * share {x : Fin 2 → ℝ | ∑ i, x i ^ 2 ≤ radius ^ 2} C := by
  have huni := C85_two hU hlawU
  have hindR : IndepFun (fun ω => rotationMatrix2 (U ω)) (fun ω i => X i ω) P := hindX.comp measurable_rotationMatrix2 measurable_id
  have h1 : {ω | ∃ N R t, randomRigidMotion radius 2 (U ω) v (rowsOf 2 N (X · ω)) = .ok (some (.two R t)) ∧ R ∈ B ∧ t ∈ C} =
      ((fun ω => rotationMatrix2 (U ω)) ⁻¹' B ∩ (fun ω i => X i ω) ⁻¹' transEvent 2 radius C : Set Ω) := by
    ext ω
    have h2 : ∀ N, randomRigidMotion radius 2 (U ω) v (rowsOf 2 N (X · ω)) =
        .ok ((randomTranslation 2 radius (rowsOf 2 N (X · ω))).map (.two (rotationMatrix2 (U ω)))) := fun N => by
      unfold randomRigidMotion
      rw [if_neg (by omega), if_pos rfl]
      rfl
    simp only [h2, Except.ok.injEq, Option.map_eq_some_iff, RigidMotion.two.injEq, transEvent, Set.mem_ofPred_eq, Set.mem_inter_iff, Set.mem_preimage]
    constructor
    · rintro ⟨N, R, t, ⟨t', h3, rfl, rfl⟩, h4, h5⟩
      exact ⟨h4, N, t', h3, h5⟩
    · rintro ⟨h4, N, t, h3, h5⟩
      exact ⟨N, _, t, ⟨t, h3, rfl, rfl⟩, h4, h5⟩
  rw [h1, measureReal_def, hindR.measure_inter_preimage_eq_mul _ _ hB (transEvent_measurable 2 radius hC), ENNReal.toReal_mul]
  congr 1
  · rw [C85_unique hμ huni, measureReal_def, Measure.map_apply (f := fun ω => rotationMatrix2 (U ω)) (measurable_rotationMatrix2.comp hU) hB]
  · exact transEvent_law hX hr hC

/-- Independent random numbers as in C85 exist. -/
example : ∃ (Ω : Type) (_ : MeasurableSpace Ω) (P : Measure Ω) (_ : IsProbabilityMeasure P) (U : Ω → ℝ) (Z : Ω → Fin 3 → ℝ) (X : ℕ → Ω → ℝ), Measurable U ∧ Measurable Z ∧
    P.map U = rand ∧ P.map Z = (Measure.pi fun _ => randn) ∧ IndepFun U Z P ∧ IsSource P X rand ∧ IndepFun (fun ω => (U ω, Z ω)) (fun ω i => X i ω) P := by
  have := rand_prob
  have := randn_prob
  set ν : Measure (ℝ × (Fin 3 → ℝ)) := rand.prod (Measure.pi fun _ => randn)
  set ξ : Measure (ℕ → ℝ) := Measure.infinitePi fun _ => rand
  have hfst : (ν.prod ξ).map Prod.fst = ν := by simp
  have hsnd : (ν.prod ξ).map Prod.snd = ξ := by simp
  have hs := exists_source rand
  refine ⟨(ℝ × (Fin 3 → ℝ)) × (ℕ → ℝ), inferInstance, ν.prod ξ, inferInstance, fun p => p.1.1, fun p => p.1.2, fun i p => p.2 i, by fun_prop, by fun_prop, ?_, ?_, ?_, ⟨fun i => by fun_prop, ?_, fun i => ?_⟩, ?_⟩
  · have h1 : (ν.prod ξ).map (fun p => p.1.1) = ((ν.prod ξ).map Prod.fst).map Prod.fst := by
      rw [Measure.map_map measurable_fst measurable_fst]
      rfl
    rw [h1, hfst]
    simp [ν]
  · have h1 : (ν.prod ξ).map (fun p => p.1.2) = ((ν.prod ξ).map Prod.fst).map Prod.snd := by
      rw [Measure.map_map measurable_snd measurable_fst]
      rfl
    rw [h1, hfst]
    simp [ν]
  · rw [indepFun_iff_map_prod_eq_prod_map_map (by fun_prop) (by fun_prop)]
    have h1 : (ν.prod ξ).map (fun p => p.1.1) = ((ν.prod ξ).map Prod.fst).map Prod.fst := by
      rw [Measure.map_map measurable_fst measurable_fst]
      rfl
    have h2 : (ν.prod ξ).map (fun p => p.1.2) = ((ν.prod ξ).map Prod.fst).map Prod.snd := by
      rw [Measure.map_map measurable_snd measurable_fst]
      rfl
    rw [h1, h2]
    simp only [Prod.mk.eta, hfst]
    simp [ν]
  · rw [iIndepFun_iff_map_fun_eq_infinitePi_map (fun i => by fun_prop)]
    have h1 : (ν.prod ξ).map (fun p i => p.2 i) = ξ := hsnd
    rw [h1]
    have h2 : ∀ i : ℕ, (ν.prod ξ).map (fun p => p.2 i) = rand := fun i => by
      have h3 : (ν.prod ξ).map (fun p => p.2 i) = ((ν.prod ξ).map Prod.snd).map fun x => x i := by
        rw [Measure.map_map (measurable_pi_apply i) measurable_snd]
        rfl
      rw [h3, hsnd]
      exact hs.law i
    simp only [h2]
    rfl
  · have h3 : (ν.prod ξ).map (fun p => p.2 i) = ((ν.prod ξ).map Prod.snd).map fun x => x i := by
      rw [Measure.map_map (measurable_pi_apply i) measurable_snd]
      rfl
    rw [h3, hsnd]
    exact hs.law i
  · exact indepFun_prod measurable_id measurable_id

/-- The uniform distribution on rotations exists in dimension two and three. -/
example : (∃ μ : Measure (Matrix (Fin 2) (Fin 2) ℝ), IsUniformRotation μ) ∧ ∃ μ : Measure (Matrix (Fin 3) (Fin 3) ℝ), IsUniformRotation μ := by
  have := rand_prob
  have := randn_prob
  refine ⟨⟨_, C85_two (P := rand) (U := id) measurable_id (by simp)⟩, ?_⟩
  obtain ⟨R, -, -, h⟩ := C85_three (P := rand.prod (Measure.pi fun _ : Fin 3 => randn)) (U := Prod.fst) (Z := Prod.snd) measurable_fst measurable_snd (by simp) (by simp)
    (indepFun_prod measurable_id measurable_id)
  exact ⟨_, h⟩

end Verif.Linalg
