import Verif.Spec.Random
import Mathlib.MeasureTheory.Integral.Pi
import Mathlib.MeasureTheory.Integral.Layercake
import Mathlib.MeasureTheory.Measure.Lebesgue.EqHaar
/-!
# The direction of a Gaussian vector

The probability that a vector of independent standard normal numbers belongs to a cone is the share of the cone in the volume of the unit ball.
-/

namespace Verif.Random
open MeasureTheory ProbabilityTheory

variable {n : ℕ}

/-- The density of a vector of standard normal numbers. -/
noncomputable def density (x : Fin n → ℝ) : ℝ := ∏ i, gaussianPDFReal 0 1 (x i)

theorem randn_prob : IsProbabilityMeasure randn := by
  unfold randn
  infer_instance

theorem pi_randn (n : ℕ) : (Measure.pi fun _ : Fin n => randn) = volume.withDensity fun x => ENNReal.ofReal (density x) := by
  have := randn_prob
  refine Measure.pi_eq fun s hs => ?_
  have hint : ∀ i, Integrable (fun x : ℝ => gaussianPDFReal 0 1 x) (volume.restrict (s i)) := fun i => (integrable_gaussianPDFReal 0 1).restrict
  have h1 : (volume : Measure (Fin n → ℝ)).restrict (Set.univ.pi s) = Measure.pi fun i => (volume : Measure ℝ).restrict (s i) := by
    rw [volume_pi, Measure.restrict_pi_pi]
  rw [withDensity_apply _ (MeasurableSet.univ_pi hs), h1, ← ofReal_integral_eq_lintegral_ofReal]
  · have h2 := integral_fintype_prod_eq_prod (𝕜 := ℝ) (μ := fun i => (volume : Measure ℝ).restrict (s i)) fun (_ : Fin n) (x : ℝ) => gaussianPDFReal 0 1 x
    unfold density
    rw [h2, ENNReal.ofReal_prod_of_nonneg fun i _ => integral_nonneg fun x => gaussianPDFReal_nonneg _ _ _]
    refine Finset.prod_congr rfl fun i _ => ?_
    rw [randn, gaussianReal_apply_eq_integral 0 one_ne_zero]
  · exact Integrable.fintype_prod_dep hint
  · exact Filter.Eventually.of_forall fun x => Finset.prod_nonneg fun i _ => gaussianPDFReal_nonneg _ _ _

theorem density_eq (x : Fin n → ℝ) : density x = (√(2 * Real.pi))⁻¹ ^ n * Real.exp (-(∑ i, x i ^ 2) / 2) := by
  unfold density gaussianPDFReal
  rw [Finset.prod_mul_distrib, Finset.prod_const, ← Real.exp_sum, Finset.card_univ, Fintype.card_fin]
  simp [neg_div, Finset.sum_div]

/-- A cone: with a vector, all its positive multiples. -/
def IsCone (C : Set (Fin n → ℝ)) : Prop := ∀ c : ℝ, 0 < c → ∀ x, c • x ∈ C ↔ x ∈ C

theorem sector_scale {C : Set (Fin n → ℝ)} (hC : IsCone C) {ρ : ℝ} (hρ : 0 < ρ) :
    volume ({x : Fin n → ℝ | ∑ i, x i ^ 2 < ρ ^ 2} ∩ C) = ENNReal.ofReal (ρ ^ n) * volume ({x : Fin n → ℝ | ∑ i, x i ^ 2 < 1} ∩ C) := by
  have h1 : {x : Fin n → ℝ | ∑ i, x i ^ 2 < ρ ^ 2} ∩ C = (ρ⁻¹ • ·) ⁻¹' ({x : Fin n → ℝ | ∑ i, x i ^ 2 < 1} ∩ C) := by
    ext x
    simp only [Set.mem_inter_iff, Set.mem_ofPred_eq, Set.mem_preimage, hC ρ⁻¹ (inv_pos.2 hρ), Pi.smul_apply, smul_eq_mul, mul_pow, ← Finset.mul_sum]
    rw [inv_pow, inv_mul_lt_iff₀ (by positivity), mul_one]
  rw [h1, Measure.addHaar_preimage_smul volume (inv_ne_zero hρ.ne'), Module.finrank_fin_fun, inv_pow, inv_inv, abs_of_pos (by positivity)]

theorem gaussian_cone {C : Set (Fin n → ℝ)} (hC : IsCone C) (hm : MeasurableSet C) :
    (Measure.pi fun _ : Fin n => randn) C =
      (∫⁻ t in Set.Ioi (0 : ℝ), if t < (√(2 * Real.pi))⁻¹ ^ n then ENNReal.ofReal ((√(-2 * Real.log (t / (√(2 * Real.pi))⁻¹ ^ n))) ^ n) else 0) *
        volume ({x : Fin n → ℝ | ∑ i, x i ^ 2 < 1} ∩ C) := by
  have hc : 0 < (√(2 * Real.pi))⁻¹ ^ n := by positivity
  set c := (√(2 * Real.pi))⁻¹ ^ n
  have hmeas : Measurable (density : (Fin n → ℝ) → ℝ) := by
    have : (density : (Fin n → ℝ) → ℝ) = fun x => c * Real.exp (-(∑ i, x i ^ 2) / 2) := funext density_eq
    rw [this]
    fun_prop
  have hfin : volume ({x : Fin n → ℝ | ∑ i, x i ^ 2 < 1} ∩ C) ≠ ⊤ := by
    have h2 : {x : Fin n → ℝ | ∑ i, x i ^ 2 < 1} ∩ C ⊆ Metric.closedBall 0 1 := fun x hx => by
      rw [Metric.mem_closedBall, dist_pi_le_iff (by norm_num)]
      intro i
      rw [Real.dist_eq, Pi.zero_apply, sub_zero, ← abs_one, ← sq_le_sq, one_pow]
      exact (Finset.single_le_sum (f := fun i => x i ^ 2) (fun i _ => sq_nonneg _) (Finset.mem_univ i)).trans hx.1.le
    exact (lt_of_le_of_lt (measure_mono h2) measure_closedBall_lt_top).ne
  rw [pi_randn, withDensity_apply _ hm, lintegral_eq_lintegral_meas_lt (f := density) _ (Filter.Eventually.of_forall fun x => Finset.prod_nonneg fun i _ => gaussianPDFReal_nonneg _ _ _)
    hmeas.aemeasurable, ← lintegral_mul_const' _ _ hfin]
  refine setLIntegral_congr_fun measurableSet_Ioi fun t ht => ?_
  have ht : 0 < t := ht
  rw [Measure.restrict_apply (measurableSet_lt measurable_const hmeas)]
  split
  · rename_i hlt
    have hlog : Real.log (t / c) < 0 := Real.log_neg (by positivity) ((div_lt_one hc).2 hlt)
    have hρ : 0 < √(-2 * Real.log (t / c)) := Real.sqrt_pos.2 (by linarith)
    rw [← sector_scale hC hρ, Real.sq_sqrt (by linarith)]
    congr 2
    ext x
    simp only [Set.mem_ofPred_eq, density_eq]
    rw [← div_lt_iff₀' hc, ← Real.log_lt_iff_lt_exp (by positivity)]
    constructor <;> intro h <;> linarith
  · rename_i hlt
    have : {a : Fin n → ℝ | t < density a} = ∅ := by
      ext x
      simp only [Set.mem_ofPred_eq, Set.mem_empty_iff_false, iff_false, not_lt, density_eq]
      have h1 : Real.exp (-(∑ i, x i ^ 2) / 2) ≤ 1 := by
        rw [Real.exp_le_one_iff]
        have := Finset.sum_nonneg fun i (_ : i ∈ Finset.univ) => sq_nonneg (x i)
        linarith
      calc c * Real.exp (-(∑ i, x i ^ 2) / 2) ≤ c * 1 := by gcongr
        _ ≤ t := by rw [mul_one]; exact not_lt.1 hlt
    rw [this, Set.empty_inter, measure_empty, zero_mul]

/-- The probability of a cone. -/
theorem gaussian_cone_share {C : Set (Fin n → ℝ)} (hC : IsCone C) (hm : MeasurableSet C) :
    (Measure.pi fun _ : Fin n => randn).real C = share {x : Fin n → ℝ | ∑ i, x i ^ 2 < 1} C := by
  have := randn_prob
  have h1 := gaussian_cone (n := n) (C := Set.univ) (fun _ _ _ => by simp) MeasurableSet.univ
  rw [measure_univ, Set.inter_univ] at h1
  have h2 := gaussian_cone hC hm
  set K := ∫⁻ t in Set.Ioi (0 : ℝ), if t < (√(2 * Real.pi))⁻¹ ^ n then ENNReal.ofReal ((√(-2 * Real.log (t / (√(2 * Real.pi))⁻¹ ^ n))) ^ n) else 0
  have h3 := congrArg ENNReal.toReal h1
  have h4 := congrArg ENNReal.toReal h2
  rw [ENNReal.toReal_one, ENNReal.toReal_mul] at h3
  rw [ENNReal.toReal_mul] at h4
  rw [share, Set.inter_comm C, measureReal_def, measureReal_def, measureReal_def, h4]
  have h5 : (volume {x : Fin n → ℝ | ∑ i, x i ^ 2 < 1}).toReal ≠ 0 := fun h => by
    rw [h, mul_zero] at h3
    exact one_ne_zero h3
  rw [eq_div_iff h5]
  linear_combination -(volume ({x : Fin n → ℝ | ∑ i, x i ^ 2 < 1} ∩ C)).toReal * h3

end Verif.Random
