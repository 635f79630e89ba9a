import Mathlib.MeasureTheory.Constructions.Pi
import Mathlib.MeasureTheory.Integral.Prod
import Mathlib.MeasureTheory.Integral.IntervalIntegral.IntegrationByParts
import Mathlib.Analysis.SpecialFunctions.Integrals.Basic
import Mathlib.MeasureTheory.Measure.Lebesgue.Basic
import Verif.Spec.Integration
/-!
# The integral of a monomial over the unit simplex
-/

namespace Verif.Integration
open MeasureTheory Set

/-- The scaled simplex. -/
def T (n : ℕ) (s : ℝ) : Set (Fin n → ℝ) := {x | (∀ i, 0 ≤ x i) ∧ ∑ i, x i ≤ s}

theorem T_one (n : ℕ) : T n 1 = Spec.unitSimplex n := rfl

theorem isClosed_T (n : ℕ) (s : ℝ) : IsClosed (T n s) := by
  have : T n s = (⋂ i, {x | 0 ≤ x i}) ∩ {x | ∑ i, x i ≤ s} := by
    ext x; simp [T]
  rw [this]
  refine IsClosed.inter (isClosed_iInter fun i => isClosed_le continuous_const (continuous_apply i)) ?_
  exact isClosed_le (continuous_finsetSum _ fun i _ => continuous_apply i) continuous_const

theorem isCompact_T (n : ℕ) (s : ℝ) : IsCompact (T n s) := by
  refine (isCompact_Icc (a := (0 : Fin n → ℝ)) (b := fun _ => s)).of_isClosed_subset (isClosed_T n s) ?_
  rintro x ⟨h0, h1⟩
  refine ⟨fun i => h0 i, fun i => ?_⟩
  exact (Finset.single_le_sum (fun j _ => h0 j) (Finset.mem_univ i)).trans h1

theorem integrableOn_T {E : Type*} [NormedAddCommGroup E] (n : ℕ) (s : ℝ) (f : (Fin n → ℝ) → E) (hf : Continuous f) :
    IntegrableOn f (T n s) := hf.continuousOn.integrableOn_compact (isCompact_T n s)

/-- The beta integral. -/
theorem beta (s : ℝ) : ∀ b a : ℕ, ∫ t in (0 : ℝ)..s, t ^ a * (s - t) ^ b =
    s ^ (a + b + 1) * (a.factorial * b.factorial / (a + b + 1).factorial) := by
  intro b
  induction b with
  | zero =>
    intro a
    simp only [pow_zero, mul_one, integral_pow, Nat.factorial_zero, Nat.cast_one, Nat.add_zero, Nat.factorial_succ]
    have : (a.factorial : ℝ) ≠ 0 := Nat.cast_ne_zero.2 (Nat.factorial_ne_zero a)
    have h2 : (a : ℝ) + 1 ≠ 0 := by positivity
    push_cast
    field_simp
    simp
  | succ b ih =>
    intro a
    have h2 : (a : ℝ) + 1 ≠ 0 := by positivity
    have hu : ∀ x ∈ uIcc (0 : ℝ) s, HasDerivAt (fun t => (s - t) ^ (b + 1)) (-((b + 1 : ℕ) : ℝ) * (s - x) ^ b) x := by
      intro x _
      have := ((hasDerivAt_id x).const_sub s).pow (b + 1)
      refine this.congr_deriv ?_
      simp
      ring
    have hv : ∀ x ∈ uIcc (0 : ℝ) s, HasDerivAt (fun t => t ^ (a + 1) / ((a : ℝ) + 1)) (x ^ a) x := by
      intro x _
      have := ((hasDerivAt_id x).pow (a + 1)).div_const ((a : ℝ) + 1)
      refine this.congr_deriv ?_
      simp
      field_simp
    have key := intervalIntegral.integral_mul_deriv_eq_deriv_mul hu hv
      (Continuous.intervalIntegrable (by fun_prop) _ _) (Continuous.intervalIntegrable (by fun_prop) _ _)
    have e1 : ∫ t in (0 : ℝ)..s, t ^ a * (s - t) ^ (b + 1) = ∫ x in (0 : ℝ)..s, (s - x) ^ (b + 1) * x ^ a :=
      intervalIntegral.integral_congr (fun x _ => mul_comm _ _)
    rw [e1, key]
    have e2 : ∫ x in (0 : ℝ)..s, -((b + 1 : ℕ) : ℝ) * (s - x) ^ b * (x ^ (a + 1) / ((a : ℝ) + 1)) =
        (-((b + 1 : ℕ) : ℝ) / ((a : ℝ) + 1)) * ∫ x in (0 : ℝ)..s, x ^ (a + 1) * (s - x) ^ b := by
      rw [← intervalIntegral.integral_const_mul]
      refine intervalIntegral.integral_congr (fun x _ => ?_)
      ring
    rw [e2, ih (a + 1)]
    simp only [sub_self, ne_eq, Nat.add_eq_zero_iff, one_ne_zero, and_false, not_false_eq_true, zero_pow, zero_mul, zero_div,
      mul_zero, zero_sub]
    rw [show a + 1 + b + 1 = a + (b + 1) + 1 by omega, Nat.factorial_succ a, Nat.factorial_succ b]
    have h3 : ((a + (b + 1) + 1).factorial : ℝ) ≠ 0 := Nat.cast_ne_zero.2 (Nat.factorial_ne_zero _)
    push_cast
    field_simp

/-- Slices of the simplex. -/
theorem mem_T_cons (n : ℕ) (s t : ℝ) (y : Fin n → ℝ) :
    (Fin.cons t y : Fin (n + 1) → ℝ) ∈ T (n + 1) s ↔ 0 ≤ t ∧ y ∈ T n (s - t) := by
  simp only [T, mem_setOf_eq, Fin.sum_univ_succ, Fin.cons_zero, Fin.cons_succ, Fin.forall_fin_succ]
  constructor
  · rintro ⟨⟨h0, h1⟩, h2⟩; exact ⟨h0, h1, by linarith⟩
  · rintro ⟨h0, h1, h2⟩; exact ⟨⟨h0, h1⟩, by linarith⟩

theorem T_empty (n : ℕ) (s : ℝ) (hs : s < 0) : T n s = ∅ := by
  ext x
  simp only [T, mem_setOf_eq, mem_empty_iff_false, iff_false, not_and, not_le]
  intro h
  exact hs.trans_le (Finset.sum_nonneg fun i _ => h i)

/-- Iterated integral over the slices. -/
theorem integral_T_succ (n : ℕ) (s : ℝ) (hs : 0 ≤ s) (f : (Fin (n + 1) → ℝ) → ℝ) (hf : Continuous f) :
    ∫ x in T (n + 1) s, f x = ∫ t in (0 : ℝ)..s, ∫ y in T n (s - t), f (Fin.cons t y) := by
  have hm : MeasurableSet (T (n + 1) s) := (isClosed_T _ _).measurableSet
  rw [← integral_indicator hm]
  have mp := (volume_preserving_piFinSuccAbove (fun _ : Fin (n + 1) => ℝ) 0).symm
  rw [← mp.integral_comp']
  have hint : Integrable (indicator (T (n + 1) s) f) := (integrable_indicator_iff hm).2 (integrableOn_T _ _ f hf)
  have hint2 := (mp.integrable_comp_emb (MeasurableEquiv.measurableEmbedding _)).2 hint
  have e : ∀ z : ℝ × (Fin n → ℝ), (MeasurableEquiv.piFinSuccAbove (fun _ : Fin (n + 1) => ℝ) 0).symm z = Fin.cons z.1 z.2 := by
    intro z
    simp [MeasurableEquiv.piFinSuccAbove, Fin.insertNthEquiv]
  rw [Measure.volume_eq_prod, integral_prod _ (by rw [← Measure.volume_eq_prod]; exact hint2)]
  simp only [e]
  rw [intervalIntegral.integral_of_le hs, ← integral_Icc_eq_integral_Ioc, ← integral_indicator measurableSet_Icc]
  refine integral_congr_ae (Filter.Eventually.of_forall fun t => ?_)
  simp only
  by_cases ht : t ∈ Icc (0 : ℝ) s
  · rw [indicator_of_mem ht, ← integral_indicator (isClosed_T n (s - t)).measurableSet]
    refine integral_congr_ae (Filter.Eventually.of_forall fun y => ?_)
    simp only [indicator]
    by_cases hy : y ∈ T n (s - t)
    · rw [if_pos hy, if_pos ((mem_T_cons n s t y).2 ⟨ht.1, hy⟩)]
    · rw [if_neg hy, if_neg (fun h => hy ((mem_T_cons n s t y).1 h).2)]
  · rw [indicator_of_notMem ht]
    have : ∀ y : Fin n → ℝ, (Fin.cons t y : Fin (n + 1) → ℝ) ∉ T (n + 1) s := by
      intro y h
      obtain ⟨h0, h1⟩ := (mem_T_cons n s t y).1 h
      by_cases hst : s < t
      · rw [T_empty n (s - t) (by linarith)] at h1; exact h1
      · exact ht ⟨h0, not_lt.1 hst⟩
    simp only [indicator, if_neg (this _), integral_zero]

/-- The integral of `x^ν (s - Σ x)^b` over the scaled simplex. -/
theorem integral_T_bary (n : ℕ) (b : ℕ) : ∀ (s : ℝ), 0 ≤ s → ∀ ν : Fin n → ℕ,
    ∫ x in T n s, (∏ i, x i ^ ν i) * (s - ∑ i, x i) ^ b =
    s ^ (∑ i, ν i + b + n) * ((∏ i, (ν i).factorial : ℕ) * b.factorial / ((∑ i, ν i + b + n).factorial : ℝ)) := by
  induction n with
  | zero =>
    intro s hs ν
    have : T 0 s = univ := by ext x; simp [T, hs]
    have hv : (volume : Measure (Fin 0 → ℝ)) univ = 1 := by
      rw [volume_pi, Measure.pi_univ]; simp
    have hb : (b.factorial : ℝ) ≠ 0 := Nat.cast_ne_zero.2 (Nat.factorial_ne_zero _)
    simp [this, Measure.real, hv, hb]
  | succ n ih =>
    intro s hs ν
    rw [integral_T_succ n s hs _ (by fun_prop)]
    have h1 : ∫ t in (0 : ℝ)..s, ∫ y in T n (s - t), (∏ i, (Fin.cons t y : Fin (n + 1) → ℝ) i ^ ν i) *
          (s - ∑ i, (Fin.cons t y : Fin (n + 1) → ℝ) i) ^ b =
        ∫ t in (0 : ℝ)..s, ((∏ i : Fin n, (ν i.succ).factorial : ℕ) * b.factorial /
            ((∑ i : Fin n, ν i.succ + b + n).factorial : ℝ)) * (t ^ ν 0 * (s - t) ^ (∑ i : Fin n, ν i.succ + b + n)) := by
      refine intervalIntegral.integral_congr (fun t ht => ?_)
      rw [uIcc_of_le hs] at ht
      simp only [Fin.prod_univ_succ, Fin.sum_univ_succ, Fin.cons_zero, Fin.cons_succ]
      have e : ∀ y : Fin n → ℝ, t ^ ν 0 * (∏ i : Fin n, y i ^ ν i.succ) * (s - (t + ∑ i, y i)) ^ b =
          t ^ ν 0 * ((∏ i : Fin n, y i ^ ν i.succ) * (s - t - ∑ i, y i) ^ b) := by
        intro y; rw [mul_assoc, sub_add_eq_sub_sub]
      simp only [e]
      rw [integral_const_mul, ih (s - t) (by linarith [ht.2]) (fun i => ν i.succ)]
      ring
    rw [h1, intervalIntegral.integral_const_mul, beta]
    rw [Fin.sum_univ_succ, Fin.prod_univ_succ]
    have h3 : ((∑ i : Fin n, ν i.succ + b + n).factorial : ℝ) ≠ 0 := Nat.cast_ne_zero.2 (Nat.factorial_ne_zero _)
    rw [show ν 0 + (∑ i : Fin n, ν i.succ + b + n) + 1 = ν 0 + ∑ i : Fin n, ν i.succ + b + (n + 1) by omega]
    push_cast
    field_simp

/-- The integral of a monomial over the unit simplex. -/
theorem integral_unit_monomial {n : ℕ} (ν : Fin n → ℕ) : ∫ x in Spec.unitSimplex n, ∏ i, x i ^ ν i =
    (∏ i, (ν i).factorial : ℕ) / ((∑ i, ν i + n).factorial : ℝ) := by
  have := integral_T_bary n 0 1 zero_le_one ν
  simpa [T_one] using this

end Verif.Integration
