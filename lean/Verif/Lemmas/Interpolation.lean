import Verif.Lemmas.FiniteDifferenceOrder
import Mathlib.Analysis.Calculus.LocalExtr.Rolle
import Mathlib.Analysis.Calculus.Deriv.Polynomial
import Mathlib.Algebra.Polynomial.BigOperators
/-!
# The error of polynomial interpolation in one variable
-/

namespace Verif.Interpolation
open Set Polynomial

/-- Rolle's theorem applied `N` times: if a function has `N + 1` zeros, then its derivative of order `N` has a zero between them. -/
theorem rolle_iterated (N : ℕ) : ∀ (D : ℕ → ℝ → ℝ) (a b : ℝ) (z : Fin (N + 1) → ℝ), StrictMono z → (∀ i, z i ∈ Icc a b) →
    (∀ k < N, ∀ t ∈ Icc a b, HasDerivAt (D k) (D (k + 1) t) t) → (∀ i, D 0 (z i) = 0) → ∃ ξ ∈ Icc a b, D N ξ = 0 := by
  induction N with
  | zero => exact fun D a b z _ hz _ h0 => ⟨z 0, hz 0, h0 0⟩
  | succ N ih =>
    intro D a b z hm hz hD h0
    have key : ∀ i : Fin (N + 1), ∃ c ∈ Ioo (z i.castSucc) (z i.succ), D 1 c = 0 := by
      intro i
      have hlt : z i.castSucc < z i.succ := hm (Fin.castSucc_lt_succ)
      have hsub : Icc (z i.castSucc) (z i.succ) ⊆ Icc a b := Icc_subset_Icc (hz _).1 (hz _).2
      exact exists_hasDerivAt_eq_zero hlt (fun t ht => (hD 0 (Nat.succ_pos _) t (hsub ht)).continuousAt.continuousWithinAt) (by rw [h0, h0])
        (fun t ht => hD 0 (Nat.succ_pos _) t (hsub (Ioo_subset_Icc_self ht)))
    choose w hw h1 using key
    have hwm : StrictMono w := by
      rw [Fin.strictMono_iff_lt_succ]
      intro i
      exact (hw i.castSucc).2.trans_le ((hm.monotone (by rw [Fin.le_def]; simp)).trans (hw i.succ).1.le)
    exact ih (fun k => D (k + 1)) a b w hwm (fun i => ⟨(hz _).1.trans (hw i).1.le, (hw i).2.le.trans (hz _).2⟩)
      (fun k hk t ht => hD (k + 1) (Nat.succ_lt_succ hk) t ht) h1

/-- The error of the interpolation of a smooth function in the points `y 0, …, y r` by a polynomial of degree `r`. -/
theorem error_formula (r : ℕ) (D : ℕ → ℝ → ℝ) (a b : ℝ) (y : Fin (r + 1) → ℝ) (hy : Function.Injective y) (hyab : ∀ i, y i ∈ Icc a b)
    (hD : ∀ k ≤ r, ∀ t ∈ Icc a b, HasDerivAt (D k) (D (k + 1) t) t) (Q : ℝ[X]) (hQ : Q.natDegree ≤ r) (hint : ∀ i, Q.eval (y i) = D 0 (y i)) (x : ℝ)
    (hx : x ∈ Icc a b) : ∃ ξ ∈ Icc a b, D 0 x - Q.eval x = D (r + 1) ξ / ((r + 1).factorial : ℝ) * ∏ i, (x - y i) := by
  by_cases hxy : ∃ i, x = y i
  · obtain ⟨i, rfl⟩ := hxy
    exact ⟨y i, hyab i, by rw [hint, sub_self, Finset.prod_eq_zero (Finset.mem_univ i) (sub_self _), mul_zero]⟩
  push Not at hxy
  set ω : ℝ[X] := ∏ i, (X - C (y i)) with hω
  have hωe : ∀ t, ω.eval t = ∏ i, (t - y i) := fun t => by rw [hω, eval_prod]; simp
  have hω0 : ω.eval x ≠ 0 := by rw [hωe]; exact Finset.prod_ne_zero_iff.2 (fun i _ => sub_ne_zero.2 (hxy i))
  set κ := (D 0 x - Q.eval x) / ω.eval x with hκ
  have hmonic : ω.Monic := monic_prod_of_monic _ _ (fun i _ => monic_X_sub_C (y i))
  have hdeg : ω.natDegree = r + 1 := by rw [hω, natDegree_prod_of_monic _ _ (fun i _ => monic_X_sub_C (y i))]; simp
  set P : ℝ[X] := Q + C κ * ω with hP
  have hder : ∀ k ≤ r, ∀ t ∈ Icc a b, HasDerivAt (fun s => D k s - (derivative^[k] P).eval s) (D (k + 1) t - (derivative^[k + 1] P).eval t) t := by
    intro k hk t ht
    rw [Function.iterate_succ_apply']
    exact FinDiff.hda ((hD k hk t ht).sub ((derivative^[k] P).hasDerivAt t)) (fun _ => rfl) rfl
  -- the zeros
  have hcard : (Finset.univ.image (Fin.cons x y : Fin (r + 2) → ℝ)).card = r + 2 := by
    rw [Finset.card_image_of_injective _ (Fin.cons_injective_iff.2 ⟨fun ⟨i, hi⟩ => hxy i hi.symm, hy⟩)]
    simp
  have hzero : ∀ t ∈ Finset.univ.image (Fin.cons x y : Fin (r + 2) → ℝ), t ∈ Icc a b ∧ D 0 t - P.eval t = 0 := by
    intro t ht
    obtain ⟨i, -, rfl⟩ := Finset.mem_image.1 ht
    refine Fin.cases ?_ (fun i => ?_) i
    · refine ⟨hx, ?_⟩
      rw [Fin.cons_zero, hP, eval_add, eval_mul, eval_C, hκ, div_mul_cancel₀ _ hω0]
      ring
    · refine ⟨hyab i, ?_⟩
      rw [Fin.cons_succ, hP, eval_add, eval_mul, hωe, Finset.prod_eq_zero (Finset.mem_univ i) (sub_self _), hint]
      ring
  obtain ⟨ξ, hξ, h0⟩ := rolle_iterated (r + 1) (fun k s => D k s - (derivative^[k] P).eval s) a b
    ((Finset.univ.image (Fin.cons x y : Fin (r + 2) → ℝ)).orderEmbOfFin hcard) (OrderEmbedding.strictMono _)
    (fun i => (hzero _ (Finset.orderEmbOfFin_mem _ hcard i)).1) (fun k hk => hder k (Nat.lt_succ_iff.1 hk))
    (fun i => (hzero _ (Finset.orderEmbOfFin_mem _ hcard i)).2)
  refine ⟨ξ, hξ, ?_⟩
  have hPd : (derivative^[r + 1] P).eval ξ = κ * ((r + 1).factorial : ℝ) := by
    have hω' : derivative^[r + 1] ω = C ((r + 1).factorial : ℝ) := by
      have h2 : (derivative^[r + 1] ω).natDegree ≤ 0 := (natDegree_iterate_derivative ω (r + 1)).trans (by rw [hdeg]; simp)
      rw [eq_C_of_natDegree_le_zero h2, coeff_iterate_derivative, zero_add, Nat.descFactorial_self]
      have : ω.coeff (r + 1) = 1 := by rw [← hdeg]; exact hmonic
      rw [this, nsmul_eq_mul, mul_one]
    rw [hP, iterate_map_add, iterate_derivative_eq_zero (Nat.lt_succ_of_le hQ), zero_add, iterate_derivative_C_mul, hω', eval_mul, eval_C, eval_C]
  have hf : ((r + 1).factorial : ℝ) ≠ 0 := by positivity
  have h0' : D (r + 1) ξ - (derivative^[r + 1] P).eval ξ = 0 := h0
  rw [hPd] at h0'
  rw [← hωe, show D (r + 1) ξ / ((r + 1).factorial : ℝ) = κ by rw [div_eq_iff hf]; linarith, hκ, div_mul_cancel₀ _ hω0]

/-- The product of the distances to the numbers `0, …, r`. -/
theorem prod_dist_le (r : ℕ) (hr : 1 ≤ r) : ∀ s : ℝ, 0 ≤ s → s ≤ r → ∏ i ∈ Finset.range (r + 1), |s - (i : ℝ)| ≤ (r.factorial : ℝ) / 4 := by
  induction r, hr using Nat.le_induction with
  | base =>
    intro s h0 h1
    rw [Finset.prod_range_succ, Finset.prod_range_succ, Finset.prod_range_zero]
    push_cast at *
    rw [one_mul, sub_zero, abs_of_nonneg h0, abs_of_nonpos (by linarith)]
    norm_num
    nlinarith [sq_nonneg (s - 1 / 2)]
  | succ r hr ih =>
    have low : ∀ s : ℝ, 0 ≤ s → s ≤ r → ∏ i ∈ Finset.range (r + 1 + 1), |s - (i : ℝ)| ≤ ((r + 1).factorial : ℝ) / 4 := by
      intro s h0 h1
      rw [Finset.prod_range_succ, Nat.factorial_succ]
      push_cast
      have h2 : |s - ((r : ℝ) + 1)| ≤ r + 1 := by rw [abs_of_nonpos (by linarith)]; linarith
      calc _ ≤ (r.factorial : ℝ) / 4 * (r + 1) := mul_le_mul (ih s h0 h1) h2 (abs_nonneg _) (by positivity)
        _ = _ := by ring
    intro s h0 h1
    rcases le_total s r with h | h
    · exact low s h0 h
    · have hr1 : (1 : ℝ) ≤ r := by exact_mod_cast hr
      have h2 := low ((r : ℝ) + 1 - s) (by push_cast at h1; linarith) (by linarith [hr1])
      refine le_trans (le_of_eq ?_) h2
      rw [← Finset.prod_range_reflect]
      refine Finset.prod_congr rfl (fun i hi => ?_)
      have hi' := Finset.mem_range.1 hi
      rw [Nat.add_sub_cancel, Nat.cast_sub (by omega), abs_sub_comm]
      congr 1
      push_cast
      ring

/-- The product of the distances to the points `0, 1/r, …, 1`. -/
theorem prod_lattice_le (r : ℕ) (hr : 1 ≤ r) (x : ℝ) (h0 : 0 ≤ x) (h1 : x ≤ 1) :
    |∏ i : Fin (r + 1), (x - (i : ℕ) / (r : ℝ))| ≤ (r.factorial : ℝ) / (4 * (r : ℝ) ^ (r + 1)) := by
  have hr0 : (0 : ℝ) < r := by exact_mod_cast hr
  have h := prod_dist_le r hr (r * x) (by positivity) (by nlinarith)
  rw [Finset.abs_prod, Fin.prod_univ_eq_prod_range (fun i => |x - (i : ℝ) / (r : ℝ)|) (r + 1), ← div_div, le_div_iff₀ (by positivity)]
  refine le_trans (le_of_eq ?_) h
  rw [← Finset.card_range (r + 1), ← Finset.prod_const, Finset.card_range, ← Finset.prod_mul_distrib]
  refine Finset.prod_congr rfl (fun i _ => ?_)
  nth_rewrite 2 [← abs_of_pos hr0]
  rw [← abs_mul]
  congr 1
  field_simp

end Verif.Interpolation
