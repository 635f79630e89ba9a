import Verif.Props.InterpolationSimplex
/-!
# C51: the fixed quadrature rules for smooth functions

The error of the rule of degree `n` is of order `n + 1` in the diameter of the simplex, times its volume.
-/

namespace Verif.Quadrature
open Verif MeasureTheory

/-- **C51** `quadrature_triangle_fixed(f, vertices, n)` for a function with `n + 1` continuous derivatives, where `M` bounds the derivative of order `n + 1` on
the triangle and `h` the distances of the vertices (in the maximum norm). -/
theorem C51_triangle_order (n : ℕ) (h1 : 1 ≤ n) (h4 : n ≤ 3) (v : Fin 3 → Fin 2 → ℝ) (f : ℝ → ℝ → ℝ)
    (hf : ContDiff ℝ (n + 1 : ℕ) (fun x : Fin 2 → ℝ => f (x 0) (x 1))) (M h : ℝ)
    (hM : ∀ x ∈ Spec.simplex v, ‖iteratedFDeriv ℝ (n + 1) (fun x : Fin 2 → ℝ => f (x 0) (x 1)) x‖ ≤ M) (hh : ∀ i j, ‖v i - v j‖ ≤ h) :
    ∃ q, triangleFixed f v n = .ok q ∧ |q - ∫ x in Spec.simplex v, f (x 0) (x 1)| ≤
      |Spec.edgeDet v| * ((if n = 3 then 25 / 16 else 1) * (M * h ^ (n + 1) / ((n + 1).factorial : ℝ))) := by
  obtain ⟨P, hP, hPe⟩ := Props.taylor_simplex v hf M h hM hh
  exact C51_triangle_approx n h1 h4 v f hf.continuous.continuousOn P hP _ hPe

/-- **C51** `quadrature_tetrahedron_fixed(f, vertices, n)`: the same for the rules of degree 1 and 3. -/
theorem C51_tetrahedron_order (n : ℕ) (h13 : n = 1 ∨ n = 3) (v : Fin 4 → Fin 3 → ℝ) (f : ℝ → ℝ → ℝ → ℝ)
    (hf : ContDiff ℝ (n + 1 : ℕ) (fun x : Fin 3 → ℝ => f (x 0) (x 1) (x 2))) (M h : ℝ)
    (hM : ∀ x ∈ Spec.simplex v, ‖iteratedFDeriv ℝ (n + 1) (fun x : Fin 3 → ℝ => f (x 0) (x 1) (x 2)) x‖ ≤ M) (hh : ∀ i j, ‖v i - v j‖ ≤ h) :
    ∃ q, tetrahedronFixed f v n = .ok q ∧ |q - ∫ x in Spec.simplex v, f (x 0) (x 1) (x 2)| ≤
      |Spec.edgeDet v| * ((if n = 3 then 3 / 5 else 1 / 3 + 1 / 10 ^ 30) * (M * h ^ (n + 1) / ((n + 1).factorial : ℝ))) := by
  obtain ⟨P, hP, hPe⟩ := Props.taylor_simplex v hf M h hM hh
  exact C51_tetrahedron_approx n h13 v f hf.continuous.continuousOn P hP _ hPe

/-- The hypotheses are met by the function `exp (x y)` on any triangle: the derivative is bounded because the triangle is compact. -/
example (v : Fin 3 → Fin 2 → ℝ) : ∃ M, ContDiff ℝ (3 + 1 : ℕ) (fun x : Fin 2 → ℝ => Real.exp (x 0 * x 1)) ∧
    ∀ x ∈ Spec.simplex v, ‖iteratedFDeriv ℝ (3 + 1) (fun x : Fin 2 → ℝ => Real.exp (x 0 * x 1)) x‖ ≤ M := by
  have hc : ContDiff ℝ (3 + 1 : ℕ) (fun x : Fin 2 → ℝ => Real.exp (x 0 * x 1)) := by fun_prop
  have hk : IsCompact (Spec.simplex v) := by
    rw [Integration.simplex_eq_image]
    exact (Integration.isCompact_unit 2).image (Midpoint.continuous_fromUnit v)
  obtain ⟨M, hM⟩ := hk.exists_bound_of_continuousOn (hc.continuous_iteratedFDeriv (m := 3 + 1) (by norm_num)).continuousOn
  exact ⟨M, hc, hM⟩

theorem taylor_interval {n : ℕ} {f : ℝ → ℝ} (hf : ContDiff ℝ (n + 1 : ℕ) f) (a b M : ℝ) (hM : ∀ x ∈ Set.uIcc a b, |iteratedDeriv (n + 1) f x| ≤ M) :
    ∃ P : Polynomial ℝ, P.natDegree ≤ n ∧ ∀ x ∈ Set.uIcc a b, |f x - P.eval x| ≤ M * |b - a| ^ (n + 1) / ((n + 1).factorial : ℝ) := by
  have hM0 : 0 ≤ M := (abs_nonneg _).trans (hM a Set.left_mem_uIcc)
  refine ⟨∑ k ∈ Finset.range (n + 1), Polynomial.C ((k.factorial : ℝ)⁻¹ * iteratedDeriv k f a) * (Polynomial.X - Polynomial.C a) ^ k, ?_, fun x hx => ?_⟩
  · refine Polynomial.natDegree_sum_le_of_forall_le _ _ (fun k hk => (Polynomial.natDegree_C_mul_le _ _).trans ?_)
    rw [Polynomial.natDegree_pow, Polynomial.natDegree_X_sub_C, mul_one]
    exact Nat.lt_succ_iff.1 (Finset.mem_range.1 hk)
  rw [Polynomial.eval_finsetSum]
  simp only [Polynomial.eval_mul, Polynomial.eval_C, Polynomial.eval_pow, Polynomial.eval_sub, Polynomial.eval_X]
  by_cases hxa : a = x
  · subst hxa
    rw [Finset.sum_range_succ']
    simp only [sub_self, ne_eq, Nat.add_eq_zero_iff, one_ne_zero, and_false, not_false_eq_true, zero_pow, mul_zero, Finset.sum_const_zero, Nat.factorial_zero,
      Nat.cast_one, inv_one, iteratedDeriv_zero, one_mul, pow_zero, mul_one, zero_add, abs_zero]
    positivity
  obtain ⟨t, ht, e⟩ := taylor_mean_remainder_lagrange_iteratedDeriv (f := f) (x₀ := a) (x := x) (n := n) hxa (by exact_mod_cast hf.contDiffOn)
  have h2 : taylorWithinEval f n (Set.uIcc a x) a x = ∑ k ∈ Finset.range (n + 1), (k.factorial : ℝ)⁻¹ * iteratedDeriv k f a * (x - a) ^ k := by
    rw [taylor_within_apply]
    refine Finset.sum_congr rfl (fun k hk => ?_)
    rw [iteratedDerivWithin_eq_iteratedDeriv (uniqueDiffOn_uIcc hxa) ((hf.of_le (by exact_mod_cast (Finset.mem_range.1 hk).le)).contDiffAt) Set.left_mem_uIcc,
      smul_eq_mul]
    ring
  rw [h2] at e
  rw [e, abs_div, abs_mul, abs_pow, abs_of_pos (show (0 : ℝ) < ((n + 1).factorial : ℝ) by positivity)]
  refine div_le_div_of_nonneg_right (mul_le_mul (hM t ?_) (pow_le_pow_left₀ (abs_nonneg _) ?_ _) (by positivity) hM0) (by positivity)
  · exact Set.uIcc_subset_uIcc_left hx (Set.uIoo_subset_uIcc_self ht)
  · exact Set.abs_sub_left_of_mem_uIcc hx

/-- **C51** `quadrature_interval_fixed(f, a, b, n)` for a function with `n + 1` continuous derivatives and end points in any order: the error is at most
`2 M |b - a| ^ (n + 2) / (n + 1)!`, where `M` bounds the derivative of order `n + 1` between the end points. -/
theorem C51_interval_order (rule : ℕ → List (ℝ × ℝ)) (h : IsGaussLegendre rule) (hpos : ∀ n, ∀ q ∈ rule n, -1 ≤ q.1 ∧ q.1 ≤ 1 ∧ 0 ≤ q.2)
    (a b : ℝ) (n : ℕ) (f : ℝ → ℝ) (hf : ContDiff ℝ (n + 1 : ℕ) f) (M : ℝ) (hM : ∀ x ∈ Set.uIcc a b, |iteratedDeriv (n + 1) f x| ≤ M) :
    ∃ q, intervalFixed rule f a b n = .ok q ∧ |q - ∫ x in min a b..max a b, f x| ≤ 2 * M * |b - a| ^ (n + 2) / ((n + 1).factorial : ℝ) := by
  obtain ⟨P, hP, hPe⟩ := taylor_interval hf a b M hM
  obtain ⟨q, h1, h2⟩ := C51_interval_approx rule h hpos a b n f hf.continuous.continuousOn P hP _ (fun x hx hx' => hPe x ⟨hx, hx'⟩)
  exact ⟨q, h1, h2.trans (le_of_eq (by ring))⟩

/-- The sine function between 3 and 1, with any rule as above. -/
example : ∃ rule q, IsGaussLegendre rule ∧ intervalFixed rule Real.sin 3 1 3 = .ok q ∧ |q - ∫ x in min (3 : ℝ) 1..max 3 1, Real.sin x| ≤ 8 / 3 := by
  obtain ⟨rule, h1, h2⟩ := exists_positive_rule
  obtain ⟨q, h3, h4⟩ := C51_interval_order rule h1 h2 3 1 3 Real.sin Real.contDiff_sin 1 (fun x _ => by
    have : iteratedDeriv (3 + 1) Real.sin = Real.sin := by simpa using Real.iteratedDeriv_even_sin 2
    rw [this]
    exact Real.abs_sin_le_one x)
  refine ⟨rule, q, h1, h3, h4.trans ?_⟩
  norm_num [Nat.factorial]

end Verif.Quadrature
