import Verif.Props.InterpolationSimplex
import Verif.Props.Midpoint
import Verif.Props.BernsteinApproximation
/-!
# The midpoint rules (C72) and Bernstein coefficients (C103) for functions with two continuous derivatives
-/

namespace Verif.Props
open Verif Verif.Poly Verif.Simplex Verif.Spec Set MeasureTheory

theorem norm_sq_le {n : ℕ} (w : Fin n → ℝ) : ‖w‖ ^ 2 ≤ ∑ i, w i ^ 2 := by
  have h0 : 0 ≤ ∑ i, w i ^ 2 := Finset.sum_nonneg fun i _ => sq_nonneg _
  have h : ‖w‖ ≤ √(∑ i, w i ^ 2) := (pi_norm_le_iff_of_nonneg (Real.sqrt_nonneg _)).2 fun i =>
    Real.abs_le_sqrt (Finset.single_le_sum (f := fun i => w i ^ 2) (fun i _ => sq_nonneg _) (Finset.mem_univ i))
  calc ‖w‖ ^ 2 ≤ √(∑ i, w i ^ 2) ^ 2 := pow_le_pow_left₀ (norm_nonneg _) h 2
    _ = _ := Real.sq_sqrt h0

/-- The distance of a function with two derivatives from its linear part. -/
theorem linear_part {n : ℕ} {g : (Fin n → ℝ) → ℝ} (hg : ContDiff ℝ 2 g) (s : Set (Fin n → ℝ)) (hs : Convex ℝ s) (M : ℝ)
    (hM : ∀ x ∈ s, ‖iteratedFDeriv ℝ 2 g x‖ ≤ M) (c x : Fin n → ℝ) (hc : c ∈ s) (hx : x ∈ s) :
    |g x - g c - fderiv ℝ g c (x - c)| ≤ M / 2 * ∑ i, (x i - c i) ^ 2 := by
  have hM0 : 0 ≤ M := (norm_nonneg _).trans (hM c hc)
  have h := taylor_bound (r := 1) (by exact_mod_cast hg) c x M (fun t ht => hM _ (hs.add_smul_sub_mem hc hx ht))
  rw [Finset.sum_range_succ, Finset.sum_range_one] at h
  simp only [Nat.factorial, iteratedFDeriv_zero_apply, iteratedFDeriv_one_apply, Nat.cast_one, inv_one, one_mul, mul_one, one_add_one_eq_two] at h
  rw [sub_sub]
  refine h.trans ?_
  have := mul_le_mul_of_nonneg_left (norm_sq_le (x - c)) hM0
  simp only [Pi.sub_apply] at this
  linarith

theorem convex_simplex {k n : ℕ} (v : Fin (k + 1) → Fin n → ℝ) : Convex ℝ (Spec.simplex v) := by
  rintro _ ⟨w, h0, h1, rfl⟩ _ ⟨w', h0', h1', rfl⟩ a b ha hb hab
  refine ⟨fun i => a * w i + b * w' i, fun i => add_nonneg (mul_nonneg ha (h0 i)) (mul_nonneg hb (h0' i)), ?_, ?_⟩
  · rw [Finset.sum_add_distrib, ← Finset.mul_sum, ← Finset.mul_sum, h1, h1', mul_one, mul_one, hab]
  · simp only [add_smul, mul_smul, Finset.sum_add_distrib, Finset.smul_sum]

theorem convex_unit (n : ℕ) : Convex ℝ (unitSimplex n) := by
  rintro x ⟨h0, h1⟩ y ⟨h0', h1'⟩ a b ha hb hab
  refine ⟨fun i => add_nonneg (mul_nonneg ha (h0 i)) (mul_nonneg hb (h0' i)), ?_⟩
  simp only [Pi.add_apply, Pi.smul_apply, smul_eq_mul, Finset.sum_add_distrib, ← Finset.mul_sum]
  nlinarith

/-- **C72** `quadrature_triangle_midpoint_rule(f, vertices, n)` for a function with two continuous derivatives, the second of norm at most `M` on the
triangle: the error is at most the area times `M / 2` times the square of (sum of the lengths of two edges) / `n`. -/
theorem C72_triangle_smooth (n : ℕ) (hn : 1 ≤ n) (v : Fin 3 → Fin 2 → ℝ) (f : (Fin 2 → ℝ) → ℝ) (hf : ContDiff ℝ 2 f) (M : ℝ) (hM0 : 0 ≤ M)
    (hM : ∀ x ∈ Spec.simplex v, ‖iteratedFDeriv ℝ 2 f x‖ ≤ M) :
    ∃ q, Midpoint.triangleMidpointRule (fun x y => f ![x, y]) v n = .ok q ∧
      |q - ∫ x in Spec.simplex v, f x| ≤ |edgeDet v| / 2 * (M / 2 * ((len (v 1 - v 0) + len (v 2 - v 0)) / n) ^ 2) :=
  Midpoint.C72_triangle_second_order n hn v f hf.continuous.continuousOn (M / 2) (by positivity) fun c hc => ⟨(fderiv ℝ f c).toLinearMap, fun x hx => by
    rw [len, Real.sq_sqrt (Finset.sum_nonneg fun i _ => sq_nonneg _)]
    exact linear_part hf _ (convex_simplex v) M hM c x hc hx⟩

/-- **C72** The same for `quadrature_tetrahedron_midpoint_rule`. -/
theorem C72_tetrahedron_smooth (n : ℕ) (hn : 1 ≤ n) (v : Fin 4 → Fin 3 → ℝ) (f : (Fin 3 → ℝ) → ℝ) (hf : ContDiff ℝ 2 f) (M : ℝ) (hM0 : 0 ≤ M)
    (hM : ∀ x ∈ Spec.simplex v, ‖iteratedFDeriv ℝ 2 f x‖ ≤ M) :
    ∃ q, Midpoint.tetrahedronMidpointRule (fun x y z => f ![x, y, z]) v n = .ok q ∧
      |q - ∫ x in Spec.simplex v, f x| ≤ |edgeDet v| / 6 * (M / 2 * ((len (v 1 - v 0) + len (v 2 - v 0) + len (v 3 - v 0)) / n) ^ 2) :=
  Midpoint.C72_tetrahedron_second_order n hn v f hf.continuous.continuousOn (M / 2) (by positivity) fun c hc => ⟨(fderiv ℝ f c).toLinearMap, fun x hx => by
    rw [len, Real.sq_sqrt (Finset.sum_nonneg fun i _ => sq_nonneg _)]
    exact linear_part hf _ (convex_simplex v) M hM c x hc hx⟩

/-- **C103** With the values of a function `g` with two continuous derivatives at the lattice points as coefficients, the Bernstein polynomial of degree `r`
differs from the function on the unit simplex by at most `M / (2 r)`, where `M` bounds the norm of the second derivative there. -/
theorem C103_smooth {n : ℕ} {p : Obj ℝ} {q : (Fin n → ℝ) → ℝ} (hp : Represents p n q) (hb : p.basis = .bernstein) (hr : 1 ≤ p.r)
    (g : List ℝ → ℝ) (hc : p.coeff = (generateLagrangePoints ℝ n p.r).map g) (hg : ContDiff ℝ 2 (fun y : Fin n → ℝ => g (List.ofFn y))) (M : ℝ)
    (hM : ∀ x ∈ unitSimplex n, ‖iteratedFDeriv ℝ 2 (fun y : Fin n → ℝ => g (List.ofFn y)) x‖ ≤ M) (x : Fin n → ℝ) (hx : x ∈ unitSimplex n) :
    |q x - g (List.ofFn x)| ≤ M / (2 * p.r) := by
  have hM0 : 0 ≤ M := (norm_nonneg _).trans (hM x hx)
  have := C103_second_order hp hb hr g hc x hx (fderiv ℝ (fun y : Fin n → ℝ => g (List.ofFn y)) x).toLinearMap (M / 2) (by positivity)
    (fun y hy => linear_part hg _ (convex_unit n) M hM x y hx hy)
  rwa [div_div] at this

/-- The exponential of `x y` on any triangle meets the hypotheses of the theorem about the midpoint rule. -/
example (v : Fin 3 → Fin 2 → ℝ) : ∃ M, 0 ≤ M ∧ ContDiff ℝ 2 (fun x : Fin 2 → ℝ => Real.exp (x 0 * x 1)) ∧
    ∀ x ∈ Spec.simplex v, ‖iteratedFDeriv ℝ 2 (fun x : Fin 2 → ℝ => Real.exp (x 0 * x 1)) x‖ ≤ M := by
  have hc : ContDiff ℝ 2 (fun x : Fin 2 → ℝ => Real.exp (x 0 * x 1)) := by fun_prop
  obtain ⟨M, hM⟩ := (Midpoint.isCompact_simplex v).exists_bound_of_continuousOn (hc.continuous_iteratedFDeriv (m := 2) le_rfl).continuousOn
  exact ⟨max M 0, le_max_right _ _, hc, fun x hx => (hM x hx).trans (le_max_left _ _)⟩

/-- The function `x y` on the unit triangle has a bounded second derivative, and the coefficients of degree 3 make a polynomial. -/
example : ∃ (p : Obj ℝ) (q : (Fin 2 → ℝ) → ℝ) (M : ℝ), Represents p 2 q ∧ p.r = 3 ∧
    (∀ x ∈ unitSimplex 2, ‖iteratedFDeriv ℝ 2 (fun y : Fin 2 → ℝ => (List.ofFn y).prod) x‖ ≤ M) ∧
    ∀ x ∈ unitSimplex 2, |q x - x 0 * x 1| ≤ M / (2 * 3) := by
  have hg : ContDiff ℝ 2 (fun y : Fin 2 → ℝ => (List.ofFn y).prod) := by
    simp only [List.prod_ofFn, Fin.prod_univ_two]
    fun_prop
  obtain ⟨M, hM⟩ := (Integration.isCompact_unit 2).exists_bound_of_continuousOn (hg.continuous_iteratedFDeriv (m := 2) le_rfl).continuousOn
  have hf : Fits 3 2 := Or.inr (by norm_num)
  have ht : (generateLagrangePoints ℝ 2 3).map List.prod = tab 2 3 (fun ν => (ν.map fun k : ℕ => (k : ℝ) / ((3 : ℕ) : ℝ)).prod) := by
    rw [lagrangePoints_eq, List.map_map]; rfl
  refine ⟨mkObj .bernstein 2 3 (fun ν => (ν.map fun k : ℕ => (k : ℝ) / ((3 : ℕ) : ℝ)).prod), _, M, rep_mk (K := ℝ) .bernstein 2 3 _ hf, rfl, hM, fun x hx => ?_⟩
  have := C103_smooth (rep_mk (K := ℝ) .bernstein 2 3 (fun ν => (ν.map fun k : ℕ => (k : ℝ) / ((3 : ℕ) : ℝ)).prod) hf) rfl (by show 1 ≤ 3; norm_num) List.prod ht.symm hg M hM x hx
  simp only [List.prod_ofFn, Fin.prod_univ_two] at this
  exact this.trans (le_of_eq (by simp [mkObj]))

end Verif.Props
