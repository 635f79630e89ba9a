import Verif.Model.Quadrature
import Verif.Lemmas.Baldoni
import Verif.Spec.Simplex
import Mathlib.LinearAlgebra.Lagrange
import Mathlib.Topology.Algebra.Polynomial
import Mathlib.Algebra.MvPolynomial.Basic
import Mathlib.Algebra.MvPolynomial.Eval
import Mathlib.Algebra.MvPolynomial.Degrees
import Mathlib.Algebra.Polynomial.Eval.Degree
import Mathlib.Tactic.FinCases
import Mathlib.MeasureTheory.Integral.IntervalIntegral.Basic
import Mathlib.Tactic.IntervalCases
import Mathlib.Tactic.NormNum
/-!
# C51: the fixed quadrature rules have their polynomial degree

Polynomials are Mathlib's multivariate polynomials, `MvPolynomial.totalDegree` is their degree. The integral is the Lebesgue integral over the
unit simplex or over the simplex spanned by the given vertices.
-/

namespace Verif.Quadrature
open Verif MvPolynomial MeasureTheory Simplex

theorem integral_poly {n : ℕ} (p : MvPolynomial (Fin n) ℝ) :
    ∫ x in Spec.unitSimplex n, eval x p = ∑ d ∈ p.support, coeff d p * ∫ x in Spec.unitSimplex n, ∏ i, x i ^ d i := by
  simp only [eval_eq']
  rw [integral_finset_sum]
  · exact Finset.sum_congr rfl (fun d _ => integral_const_mul _ _)
  · intro d _
    exact Integration.integrable_unit (by fun_prop)

theorem linear_error {F ι : Type} [AddCommGroup F] [Module ℝ F] (L : F →ₗ[ℝ] ℝ) (s : Finset ι) (c : ι → ℝ) (g : ι → F) (I : ι → ℝ) (ε : ℝ)
    (h : ∀ d ∈ s, |L (g d) - I d| ≤ ε) : |L (∑ d ∈ s, c d • g d) - ∑ d ∈ s, c d * I d| ≤ ε * ∑ d ∈ s, |c d| := by
  rw [map_sum, ← Finset.sum_sub_distrib, Finset.mul_sum]
  refine (Finset.abs_sum_le_sum_abs _ _).trans (Finset.sum_le_sum fun d hd => ?_)
  rw [map_smul, smul_eq_mul, ← mul_sub, abs_mul, mul_comm]
  exact mul_le_mul_of_nonneg_right (h d hd) (abs_nonneg _)

/-! ## Triangles -/

/-- The value of the rule, as a linear map. -/
theorem triangle_linear (n : ℕ) (h1 : 1 ≤ n) (h4 : n ≤ 4) :
    ∃ L : (ℝ → ℝ → ℝ) →ₗ[ℝ] ℝ, ∀ f, unitTriangleFixed f n = .ok (L f) := by
  have key : ∃ Q : (ℝ → ℝ → ℝ) → ℝ, (∀ f, unitTriangleFixed f n = .ok (Q f)) ∧ (∀ f g, Q (f + g) = Q f + Q g) ∧ ∀ (c : ℝ) f, Q (c • f) = c * Q f := by
    interval_cases n <;>
      exact ⟨_, fun f => rfl, fun f g => by simp only [Pi.add_apply]; ring, fun c f => by simp only [Pi.smul_apply, smul_eq_mul]; ring⟩
  obtain ⟨Q, h1, h2, h3⟩ := key
  exact ⟨⟨⟨Q, h2⟩, h3⟩, h1⟩

theorem triangle_monomial (n a b : ℕ) (h1 : 1 ≤ n) (h4 : n ≤ 4) (hab : a + b ≤ n) :
    ∃ q, unitTriangleFixed (fun x y => x ^ a * y ^ b) n = .ok q ∧ (n ≤ 3 → q = ((a.factorial * b.factorial : ℕ) : ℝ) / ((a + b + 2).factorial : ℝ)) ∧
      |q - ((a.factorial * b.factorial : ℕ) : ℝ) / ((a + b + 2).factorial : ℝ)| ≤ 1 / 10 ^ 15 := by
  have ha : a ≤ 4 := by omega
  have hb : b ≤ 4 := by omega
  interval_cases n <;> interval_cases a <;> first
    | (exfalso; omega)
    | (interval_cases b <;> first
        | (exfalso; omega)
        | (refine ⟨_, rfl, fun h => ?_, ?_⟩ <;> first
            | (exfalso; omega)
            | (norm_num [Nat.factorial, abs_le]; done)))

/-- **C51** `quadrature_unit_triangle_fixed(f, n)` for `n = 1, …, 4` and every polynomial of degree at most `n`: the integral over the unit
triangle; for `n = 4`, whose constants are given by 15 decimals, up to `10⁻¹⁵` times the sum of the absolute values of the coefficients. -/
theorem C51_unit_triangle (n : ℕ) (h1 : 1 ≤ n) (h4 : n ≤ 4) (p : MvPolynomial (Fin 2) ℝ) (hp : p.totalDegree ≤ n) :
    ∃ q, unitTriangleFixed (fun x y => eval ![x, y] p) n = .ok q ∧ (n ≤ 3 → q = ∫ x in Spec.unitSimplex 2, eval x p) ∧
      |q - ∫ x in Spec.unitSimplex 2, eval x p| ≤ 1 / 10 ^ 15 * ∑ d ∈ p.support, |coeff d p| := by
  obtain ⟨L, hL⟩ := triangle_linear n h1 h4
  have hf : (fun x y : ℝ => eval ![x, y] p) = ∑ d ∈ p.support, coeff d p • fun x y : ℝ => x ^ d 0 * y ^ d 1 := by
    funext x y
    rw [eval_eq']
    simp [Finset.sum_apply, Fin.prod_univ_two]
  have hmon : ∀ d ∈ p.support, (n ≤ 3 → L (fun x y : ℝ => x ^ d 0 * y ^ d 1) = ∫ x in Spec.unitSimplex 2, ∏ i, x i ^ d i) ∧
      |L (fun x y : ℝ => x ^ d 0 * y ^ d 1) - ∫ x in Spec.unitSimplex 2, ∏ i, x i ^ d i| ≤ 1 / 10 ^ 15 := by
    intro d hd
    have hdeg : d 0 + d 1 ≤ n := by
      refine le_trans ?_ hp
      have := le_totalDegree hd
      rwa [Finsupp.sum_fintype _ _ (fun _ => rfl), Fin.sum_univ_two] at this
    obtain ⟨q, hq, h2, h3⟩ := triangle_monomial n (d 0) (d 1) h1 h4 hdeg
    rw [hL] at hq
    rw [Except.ok.inj hq, Integration.integral_unit_monomial, Fin.prod_univ_two, Fin.sum_univ_two]
    exact ⟨h2, h3⟩
  refine ⟨_, hL _, fun h3 => ?_, ?_⟩
  · rw [hf, map_sum, integral_poly]
    refine Finset.sum_congr rfl (fun d hd => ?_)
    rw [map_smul, smul_eq_mul, (hmon d hd).1 h3]
  · rw [hf, integral_poly]
    exact linear_error L _ _ _ _ _ (fun d hd => (hmon d hd).2)

/-- **C51** Other degrees are rejected. -/
theorem C51_unit_triangle_error (n : ℕ) (h : n < 1 ∨ 4 < n) (f : ℝ → ℝ → ℝ) : unitTriangleFixed f n = .error .value := by
  unfold unitTriangleFixed
  rw [if_neg (by omega), if_neg (by omega), if_neg (by omega), if_neg (by omega)]

/-! ## Tetrahedra -/

theorem tetrahedron_linear (n : ℕ) (h1 : 1 ≤ n) (h4 : n ≤ 4) :
    ∃ L : (ℝ → ℝ → ℝ → ℝ) →ₗ[ℝ] ℝ, ∀ f, unitTetrahedronFixed f n = .ok (L f) := by
  have key : ∃ Q : (ℝ → ℝ → ℝ → ℝ) → ℝ, (∀ f, unitTetrahedronFixed f n = .ok (Q f)) ∧ (∀ f g, Q (f + g) = Q f + Q g) ∧
      ∀ (c : ℝ) f, Q (c • f) = c * Q f := by
    interval_cases n <;>
      exact ⟨_, fun f => rfl, fun f g => by simp only [Pi.add_apply]; ring, fun c f => by simp only [Pi.smul_apply, smul_eq_mul]; ring⟩
  obtain ⟨Q, h1, h2, h3⟩ := key
  exact ⟨⟨⟨Q, h2⟩, h3⟩, h1⟩

theorem tetrahedron_monomial (n a b c : ℕ) (h1 : 1 ≤ n) (h4 : n ≤ 4) (hab : a + b + c ≤ n) :
    ∃ q, unitTetrahedronFixed (fun x y z => x ^ a * y ^ b * z ^ c) n = .ok q ∧
      (n = 1 ∨ n = 3 → q = ((a.factorial * b.factorial * c.factorial : ℕ) : ℝ) / ((a + b + c + 3).factorial : ℝ)) ∧
      |q - ((a.factorial * b.factorial * c.factorial : ℕ) : ℝ) / ((a + b + c + 3).factorial : ℝ)| ≤ 3 / 10 ^ 18 := by
  have ha : a ≤ 4 := by omega
  have hb : b ≤ 4 := by omega
  have hc : c ≤ 4 := by omega
  interval_cases n <;> interval_cases a <;> first
    | (exfalso; omega)
    | (interval_cases b <;> first
        | (exfalso; omega)
        | (interval_cases c <;> first
            | (exfalso; omega)
            | (refine ⟨_, rfl, fun h => ?_, ?_⟩ <;> first
                | (exfalso; omega)
                | (norm_num [Nat.factorial, abs_le]; done))))

/-- **C51** `quadrature_unit_tetrahedron_fixed(f, n)` for `n = 1, …, 4` and every polynomial of degree at most `n`: the integral over the unit
tetrahedron; for `n = 2, 4`, whose constants are rounded, up to `3 · 10⁻¹⁸` times the sum of the absolute values of the coefficients. -/
theorem C51_unit_tetrahedron (n : ℕ) (h1 : 1 ≤ n) (h4 : n ≤ 4) (p : MvPolynomial (Fin 3) ℝ) (hp : p.totalDegree ≤ n) :
    ∃ q, unitTetrahedronFixed (fun x y z => eval ![x, y, z] p) n = .ok q ∧ (n = 1 ∨ n = 3 → q = ∫ x in Spec.unitSimplex 3, eval x p) ∧
      |q - ∫ x in Spec.unitSimplex 3, eval x p| ≤ 3 / 10 ^ 18 * ∑ d ∈ p.support, |coeff d p| := by
  obtain ⟨L, hL⟩ := tetrahedron_linear n h1 h4
  have hf : (fun x y z : ℝ => eval ![x, y, z] p) = ∑ d ∈ p.support, coeff d p • fun x y z : ℝ => x ^ d 0 * y ^ d 1 * z ^ d 2 := by
    funext x y z
    rw [eval_eq']
    simp [Finset.sum_apply, Fin.prod_univ_three]
  have hmon : ∀ d ∈ p.support, (n = 1 ∨ n = 3 → L (fun x y z : ℝ => x ^ d 0 * y ^ d 1 * z ^ d 2) = ∫ x in Spec.unitSimplex 3, ∏ i, x i ^ d i) ∧
      |L (fun x y z : ℝ => x ^ d 0 * y ^ d 1 * z ^ d 2) - ∫ x in Spec.unitSimplex 3, ∏ i, x i ^ d i| ≤ 3 / 10 ^ 18 := by
    intro d hd
    have hdeg : d 0 + d 1 + d 2 ≤ n := by
      refine le_trans ?_ hp
      have := le_totalDegree hd
      rwa [Finsupp.sum_fintype _ _ (fun _ => rfl), Fin.sum_univ_three] at this
    obtain ⟨q, hq, h2, h3⟩ := tetrahedron_monomial n (d 0) (d 1) (d 2) h1 h4 hdeg
    rw [hL] at hq
    rw [Except.ok.inj hq, Integration.integral_unit_monomial, Fin.prod_univ_three, Fin.sum_univ_three]
    exact ⟨h2, h3⟩
  refine ⟨_, hL _, fun h3 => ?_, ?_⟩
  · rw [hf, map_sum, integral_poly]
    refine Finset.sum_congr rfl (fun d hd => ?_)
    rw [map_smul, smul_eq_mul, (hmon d hd).1 h3]
  · rw [hf, integral_poly]
    exact linear_error L _ _ _ _ _ (fun d hd => (hmon d hd).2)

/-- **C51** Other degrees are rejected. -/
theorem C51_unit_tetrahedron_error (n : ℕ) (h : n < 1 ∨ 4 < n) (f : ℝ → ℝ → ℝ → ℝ) : unitTetrahedronFixed f n = .error .value := by
  unfold unitTetrahedronFixed
  rw [if_neg (by omega), if_neg (by omega), if_neg (by omega), if_neg (by omega)]

/-! ## Arbitrary triangles and tetrahedra -/

/-- The pullback of a polynomial by an affine map. -/
noncomputable def pullback {n : ℕ} (a : Matrix (Fin n) (Fin n) ℝ) (b : Fin n → ℝ) (p : MvPolynomial (Fin n) ℝ) : MvPolynomial (Fin n) ℝ :=
  ∑ d ∈ p.support, C (coeff d p) * ∏ i, (∑ j, C (a i j) * X j + C (b i)) ^ d i

theorem eval_pullback {n : ℕ} (a : Matrix (Fin n) (Fin n) ℝ) (b : Fin n → ℝ) (p : MvPolynomial (Fin n) ℝ) (u : Fin n → ℝ) :
    eval u (pullback a b p) = eval (a.mulVec u + b) p := by
  unfold pullback
  rw [eval_eq' (a.mulVec u + b)]
  simp [Matrix.mulVec, dotProduct]

theorem degree_pullback {n : ℕ} (a : Matrix (Fin n) (Fin n) ℝ) (b : Fin n → ℝ) (p : MvPolynomial (Fin n) ℝ) :
    (pullback a b p).totalDegree ≤ p.totalDegree := by
  unfold pullback
  refine totalDegree_finsetSum_le (fun d hd => ?_)
  refine (totalDegree_mul _ _).trans ?_
  rw [totalDegree_C, zero_add]
  refine (totalDegree_finsetProd _ _).trans (le_trans ?_ (le_totalDegree hd))
  rw [Finsupp.sum_fintype _ _ (fun _ => rfl)]
  refine Finset.sum_le_sum (fun i _ => ?_)
  refine (totalDegree_pow _ _).trans ?_
  have : (∑ j, C (a i j) * X j + C (b i) : MvPolynomial (Fin n) ℝ).totalDegree ≤ 1 := by
    refine (totalDegree_add _ _).trans (max_le (totalDegree_finsetSum_le (fun j _ => ?_)) (by simp))
    refine (totalDegree_mul _ _).trans ?_
    simp
  calc d i * _ ≤ d i * 1 := Nat.mul_le_mul_left _ this
    _ = d i := mul_one _

theorem vec2 (w : Fin 2 → ℝ) : ![w 0, w 1] = w := by
  funext i
  fin_cases i <;> rfl

theorem vec3 (w : Fin 3 → ℝ) : ![w 0, w 1, w 2] = w := by
  funext i
  fin_cases i <;> rfl

/-- **C51** `quadrature_triangle_fixed(f, vertices, n)`: for every triangle, of any orientation and also degenerate, and every polynomial of degree
at most `n`, the integral over the triangle (`n ≤ 3`). For `n = 4` the error is at most `10⁻¹⁵` times the absolute determinant of the edges times the
sum of the absolute values of the coefficients of any polynomial of degree at most 4 that represents the function in the coordinates of the unit triangle. -/
theorem C51_triangle (n : ℕ) (h1 : 1 ≤ n) (h4 : n ≤ 4) (v : Fin 3 → Fin 2 → ℝ) (p : MvPolynomial (Fin 2) ℝ) (hp : p.totalDegree ≤ n) :
    ∃ q, triangleFixed (fun x y => eval ![x, y] p) v n = .ok q ∧ (n ≤ 3 → q = ∫ x in Spec.simplex v, eval x p) ∧
      ∀ p' : MvPolynomial (Fin 2) ℝ, p'.totalDegree ≤ n → (∀ u, eval u p' = eval (Spec.fromUnit v u) p) →
        |q - ∫ x in Spec.simplex v, eval x p| ≤ 1 / 10 ^ 15 * |Spec.edgeDet v| * ∑ d ∈ p'.support, |coeff d p'| := by
  have hfun : ∀ p' : MvPolynomial (Fin 2) ℝ, (∀ u, eval u p' = eval (Spec.fromUnit v u) p) →
      (fun x y => eval ![createAffineMap (Matrix.of fun j i => v i.succ j - v 0 j, v 0) ![x, y] 0,
        createAffineMap (Matrix.of fun j i => v i.succ j - v 0 j, v 0) ![x, y] 1] p) = fun x y => eval ![x, y] p' := by
    intro p' h
    funext x y
    rw [vec2, h, Integration.fromUnit_eq]
    rfl
  have hpull : ∀ u, eval u (pullback (Integration.edges v) (v 0) p) = eval (Spec.fromUnit v u) p := by
    intro u
    rw [eval_pullback, Integration.fromUnit_eq]
  have hint : ∀ p' : MvPolynomial (Fin 2) ℝ, (∀ u, eval u p' = eval (Spec.fromUnit v u) p) →
      ∫ x in Spec.simplex v, eval x p = |Spec.edgeDet v| * ∫ u in Spec.unitSimplex 2, eval u p' := by
    intro p' h
    rw [Integration.integral_simplex_all]
    simp only [h]
    rfl
  have hrun : ∀ p' : MvPolynomial (Fin 2) ℝ, (∀ u, eval u p' = eval (Spec.fromUnit v u) p) → ∀ q, unitTriangleFixed (fun x y => eval ![x, y] p') n = .ok q →
      triangleFixed (fun x y => eval ![x, y] p) v n = .ok (|Spec.edgeDet v| * q) := by
    intro p' h q hq
    unfold triangleFixed affineFromUnit
    simp only [le_refl, decide_true, pyAssert_true, Py.bind_ok, Py.pure_eq]
    rw [hfun p' h, hq]
    rfl
  obtain ⟨q, hq, h3, -⟩ := C51_unit_triangle n h1 h4 _ ((degree_pullback (Integration.edges v) (v 0) p).trans hp)
  refine ⟨_, hrun _ hpull q hq, fun hn => ?_, fun p' hd h => ?_⟩
  · rw [hint _ hpull, h3 hn]
  · obtain ⟨q', hq', -, he⟩ := C51_unit_triangle n h1 h4 p' hd
    have := (hrun _ hpull q hq).symm.trans (hrun p' h q' hq')
    rw [Except.ok.inj this, hint p' h, ← mul_sub, abs_mul, abs_abs]
    calc |Spec.edgeDet v| * _ ≤ |Spec.edgeDet v| * (1 / 10 ^ 15 * ∑ d ∈ p'.support, |coeff d p'|) := mul_le_mul_of_nonneg_left he (abs_nonneg _)
      _ = _ := by ring

/-- **C51** `quadrature_tetrahedron_fixed(f, vertices, n)`, in the same way. -/
theorem C51_tetrahedron (n : ℕ) (h1 : 1 ≤ n) (h4 : n ≤ 4) (v : Fin 4 → Fin 3 → ℝ) (p : MvPolynomial (Fin 3) ℝ) (hp : p.totalDegree ≤ n) :
    ∃ q, tetrahedronFixed (fun x y z => eval ![x, y, z] p) v n = .ok q ∧ (n = 1 ∨ n = 3 → q = ∫ x in Spec.simplex v, eval x p) ∧
      ∀ p' : MvPolynomial (Fin 3) ℝ, p'.totalDegree ≤ n → (∀ u, eval u p' = eval (Spec.fromUnit v u) p) →
        |q - ∫ x in Spec.simplex v, eval x p| ≤ 3 / 10 ^ 18 * |Spec.edgeDet v| * ∑ d ∈ p'.support, |coeff d p'| := by
  have hfun : ∀ p' : MvPolynomial (Fin 3) ℝ, (∀ u, eval u p' = eval (Spec.fromUnit v u) p) →
      (fun x y z => eval ![createAffineMap (Matrix.of fun j i => v i.succ j - v 0 j, v 0) ![x, y, z] 0,
        createAffineMap (Matrix.of fun j i => v i.succ j - v 0 j, v 0) ![x, y, z] 1,
        createAffineMap (Matrix.of fun j i => v i.succ j - v 0 j, v 0) ![x, y, z] 2] p) = fun x y z => eval ![x, y, z] p' := by
    intro p' h
    funext x y z
    rw [vec3, h, Integration.fromUnit_eq]
    rfl
  have hpull : ∀ u, eval u (pullback (Integration.edges v) (v 0) p) = eval (Spec.fromUnit v u) p := by
    intro u
    rw [eval_pullback, Integration.fromUnit_eq]
  have hint : ∀ p' : MvPolynomial (Fin 3) ℝ, (∀ u, eval u p' = eval (Spec.fromUnit v u) p) →
      ∫ x in Spec.simplex v, eval x p = |Spec.edgeDet v| * ∫ u in Spec.unitSimplex 3, eval u p' := by
    intro p' h
    rw [Integration.integral_simplex_all]
    simp only [h]
    rfl
  have hrun : ∀ p' : MvPolynomial (Fin 3) ℝ, (∀ u, eval u p' = eval (Spec.fromUnit v u) p) → ∀ q,
      unitTetrahedronFixed (fun x y z => eval ![x, y, z] p') n = .ok q →
      tetrahedronFixed (fun x y z => eval ![x, y, z] p) v n = .ok (|Spec.edgeDet v| * q) := by
    intro p' h q hq
    unfold tetrahedronFixed affineFromUnit
    simp only [le_refl, decide_true, pyAssert_true, Py.bind_ok, Py.pure_eq]
    rw [hfun p' h, hq]
    rfl
  obtain ⟨q, hq, h3, -⟩ := C51_unit_tetrahedron n h1 h4 _ ((degree_pullback (Integration.edges v) (v 0) p).trans hp)
  refine ⟨_, hrun _ hpull q hq, fun hn => ?_, fun p' hd h => ?_⟩
  · rw [hint _ hpull, h3 hn]
  · obtain ⟨q', hq', -, he⟩ := C51_unit_tetrahedron n h1 h4 p' hd
    have := (hrun _ hpull q hq).symm.trans (hrun p' h q' hq')
    rw [Except.ok.inj this, hint p' h, ← mul_sub, abs_mul, abs_abs]
    calc |Spec.edgeDet v| * _ ≤ |Spec.edgeDet v| * (3 / 10 ^ 18 * ∑ d ∈ p'.support, |coeff d p'|) := mul_le_mul_of_nonneg_left he (abs_nonneg _)
      _ = _ := by ring

/-! ## Intervals -/

/-- The contract of the external Gauss-Legendre points and weights, in exact arithmetic: the rule with `n` points integrates polynomials of degree less
than `2 n` over `[-1, 1]`. -/
def IsGaussLegendre (rule : ℕ → List (ℝ × ℝ)) : Prop :=
  ∀ n (p : Polynomial ℝ), p.degree < ((2 * n : ℕ) : WithBot ℕ) → ((rule n).map (fun q => q.2 * p.eval q.1)).sum = ∫ x in (-1 : ℝ)..1, p.eval x

theorem foldl_sum {α : Type} (l : List α) (g : α → ℝ) (s : ℝ) : l.foldl (fun a x => a + g x) s = s + (l.map g).sum := by
  induction l generalizing s with
  | nil => simp
  | cons x l ih => rw [List.foldl_cons, ih, List.map_cons, List.sum_cons, add_assoc]

theorem ceil_half (r : ℕ) : r + 1 ≤ 2 * (⌈((r : ℚ) + 1) / 2⌉).toNat := by
  have h := Int.le_ceil (((r : ℚ) + 1) / 2)
  have h2 : ((r : ℚ) + 1) ≤ 2 * (⌈((r : ℚ) + 1) / 2⌉ : ℤ) := by linarith
  have h3 : ((r : ℤ) + 1) ≤ 2 * ⌈((r : ℚ) + 1) / 2⌉ := by exact_mod_cast h2
  omega

/-- **C51** `quadrature_unit_interval_fixed(f, r)` integrates polynomials of degree at most `r`, for every rule that has the degree of the Gauss-Legendre
rule. -/
theorem C51_unit_interval (rule : ℕ → List (ℝ × ℝ)) (h : IsGaussLegendre rule) (r : ℕ) (p : Polynomial ℝ) (hp : p.natDegree ≤ r) :
    unitIntervalFixed rule (fun x => p.eval x) r = ∫ x in (0 : ℝ)..1, p.eval x := by
  unfold unitIntervalFixed gaussLegendreUnitInterval
  simp only
  rw [foldl_sum, zero_add, List.map_map]
  set n := (⌈((r : ℚ) + 1) / 2⌉).toNat with hn
  have hle := ceil_half r
  rw [← hn] at hle
  set g : Polynomial ℝ := Polynomial.C (1 / 2) * Polynomial.X + Polynomial.C (1 / 2) with hg
  have hgd : g.natDegree ≤ 1 := Polynomial.natDegree_linear_le
  have hdeg : (p.comp g).degree < ((2 * n : ℕ) : WithBot ℕ) := by
    refine lt_of_le_of_lt Polynomial.degree_le_natDegree ?_
    have : (p.comp g).natDegree ≤ r := by
      refine Polynomial.natDegree_comp_le.trans ?_
      calc p.natDegree * g.natDegree ≤ r * 1 := Nat.mul_le_mul hp hgd
        _ = r := mul_one r
    exact_mod_cast (by omega : (p.comp g).natDegree < 2 * n)
  have hc := h n (p.comp g) hdeg
  have he : ∀ x, (p.comp g).eval x = p.eval (x / 2 + 1 / 2) := by
    intro x
    rw [Polynomial.eval_comp]
    congr 1
    simp [hg]
    ring
  simp only [he] at hc
  rw [intervalIntegral.integral_comp_div_add (fun x => p.eval x) (by norm_num)] at hc
  norm_num at hc
  have e : ((fun q : ℝ × ℝ => q.2 * p.eval q.1) ∘ fun q : ℝ × ℝ => ((q.1 + 1) / 2, 0.5 * q.2)) =
      fun q => (1 / 2) * (q.2 * p.eval (q.1 / 2 + 1 / 2)) := by
    funext q
    simp only [Function.comp]
    rw [add_div]
    norm_num
    ring
  rw [e, List.sum_map_mul_left]
  norm_num
  rw [hc]
  ring

/-- **C51** `quadrature_interval_fixed(f, a, b, n)`: the integral over the interval with end points `a` and `b`, in either order. -/
theorem C51_interval (rule : ℕ → List (ℝ × ℝ)) (h : IsGaussLegendre rule) (a b : ℝ) (n : ℕ) (p : Polynomial ℝ) (hp : p.natDegree ≤ n) :
    intervalFixed rule (fun x => p.eval x) a b n = .ok (∫ x in min a b..max a b, p.eval x) := by
  set g : Polynomial ℝ := Polynomial.C (b - a) * Polynomial.X + Polynomial.C a with hg
  have hgd : g.natDegree ≤ 1 := Polynomial.natDegree_linear_le
  have he : ∀ x, (p.comp g).eval x = p.eval ((b - a) * x + a) := by
    intro x
    rw [Polynomial.eval_comp]
    congr 1
    simp [hg]
  have hdeg : (p.comp g).natDegree ≤ n := by
    refine Polynomial.natDegree_comp_le.trans ?_
    calc p.natDegree * g.natDegree ≤ n * 1 := Nat.mul_le_mul hp hgd
      _ = n := mul_one n
  have hu := C51_unit_interval rule h n (p.comp g) hdeg
  simp only [he] at hu
  unfold intervalFixed affineFromUnit
  simp only [le_refl, decide_true, pyAssert_true, Py.bind_ok, Py.pure_eq]
  congr 1
  have e : ∀ phi : Affine ℝ 1 1, phi.1 0 0 = b - a → phi.2 0 = a →
      (fun x => p.eval (createAffineMap phi (fun _ => x) 0)) = fun x => p.eval ((b - a) * x + a) := by
    intro phi h1 h2
    funext x
    simp [createAffineMap, Matrix.mulVec, dotProduct, h1, h2]
  rw [e _ (by simp) (by simp), hu]
  simp only [Matrix.of_apply, Fin.succ_ne_zero, if_false, if_true]
  have hsub := intervalIntegral.mul_integral_comp_mul_add (a := 0) (b := 1) (f := fun x => p.eval x) (b - a) a
  rw [mul_zero, zero_add, mul_one, sub_add_cancel] at hsub
  rcases le_total a b with hab | hab
  · rw [min_eq_left hab, max_eq_right hab, abs_of_nonneg (by linarith), hsub]
  · rw [min_eq_right hab, max_eq_left hab, abs_of_nonpos (by linarith), neg_mul, hsub, ← intervalIntegral.integral_symm]

/-- The contract can be met: interpolatory rules with sufficiently many points satisfy it. -/
example : ∃ rule, IsGaussLegendre rule := by
  classical
  let nd : ℕ → ℝ := fun i => (i : ℝ)
  refine ⟨fun n => (List.range (2 * n)).map (fun i => (nd i, ∫ x in (-1 : ℝ)..1, (Lagrange.basis (Finset.range (2 * n)) nd i).eval x)), ?_⟩
  intro n p hp
  have h := Lagrange.eq_interpolate (s := Finset.range (2 * n)) (v := nd) (f := p) (fun a _ b _ hab => Nat.cast_injective (R := ℝ) hab)
    (by rwa [Finset.card_range])
  have h2 : ∀ x, p.eval x = ∑ i ∈ Finset.range (2 * n), p.eval (nd i) * (Lagrange.basis (Finset.range (2 * n)) nd i).eval x := by
    intro x
    conv_lhs => rw [h]
    rw [Lagrange.interpolate_apply, Polynomial.eval_finsetSum]
    simp
  rw [List.map_map, intervalIntegral.integral_congr (g := fun x => ∑ i ∈ Finset.range (2 * n), p.eval (nd i) *
    (Lagrange.basis (Finset.range (2 * n)) nd i).eval x) (fun x _ => h2 x),
    intervalIntegral.integral_finset_sum (fun i _ => Continuous.intervalIntegrable (by exact continuous_const.mul (Polynomial.continuous _)) _ _)]
  rw [Finset.sum_eq_multiset_sum, Finset.range_val, ← Multiset.coe_range, Multiset.map_coe, Multiset.sum_coe]
  congr 1
  refine List.map_congr_left (fun i _ => ?_)
  rw [intervalIntegral.integral_const_mul, Function.comp, mul_comm]

/-- A quadratic polynomial meets the hypotheses of the exact rules. -/
example : (X 0 * X 1 + C 3 * X 0 + C 1 : MvPolynomial (Fin 2) ℝ).totalDegree ≤ 3 := by
  refine (totalDegree_add _ _).trans (max_le ((totalDegree_add _ _).trans (max_le ?_ ?_)) (by simp))
  · exact (totalDegree_mul _ _).trans (by simp)
  · exact (totalDegree_mul _ _).trans (by simp)

end Verif.Quadrature
