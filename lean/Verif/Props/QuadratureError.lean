import Verif.Props.Quadrature
import Verif.Lemmas.Midpoint
import Mathlib.MeasureTheory.Integral.Bochner.Set
import Mathlib.Topology.Algebra.MvPolynomial
import Mathlib.Analysis.Convex.Integral
import Mathlib.Analysis.Convex.Caratheodory
import Mathlib.LinearAlgebra.AffineSpace.FiniteDimensional
import Mathlib.MeasureTheory.SpecificCodomains.Pi
import Mathlib.Analysis.SpecialFunctions.Exponential
import Mathlib.Analysis.Complex.ExponentialBounds
/-!
# C51: the error of the fixed quadrature rules for functions that are not polynomials

A rule of degree `n` has an error of at most a constant times the distance of the function from the polynomials of degree at most `n` (in the
maximum norm on the domain of integration). The constant is the sum of the absolute values of the weights plus the volume of the domain.
-/

namespace Verif.Quadrature
open Verif MvPolynomial MeasureTheory Simplex

theorem mem_unit2 {a b : ℝ} (ha : 0 ≤ a) (hb : 0 ≤ b) (h : a + b ≤ 1) : ![a, b] ∈ Spec.unitSimplex 2 := by
  refine ⟨fun i => ?_, ?_⟩
  · fin_cases i
    · exact ha
    · exact hb
  · rw [Fin.sum_univ_two]; exact h

theorem mem_unit3 {a b c : ℝ} (ha : 0 ≤ a) (hb : 0 ≤ b) (hc : 0 ≤ c) (h : a + b + c ≤ 1) : ![a, b, c] ∈ Spec.unitSimplex 3 := by
  refine ⟨fun i => ?_, ?_⟩
  · fin_cases i
    · exact ha
    · exact hb
    · exact hc
  · rw [Fin.sum_univ_three]; exact h

/-- The volume of the unit simplex. -/
theorem volume_unit (n : ℕ) : volume.real (Spec.unitSimplex n) = 1 / (n.factorial : ℝ) := by
  have h := Integration.integral_unit_monomial (n := n) (fun _ => 0)
  simpa using h

theorem integral_close {n : ℕ} {f g : (Fin n → ℝ) → ℝ} (hf : IntegrableOn f (Spec.unitSimplex n)) (hg : IntegrableOn g (Spec.unitSimplex n)) (e : ℝ)
    (h : ∀ x ∈ Spec.unitSimplex n, |f x - g x| ≤ e) :
    |(∫ x in Spec.unitSimplex n, f x) - ∫ x in Spec.unitSimplex n, g x| ≤ e / (n.factorial : ℝ) := by
  rw [← integral_sub hf hg]
  have := norm_setIntegral_le_of_norm_le_const (μ := volume) (s := Spec.unitSimplex n) (f := fun x => f x - g x) (C := e)
    (Integration.isCompact_unit n).measure_lt_top (fun x hx => h x hx)
  rw [Real.norm_eq_abs, volume_unit, mul_one_div] at this
  exact this

theorem triangle_bound (n : ℕ) (h1 : 1 ≤ n) (h4 : n ≤ 4) (f : ℝ → ℝ → ℝ) (e : ℝ) (hf : ∀ x ∈ Spec.unitSimplex 2, |f (x 0) (x 1)| ≤ e) (q : ℝ)
    (hq : unitTriangleFixed f n = .ok q) : |q| ≤ (if n = 3 then 17 / 16 else 1 / 2) * e := by
  have hb : ∀ a b : ℝ, 0 ≤ a → 0 ≤ b → a + b ≤ 1 → |f a b| ≤ e := fun a b ha hb h => hf _ (mem_unit2 ha hb h)
  have he : 0 ≤ e := (abs_nonneg _).trans (hb 0 0 le_rfl le_rfl (by norm_num))
  interval_cases n
  · have hq := Except.ok.inj hq
    have a1 := abs_le.1 (hb (1 / 3) (1 / 3) (by norm_num) (by norm_num) (by norm_num))
    rw [← hq, abs_le]
    norm_num at a1 ⊢
    constructor <;> linarith
  · have hq := Except.ok.inj hq
    have a1 := abs_le.1 (hb (1 / 2) (1 / 2) (by norm_num) (by norm_num) (by norm_num))
    have a2 := abs_le.1 (hb 0 (1 / 2) (by norm_num) (by norm_num) (by norm_num))
    have a3 := abs_le.1 (hb (1 / 2) 0 (by norm_num) (by norm_num) (by norm_num))
    rw [← hq, abs_le]
    norm_num at a1 a2 a3 ⊢
    constructor <;> linarith
  · have hq := Except.ok.inj hq
    have a1 := abs_le.1 (hb (1 / 3) (1 / 3) (by norm_num) (by norm_num) (by norm_num))
    have a2 := abs_le.1 (hb 0.2 0.6 (by norm_num) (by norm_num) (by norm_num))
    have a3 := abs_le.1 (hb 0.6 0.2 (by norm_num) (by norm_num) (by norm_num))
    have a4 := abs_le.1 (hb 0.2 0.2 (by norm_num) (by norm_num) (by norm_num))
    rw [← hq, abs_le]
    norm_num at a1 a2 a3 a4 ⊢
    constructor <;> linarith
  · have hq := Except.ok.inj hq
    have a1 := abs_le.1 (hb 0.108103018168070 0.445948490915965 (by norm_num) (by norm_num) (by norm_num))
    have a2 := abs_le.1 (hb 0.445948490915965 0.108103018168070 (by norm_num) (by norm_num) (by norm_num))
    have a3 := abs_le.1 (hb 0.445948490915965 0.445948490915965 (by norm_num) (by norm_num) (by norm_num))
    have a4 := abs_le.1 (hb 0.816847572980459 0.091576213509771 (by norm_num) (by norm_num) (by norm_num))
    have a5 := abs_le.1 (hb 0.091576213509771 0.816847572980459 (by norm_num) (by norm_num) (by norm_num))
    have a6 := abs_le.1 (hb 0.091576213509771 0.091576213509771 (by norm_num) (by norm_num) (by norm_num))
    rw [← hq, abs_le]
    norm_num at a1 a2 a3 a4 a5 a6 ⊢
    constructor <;> linarith

/-- **C51** `quadrature_unit_triangle_fixed(f, n)` for a function `f` that is within `e` of a polynomial of degree at most `n`: the error is at most
`e` (`25/16 e` for `n = 3`, whose rule has a negative weight), for `n = 4` plus the error caused by the decimals of the constants. -/
theorem C51_unit_triangle_approx (n : ℕ) (h1 : 1 ≤ n) (h4 : n ≤ 4) (f : ℝ → ℝ → ℝ)
    (hf : IntegrableOn (fun x : Fin 2 → ℝ => f (x 0) (x 1)) (Spec.unitSimplex 2)) (p : MvPolynomial (Fin 2) ℝ) (hp : p.totalDegree ≤ n) (e : ℝ)
    (he : ∀ x ∈ Spec.unitSimplex 2, |f (x 0) (x 1) - eval x p| ≤ e) :
    ∃ q, unitTriangleFixed f n = .ok q ∧ |q - ∫ x in Spec.unitSimplex 2, f (x 0) (x 1)| ≤
      (if n = 3 then 25 / 16 else 1) * e + if n ≤ 3 then 0 else 1 / 10 ^ 15 * ∑ d ∈ p.support, |coeff d p| := by
  obtain ⟨L, hL⟩ := triangle_linear n h1 h4
  obtain ⟨q, hq, h3, hd⟩ := C51_unit_triangle n h1 h4 p hp
  refine ⟨_, hL f, ?_⟩
  have hb := triangle_bound n h1 h4 (f - fun x y => eval ![x, y] p) e
    (fun x hx => by simpa only [Pi.sub_apply, vec2] using he x hx) _ (hL _)
  rw [hL] at hq
  rw [map_sub, Except.ok.inj hq] at hb
  have hi := integral_close hf (Integration.integrable_unit (MvPolynomial.continuous_eval p)) e he
  have hr : |q - ∫ x in Spec.unitSimplex 2, eval x p| ≤ if n ≤ 3 then 0 else 1 / 10 ^ 15 * ∑ d ∈ p.support, |coeff d p| := by
    split_ifs with h
    · rw [h3 h, sub_self, abs_zero]
    · exact hd
  rw [abs_le] at hb hi hr ⊢
  norm_num at hi
  split_ifs at hb hr ⊢ <;> constructor <;> linarith

theorem integrable_pulled {n : ℕ} (v : Fin (n + 1) → Fin n → ℝ) {g : (Fin n → ℝ) → ℝ} (hg : ContinuousOn g (Spec.simplex v)) :
    IntegrableOn (fun u => g (Spec.fromUnit v u)) (Spec.unitSimplex n) := by
  refine ContinuousOn.integrableOn_compact (Integration.isCompact_unit n) ?_
  exact hg.comp (Midpoint.continuous_fromUnit v).continuousOn (fun u hu => Integration.simplex_eq_image v ▸ ⟨u, hu, rfl⟩)

/-- **C51** `quadrature_triangle_fixed(f, vertices, n)`: the same for every triangle, times the absolute determinant of the edges (twice the area).
Here `f` is compared, on the triangle, with a polynomial in the coordinates of the plane. -/
theorem C51_triangle_approx (n : ℕ) (h1 : 1 ≤ n) (h4 : n ≤ 3) (v : Fin 3 → Fin 2 → ℝ) (f : ℝ → ℝ → ℝ)
    (hf : ContinuousOn (fun x : Fin 2 → ℝ => f (x 0) (x 1)) (Spec.simplex v))
    (p : MvPolynomial (Fin 2) ℝ) (hp : p.totalDegree ≤ n) (e : ℝ) (he : ∀ x ∈ Spec.simplex v, |f (x 0) (x 1) - eval x p| ≤ e) :
    ∃ q, triangleFixed f v n = .ok q ∧ |q - ∫ x in Spec.simplex v, f (x 0) (x 1)| ≤ |Spec.edgeDet v| * ((if n = 3 then 25 / 16 else 1) * e) := by
  obtain ⟨q, hq, hd⟩ := C51_unit_triangle_approx n h1 (by omega) (fun x y => f (Spec.fromUnit v ![x, y] 0) (Spec.fromUnit v ![x, y] 1))
    (by simpa only [vec2] using integrable_pulled v hf) (pullback (Integration.edges v) (v 0) p) ((degree_pullback _ _ p).trans hp) e (by
      intro u hu
      rw [eval_pullback, ← Integration.fromUnit_eq, vec2]
      exact he _ (Integration.simplex_eq_image v ▸ ⟨u, hu, rfl⟩))
  simp only [vec2, if_pos h4, add_zero] at hd
  refine ⟨|Spec.edgeDet v| * q, ?_, ?_⟩
  · unfold triangleFixed affineFromUnit
    simp only [le_refl, decide_true, pyAssert_true, Py.bind_ok, Py.pure_eq]
    have hfun : (fun x y => f (createAffineMap (Matrix.of fun j i => v i.succ j - v 0 j, v 0) ![x, y] 0)
        (createAffineMap (Matrix.of fun j i => v i.succ j - v 0 j, v 0) ![x, y] 1)) =
        fun x y => f (Spec.fromUnit v ![x, y] 0) (Spec.fromUnit v ![x, y] 1) := by
      funext x y
      rw [Integration.fromUnit_eq]
      rfl
    rw [hfun, hq]
    rfl
  · rw [Integration.integral_simplex_all]
    change |_ - |Spec.edgeDet v| * _| ≤ _
    rw [← mul_sub, abs_mul, abs_abs]
    exact mul_le_mul_of_nonneg_left hd (abs_nonneg _)

/-! ## Tetrahedra -/

theorem tetrahedron_bound (n : ℕ) (h1 : 1 ≤ n) (h4 : n ≤ 4) (f : ℝ → ℝ → ℝ → ℝ) (e : ℝ) (hf : ∀ x ∈ Spec.unitSimplex 3, |f (x 0) (x 1) (x 2)| ≤ e)
    (q : ℝ) (hq : unitTetrahedronFixed f n = .ok q) : |q| ≤ (if n = 3 then 13 / 30 else 1 / 6 + 1 / 10 ^ 30) * e := by
  have hb : ∀ a b c : ℝ, 0 ≤ a → 0 ≤ b → 0 ≤ c → a + b + c ≤ 1 → |f a b c| ≤ e := fun a b c ha hb hc h => hf _ (mem_unit3 ha hb hc h)
  have he : 0 ≤ e := (abs_nonneg _).trans (hb 0 0 0 le_rfl le_rfl le_rfl (by norm_num))
  interval_cases n
  · have hq := Except.ok.inj hq
    have a1 := abs_le.1 (hb (1 / 4) (1 / 4) (1 / 4) (by norm_num) (by norm_num) (by norm_num) (by norm_num))
    rw [← hq, abs_le]
    norm_num at a1 ⊢
    constructor <;> linarith
  · have hq := Except.ok.inj hq
    have a1 := abs_le.1 (hb 0.58541019662496852 0.1381966011250105 0.1381966011250105 (by norm_num) (by norm_num) (by norm_num) (by norm_num))
    have a2 := abs_le.1 (hb 0.1381966011250105 0.58541019662496852 0.1381966011250105 (by norm_num) (by norm_num) (by norm_num) (by norm_num))
    have a3 := abs_le.1 (hb 0.1381966011250105 0.1381966011250105 0.58541019662496852 (by norm_num) (by norm_num) (by norm_num) (by norm_num))
    have a4 := abs_le.1 (hb 0.1381966011250105 0.1381966011250105 0.1381966011250105 (by norm_num) (by norm_num) (by norm_num) (by norm_num))
    rw [← hq, abs_le]
    norm_num at a1 a2 a3 a4 ⊢
    constructor <;> linarith
  · have hq := Except.ok.inj hq
    have a1 := abs_le.1 (hb (1 / 4) (1 / 4) (1 / 4) (by norm_num) (by norm_num) (by norm_num) (by norm_num))
    have a2 := abs_le.1 (hb 0.5 (1 / 6) (1 / 6) (by norm_num) (by norm_num) (by norm_num) (by norm_num))
    have a3 := abs_le.1 (hb (1 / 6) 0.5 (1 / 6) (by norm_num) (by norm_num) (by norm_num) (by norm_num))
    have a4 := abs_le.1 (hb (1 / 6) (1 / 6) 0.5 (by norm_num) (by norm_num) (by norm_num) (by norm_num))
    have a5 := abs_le.1 (hb (1 / 6) (1 / 6) (1 / 6) (by norm_num) (by norm_num) (by norm_num) (by norm_num))
    rw [← hq, abs_le]
    norm_num at a1 a2 a3 a4 a5 ⊢
    constructor <;> linarith
  · have hq := Except.ok.inj hq
    have a1 := abs_le.1 (hb 0.7217942490673264 0.09273525031089122628655892066032137 0.09273525031089122628655892066032137 (by norm_num) (by norm_num) (by norm_num) (by norm_num))
    have a2 := abs_le.1 (hb 0.09273525031089122628655892066032137 0.7217942490673264 0.09273525031089122628655892066032137 (by norm_num) (by norm_num) (by norm_num) (by norm_num))
    have a3 := abs_le.1 (hb 0.09273525031089122628655892066032137 0.09273525031089122628655892066032137 0.7217942490673264 (by norm_num) (by norm_num) (by norm_num) (by norm_num))
    have a4 := abs_le.1 (hb 0.09273525031089122628655892066032137 0.09273525031089122628655892066032137 0.09273525031089122628655892066032137 (by norm_num) (by norm_num) (by norm_num) (by norm_num))
    have a5 := abs_le.1 (hb 0.06734224221009821 0.31088591926330060975814749494040332 0.31088591926330060975814749494040332 (by norm_num) (by norm_num) (by norm_num) (by norm_num))
    have a6 := abs_le.1 (hb 0.31088591926330060975814749494040332 0.06734224221009821 0.31088591926330060975814749494040332 (by norm_num) (by norm_num) (by norm_num) (by norm_num))
    have a7 := abs_le.1 (hb 0.31088591926330060975814749494040332 0.31088591926330060975814749494040332 0.06734224221009821 (by norm_num) (by norm_num) (by norm_num) (by norm_num))
    have a8 := abs_le.1 (hb 0.31088591926330060975814749494040332 0.31088591926330060975814749494040332 0.31088591926330060975814749494040332 (by norm_num) (by norm_num) (by norm_num) (by norm_num))
    have a9 := abs_le.1 (hb 0.04550370412564965000000000000000000 0.04550370412564965000000000000000000 0.45449629587435036 (by norm_num) (by norm_num) (by norm_num) (by norm_num))
    have a10 := abs_le.1 (hb 0.04550370412564965000000000000000000 0.45449629587435036 0.04550370412564965000000000000000000 (by norm_num) (by norm_num) (by norm_num) (by norm_num))
    have a11 := abs_le.1 (hb 0.04550370412564965000000000000000000 0.45449629587435036 0.45449629587435036 (by norm_num) (by norm_num) (by norm_num) (by norm_num))
    have a12 := abs_le.1 (hb 0.45449629587435036 0.04550370412564965000000000000000000 0.04550370412564965000000000000000000 (by norm_num) (by norm_num) (by norm_num) (by norm_num))
    have a13 := abs_le.1 (hb 0.45449629587435036 0.04550370412564965000000000000000000 0.45449629587435036 (by norm_num) (by norm_num) (by norm_num) (by norm_num))
    have a14 := abs_le.1 (hb 0.45449629587435036 0.45449629587435036 0.04550370412564965000000000000000000 (by norm_num) (by norm_num) (by norm_num) (by norm_num))
    rw [← hq, abs_le]
    norm_num at a1 a2 a3 a4 a5 a6 a7 a8 a9 a10 a11 a12 a13 a14 ⊢
    constructor <;> linarith

/-- **C51** `quadrature_unit_tetrahedron_fixed(f, n)`, in the same way: the error is at most `e / 3` (up to the decimals of the weights), `3/5 e` for
`n = 3`, plus the error caused by the decimals of the constants for `n = 2, 4`. -/
theorem C51_unit_tetrahedron_approx (n : ℕ) (h1 : 1 ≤ n) (h4 : n ≤ 4) (f : ℝ → ℝ → ℝ → ℝ)
    (hf : IntegrableOn (fun x : Fin 3 → ℝ => f (x 0) (x 1) (x 2)) (Spec.unitSimplex 3)) (p : MvPolynomial (Fin 3) ℝ) (hp : p.totalDegree ≤ n) (e : ℝ)
    (he : ∀ x ∈ Spec.unitSimplex 3, |f (x 0) (x 1) (x 2) - eval x p| ≤ e) :
    ∃ q, unitTetrahedronFixed f n = .ok q ∧ |q - ∫ x in Spec.unitSimplex 3, f (x 0) (x 1) (x 2)| ≤
      (if n = 3 then 3 / 5 else 1 / 3 + 1 / 10 ^ 30) * e + if n = 1 ∨ n = 3 then 0 else 3 / 10 ^ 18 * ∑ d ∈ p.support, |coeff d p| := by
  obtain ⟨L, hL⟩ := tetrahedron_linear n h1 h4
  obtain ⟨q, hq, h3, hd⟩ := C51_unit_tetrahedron n h1 h4 p hp
  refine ⟨_, hL f, ?_⟩
  have hb := tetrahedron_bound n h1 h4 (f - fun x y z => eval ![x, y, z] p) e
    (fun x hx => by simpa only [Pi.sub_apply, vec3] using he x hx) _ (hL _)
  rw [hL] at hq
  rw [map_sub, Except.ok.inj hq] at hb
  have hi := integral_close hf (Integration.integrable_unit (MvPolynomial.continuous_eval p)) e he
  have hr : |q - ∫ x in Spec.unitSimplex 3, eval x p| ≤ if n = 1 ∨ n = 3 then 0 else 3 / 10 ^ 18 * ∑ d ∈ p.support, |coeff d p| := by
    split_ifs with h
    · rw [h3 h, sub_self, abs_zero]
    · exact hd
  rw [abs_le] at hb hi hr ⊢
  norm_num [Nat.factorial] at hi
  rw [ite_mul] at hb ⊢
  set R := (if n = 1 ∨ n = 3 then (0 : ℝ) else 3 / 10 ^ 18 * ∑ d ∈ p.support, |coeff d p|)
  split_ifs at hb ⊢ <;> constructor <;> linarith

/-- **C51** `quadrature_tetrahedron_fixed(f, vertices, n)` for every tetrahedron and the rules with exact constants. -/
theorem C51_tetrahedron_approx (n : ℕ) (h13 : n = 1 ∨ n = 3) (v : Fin 4 → Fin 3 → ℝ) (f : ℝ → ℝ → ℝ → ℝ)
    (hf : ContinuousOn (fun x : Fin 3 → ℝ => f (x 0) (x 1) (x 2)) (Spec.simplex v))
    (p : MvPolynomial (Fin 3) ℝ) (hp : p.totalDegree ≤ n) (e : ℝ) (he : ∀ x ∈ Spec.simplex v, |f (x 0) (x 1) (x 2) - eval x p| ≤ e) :
    ∃ q, tetrahedronFixed f v n = .ok q ∧ |q - ∫ x in Spec.simplex v, f (x 0) (x 1) (x 2)| ≤
      |Spec.edgeDet v| * ((if n = 3 then 3 / 5 else 1 / 3 + 1 / 10 ^ 30) * e) := by
  obtain ⟨q, hq, hd⟩ := C51_unit_tetrahedron_approx n (by omega) (by omega)
    (fun x y z => f (Spec.fromUnit v ![x, y, z] 0) (Spec.fromUnit v ![x, y, z] 1) (Spec.fromUnit v ![x, y, z] 2))
    (by simpa only [vec3] using integrable_pulled v hf) (pullback (Integration.edges v) (v 0) p) ((degree_pullback _ _ p).trans hp) e (by
      intro u hu
      rw [eval_pullback, ← Integration.fromUnit_eq, vec3]
      exact he _ (Integration.simplex_eq_image v ▸ ⟨u, hu, rfl⟩))
  simp only [vec3] at hd
  rw [if_pos h13, add_zero] at hd
  refine ⟨|Spec.edgeDet v| * q, ?_, ?_⟩
  · unfold tetrahedronFixed affineFromUnit
    simp only [le_refl, decide_true, pyAssert_true, Py.bind_ok, Py.pure_eq]
    have hfun : (fun x y z => f (createAffineMap (Matrix.of fun j i => v i.succ j - v 0 j, v 0) ![x, y, z] 0)
        (createAffineMap (Matrix.of fun j i => v i.succ j - v 0 j, v 0) ![x, y, z] 1)
        (createAffineMap (Matrix.of fun j i => v i.succ j - v 0 j, v 0) ![x, y, z] 2)) =
        fun x y z => f (Spec.fromUnit v ![x, y, z] 0) (Spec.fromUnit v ![x, y, z] 1) (Spec.fromUnit v ![x, y, z] 2) := by
      funext x y z
      rw [Integration.fromUnit_eq]
      rfl
    rw [hfun, hq]
    rfl
  · rw [Integration.integral_simplex_all]
    change |_ - |Spec.edgeDet v| * _| ≤ _
    rw [← mul_sub, abs_mul, abs_abs]
    exact mul_le_mul_of_nonneg_left hd (abs_nonneg _)

/-! ## Intervals -/

/-- **C51** `quadrature_unit_interval_fixed(f, r)` for a continuous function that is within `e` of a polynomial of degree at most `r`: the error is at
most `2 e`. As the Gauss-Legendre rules do, the rule has points in `[-1, 1]` and weights that are not negative. -/
theorem C51_unit_interval_approx (rule : ℕ → List (ℝ × ℝ)) (h : IsGaussLegendre rule) (hpos : ∀ n, ∀ q ∈ rule n, -1 ≤ q.1 ∧ q.1 ≤ 1 ∧ 0 ≤ q.2)
    (r : ℕ) (f : ℝ → ℝ) (hf : ContinuousOn f (Set.Icc 0 1)) (p : Polynomial ℝ) (hp : p.natDegree ≤ r) (e : ℝ)
    (he : ∀ x, 0 ≤ x → x ≤ 1 → |f x - p.eval x| ≤ e) :
    |unitIntervalFixed rule f r - ∫ x in (0 : ℝ)..1, f x| ≤ 2 * e := by
  have h1 := C51_unit_interval rule h r p hp
  have h0 := C51_unit_interval rule h r 1 (by simp)
  have hi : |(∫ x in (0 : ℝ)..1, f x) - ∫ x in (0 : ℝ)..1, p.eval x| ≤ e := by
    rw [← intervalIntegral.integral_sub (by
      apply ContinuousOn.intervalIntegrable
      rwa [Set.uIcc_of_le (zero_le_one' ℝ)]) (p.continuous.intervalIntegrable _ _)]
    have := intervalIntegral.norm_integral_le_of_norm_le_const (a := 0) (b := 1) (f := fun x => f x - p.eval x) (C := e) (fun x hx => by
      rw [Set.uIoc_of_le zero_le_one] at hx
      exact he x hx.1.le hx.2)
    simpa using this
  have hw : |unitIntervalFixed rule f r - unitIntervalFixed rule (fun x => p.eval x) r| ≤ e * unitIntervalFixed rule (fun x => (1 : Polynomial ℝ).eval x) r := by
    unfold unitIntervalFixed
    simp only [foldl_sum, zero_add]
    have hg : ∀ q ∈ gaussLegendreUnitInterval rule (⌈((r : ℚ) + 1) / 2⌉).toNat, 0 ≤ q.1 ∧ q.1 ≤ 1 ∧ 0 ≤ q.2 := by
      intro q hq
      obtain ⟨q', hq', rfl⟩ := List.mem_map.1 hq
      obtain ⟨b1, b2, b3⟩ := hpos _ q' hq'
      refine ⟨?_, ?_, ?_⟩
      · show 0 ≤ (q'.1 + 1) / 2
        linarith
      · show (q'.1 + 1) / 2 ≤ 1
        linarith
      · show 0 ≤ 0.5 * q'.2
        positivity
    generalize gaussLegendreUnitInterval rule (⌈((r : ℚ) + 1) / 2⌉).toNat = l at hg
    induction l with
    | nil => simp
    | cons q l ih =>
      have ih := ih (fun q' hq' => hg q' (List.mem_cons_of_mem _ hq'))
      obtain ⟨b1, b2, b3⟩ := hg q List.mem_cons_self
      have hx := abs_le.1 (he q.1 b1 b2)
      simp only [List.map_cons, List.sum_cons, Polynomial.eval_one, mul_one] at ih ⊢
      rw [abs_le] at ih ⊢
      constructor <;> nlinarith [mul_le_mul_of_nonneg_left hx.1 b3, mul_le_mul_of_nonneg_left hx.2 b3]
  rw [h0] at hw
  simp only [Polynomial.eval_one, intervalIntegral.integral_const, sub_zero, smul_eq_mul, mul_one] at hw
  rw [h1] at hw
  rw [abs_le] at hi hw ⊢
  constructor <;> linarith

/-- **C51** `quadrature_interval_fixed(f, a, b, n)`: the error is at most `2 e` times the length of the interval, with end points in either order. -/
theorem C51_interval_approx (rule : ℕ → List (ℝ × ℝ)) (h : IsGaussLegendre rule) (hpos : ∀ n, ∀ q ∈ rule n, -1 ≤ q.1 ∧ q.1 ≤ 1 ∧ 0 ≤ q.2)
    (a b : ℝ) (n : ℕ) (f : ℝ → ℝ) (hf : ContinuousOn f (Set.uIcc a b)) (p : Polynomial ℝ) (hp : p.natDegree ≤ n) (e : ℝ)
    (he : ∀ x, min a b ≤ x → x ≤ max a b → |f x - p.eval x| ≤ e) :
    ∃ q, intervalFixed rule f a b n = .ok q ∧ |q - ∫ x in min a b..max a b, f x| ≤ |b - a| * (2 * e) := by
  set g : Polynomial ℝ := Polynomial.C (b - a) * Polynomial.X + Polynomial.C a with hg
  have hgd : g.natDegree ≤ 1 := Polynomial.natDegree_linear_le
  have heval : ∀ x, (p.comp g).eval x = p.eval ((b - a) * x + a) := by
    intro x
    rw [Polynomial.eval_comp]
    congr 1
    simp [hg]
  have hdeg : (p.comp g).natDegree ≤ n := by
    refine Polynomial.natDegree_comp_le.trans ?_
    calc p.natDegree * g.natDegree ≤ n * 1 := Nat.mul_le_mul hp hgd
      _ = n := mul_one n
  have hmem : ∀ x, 0 ≤ x → x ≤ 1 → min a b ≤ (b - a) * x + a ∧ (b - a) * x + a ≤ max a b := by
    intro x h0 h1
    rcases le_total a b with hab | hab
    · rw [min_eq_left hab, max_eq_right hab]
      constructor <;> nlinarith
    · rw [min_eq_right hab, max_eq_left hab]
      constructor <;> nlinarith
  have hu := C51_unit_interval_approx rule h hpos n (fun x => f ((b - a) * x + a))
    (hf.comp (by fun_prop) (fun x hx => hmem x hx.1 hx.2)) (p.comp g) hdeg e (fun x h0 h1 => by
      rw [heval]
      exact he _ (hmem x h0 h1).1 (hmem x h0 h1).2)
  refine ⟨|b - a| * unitIntervalFixed rule (fun x => f ((b - a) * x + a)) n, ?_, ?_⟩
  · unfold intervalFixed affineFromUnit
    simp only [le_refl, decide_true, pyAssert_true, Py.bind_ok, Py.pure_eq]
    have e : ∀ phi : Affine ℝ 1 1, phi.1 0 0 = b - a → phi.2 0 = a →
        (fun x => f (createAffineMap phi (fun _ => x) 0)) = fun x => f ((b - a) * x + a) := by
      intro phi h1 h2
      funext x
      simp [createAffineMap, Matrix.mulVec, dotProduct, h1, h2]
    rw [e _ (by simp) (by simp)]
    simp
  · have hsub := intervalIntegral.mul_integral_comp_mul_add (a := 0) (b := 1) (f := f) (b - a) a
    rw [mul_zero, zero_add, mul_one, sub_add_cancel] at hsub
    have hint : ∫ x in min a b..max a b, f x = |b - a| * ∫ x in (0 : ℝ)..1, f ((b - a) * x + a) := by
      rcases le_total a b with hab | hab
      · rw [min_eq_left hab, max_eq_right hab, abs_of_nonneg (by linarith), hsub]
      · rw [min_eq_right hab, max_eq_left hab, abs_of_nonpos (by linarith), neg_mul, hsub, ← intervalIntegral.integral_symm]
    rw [hint, ← mul_sub, abs_mul, abs_abs]
    exact mul_le_mul_of_nonneg_left hu (abs_nonneg _)

/-! ## Examples -/

/-- The exponential function, which is within 1 of `1 + x` on the unit triangle. -/
example : ∃ q, unitTriangleFixed (fun x _ => Real.exp x) 1 = .ok q ∧ |q - ∫ x in Spec.unitSimplex 2, Real.exp (x 0)| ≤ 1 := by
  obtain ⟨q, hq, h⟩ := C51_unit_triangle_approx 1 le_rfl (by norm_num) (fun x _ => Real.exp x)
    (Integration.integrable_unit (by fun_prop)) (C 1 + X 0) ((totalDegree_add _ _).trans (max_le (by simp) (by simp))) 1 (by
      intro x hx
      have h0 := hx.1 0
      have h1 : x 0 ≤ 1 := by
        have := hx.2
        rw [Fin.sum_univ_two] at this
        linarith [hx.1 1]
      have := Real.abs_exp_sub_one_sub_id_le (x := x 0) (by rw [abs_of_nonneg h0]; exact h1)
      simp only [eval_add, eval_C, eval_X]
      rw [← sub_sub]
      exact this.trans (by nlinarith))
  exact ⟨q, hq, by simpa using h⟩

/-- The moments up to degree `2 n` of some positive combination of at most `2 n + 1` points. -/
theorem moments_closed (d : ℕ) : convexHull ℝ ((fun x : ℝ => fun k : Fin d => x ^ (k : ℕ)) '' Set.Icc (-1) 1) ⊆
    (fun q : (Fin (d + 1) → ℝ) × (Fin (d + 1) → ℝ) => fun k : Fin d => ∑ i, q.1 i * q.2 i ^ (k : ℕ)) ''
      (stdSimplex ℝ (Fin (d + 1)) ×ˢ Set.univ.pi fun _ => Set.Icc (-1) 1) := by
  intro y hy
  obtain ⟨ι, _, z, w, hz, hind, hw, hw1, rfl⟩ := eq_pos_convex_span_of_mem_convexHull hy
  have hcard : Fintype.card ι ≤ Fintype.card (Fin (d + 1)) := by
    refine hind.card_le_finrank_succ.trans ?_
    have := Submodule.finrank_le (vectorSpan ℝ (Set.range z))
    simp only [Module.finrank_fintype_fun_eq_card, Fintype.card_fin] at this ⊢
    omega
  obtain ⟨g⟩ := Function.Embedding.nonempty_of_card_le hcard
  choose x hx hxz using fun i => hz (Set.mem_range_self i)
  have hout : ∀ j, j ∉ Set.range g → Function.extend g w 0 j = 0 := fun j hj => by
    rw [Function.extend_apply' _ _ _ (fun h => hj h)]
    rfl
  refine ⟨(Function.extend g w 0, Function.extend g x 0), ⟨⟨fun j => ?_, ?_⟩, fun j _ => ?_⟩, ?_⟩
  · by_cases hj : ∃ i, g i = j
    · obtain ⟨i, rfl⟩ := hj
      show 0 ≤ Function.extend g w 0 (g i)
      rw [g.injective.extend_apply]
      exact (hw i).le
    · exact (hout j hj).ge
  · rw [← hw1]
    exact (Fintype.sum_of_injective g g.injective _ _ hout (fun i => (g.injective.extend_apply _ _ i).symm)).symm
  · by_cases hj : ∃ i, g i = j
    · obtain ⟨i, rfl⟩ := hj
      show Function.extend g x 0 (g i) ∈ _
      rw [g.injective.extend_apply]
      exact hx i
    · show Function.extend g x 0 j ∈ _
      rw [Function.extend_apply' _ _ _ hj]
      show (0 : ℝ) ∈ Set.Icc (-1 : ℝ) 1
      constructor <;> norm_num
  · funext k
    rw [Finset.sum_apply]
    refine (Fintype.sum_of_injective g g.injective _ _ (fun j hj => ?_) (fun i => ?_)).symm
    · show Function.extend g w 0 j * Function.extend g x 0 j ^ (k : ℕ) = 0
      rw [hout j hj, zero_mul]
    · show (w i • z i) k = Function.extend g w 0 (g i) * Function.extend g x 0 (g i) ^ (k : ℕ)
      rw [g.injective.extend_apply, g.injective.extend_apply, ← hxz i]
      rfl

/-- There are rules as the theorem about intervals assumes them: with the degree of the Gauss-Legendre rules, points in `[-1, 1]` and weights that are
not negative. -/
theorem exists_positive_rule : ∃ rule, IsGaussLegendre rule ∧ ∀ n, ∀ q ∈ rule n, -1 ≤ q.1 ∧ q.1 ≤ 1 ∧ 0 ≤ q.2 := by
  have key : ∀ n : ℕ, ∃ l : List (ℝ × ℝ), (∀ p : Polynomial ℝ, p.degree < ((2 * n : ℕ) : WithBot ℕ) →
      (l.map (fun q => q.2 * p.eval q.1)).sum = ∫ x in (-1 : ℝ)..1, p.eval x) ∧ ∀ q ∈ l, -1 ≤ q.1 ∧ q.1 ≤ 1 ∧ 0 ≤ q.2 := by
    intro n
    set d := 2 * n with hd
    have hcl : IsClosed ((fun q : (Fin (d + 1) → ℝ) × (Fin (d + 1) → ℝ) => fun k : Fin d => ∑ i, q.1 i * q.2 i ^ (k : ℕ)) ''
        (stdSimplex ℝ (Fin (d + 1)) ×ˢ Set.univ.pi fun _ => Set.Icc (-1 : ℝ) 1)) :=
      (((isCompact_stdSimplex ℝ (Fin (d + 1))).prod (isCompact_univ_pi fun _ => isCompact_Icc)).image (by fun_prop)).isClosed
    have hcont : Continuous (fun x : ℝ => fun k : Fin d => x ^ (k : ℕ)) := by fun_prop
    have hmem := (convex_convexHull ℝ ((fun x : ℝ => fun k : Fin d => x ^ (k : ℕ)) '' Set.Icc (-1) 1)).set_average_mem_closure
      (μ := volume) (t := Set.Icc (-1) 1) (f := fun x : ℝ => fun k : Fin d => x ^ (k : ℕ)) (by simp) (by simp)
      (ae_restrict_of_forall_mem measurableSet_Icc fun x hx => subset_convexHull ℝ _ ⟨x, hx, rfl⟩)
      (hcont.continuousOn.integrableOn_compact isCompact_Icc)
    obtain ⟨⟨w, x⟩, ⟨hw, hx⟩, he⟩ := closure_minimal (moments_closed d) hcl hmem
    have hmom : ∀ k : Fin d, ∑ i, 2 * w i * x i ^ (k : ℕ) = ∫ t in (-1 : ℝ)..1, t ^ (k : ℕ) := by
      intro k
      have : ∑ i, w i * x i ^ (k : ℕ) = _ := congrFun he k
      rw [setAverage_eq, Pi.smul_apply, eval_integral (fun k => ((continuous_pow _).continuousOn.integrableOn_compact isCompact_Icc))] at this
      simp only [mul_assoc]
      rw [← Finset.mul_sum, this, intervalIntegral.integral_of_le (by norm_num), integral_Icc_eq_integral_Ioc]
      rw [Real.volume_real_Icc_of_le (by norm_num), smul_eq_mul, ← mul_assoc]
      norm_num
    refine ⟨List.ofFn fun i => (x i, 2 * w i), fun p hp => ?_, fun q hq => ?_⟩
    · rw [List.map_ofFn, List.sum_ofFn]
      rcases Nat.eq_zero_or_pos d with h0 | h0
      · rw [h0] at hp
        have : p = 0 := by
          rw [← Polynomial.degree_eq_bot]
          exact Nat.WithBot.lt_zero_iff.1 (by simpa using hp)
        simp [this]
      have hnd : p.natDegree < d := by
        by_cases hp0 : p = 0
        · simpa [hp0] using h0
        · exact (Polynomial.natDegree_lt_iff_degree_lt hp0).2 hp
      simp only [Function.comp, Polynomial.eval_eq_sum_range' hnd]
      rw [intervalIntegral.integral_finsetSum (fun i _ => Continuous.intervalIntegrable (by fun_prop) _ _)]
      simp only [Finset.mul_sum]
      rw [Finset.sum_comm]
      refine Finset.sum_congr rfl (fun k hk => ?_)
      rw [intervalIntegral.integral_const_mul, ← hmom ⟨k, Finset.mem_range.1 hk⟩, Finset.mul_sum]
      refine Finset.sum_congr rfl (fun i _ => ?_)
      ring
    · obtain ⟨i, rfl⟩ := (List.mem_ofFn' _ _).1 hq
      exact ⟨(hx i trivial).1, (hx i trivial).2, mul_nonneg zero_le_two (hw.1 i)⟩
  choose rule h1 h2 using key
  exact ⟨rule, h1, h2⟩

/-- The square root of `x + 1`, which is within 1 of the constant 1. -/
example : ∃ rule, |unitIntervalFixed rule (fun x => Real.sqrt (x + 1)) 3 - ∫ x in (0 : ℝ)..1, Real.sqrt (x + 1)| ≤ 2 := by
  obtain ⟨rule, h1, h2⟩ := exists_positive_rule
  refine ⟨rule, ?_⟩
  have := C51_unit_interval_approx rule h1 h2 3 (fun x => Real.sqrt (x + 1)) (by fun_prop) 1 (by simp) 1 (by
    intro x hx0 hx1
    have a1 : 1 ≤ Real.sqrt (x + 1) := Real.one_le_sqrt.2 (by linarith)
    have a2 : Real.sqrt (x + 1) ≤ 2 := Real.sqrt_le_iff.2 ⟨by norm_num, by linarith⟩
    rw [Polynomial.eval_one, abs_le]
    constructor <;> linarith)
  simpa using this

end Verif.Quadrature
