import Verif.Model.FloatDifference
import Verif.Lemmas.FloatPolynomial
import Verif.Props.FiniteDifferenceOrder
/-!
# C101: the accuracy of finite differences in floating point arithmetic
-/

namespace Verif.Props
open Verif Verif.FloatPoly Verif.FloatDifference Verif.FinDiff Verif.PyExpr Set

namespace C101aux

theorem quotient {ε h d T y : ℝ} {A B : Set ℝ} (hε : 0 ≤ ε) (hh : h ≠ 0) (hAB : ∀ a ∈ A, ∀ b ∈ B, |a - b - h * d| ≤ T)
    (hy : y ∈ FloatPoly.div ε (FloatPoly.sub ε A B) {h}) : |y - d| ≤ (1 + ε) ^ 2 * T / |h| + ((1 + ε) ^ 2 - 1) * |d| := by
  obtain ⟨s, ⟨a, ha, b, hb, hs⟩, c, rfl, hy⟩ := hy
  have ha0 : 0 < |c| := abs_pos.2 hh
  have hT := hAB a ha b hb
  unfold Rounded at hs hy
  set v := (a - b) / c with hv
  have e1 : |s / c - v| ≤ ε * |v| := by
    rw [hv, ← sub_div, abs_div, abs_div, ← mul_div_assoc]
    exact (div_le_div_iff_of_pos_right ha0).2 hs
  have e2 : |s / c| ≤ (1 + ε) * |v| := by
    have : |s / c| ≤ |s / c - v| + |v| := by simpa using abs_add_le (s / c - v) v
    linarith
  have e3 : |v - d| ≤ T / |c| := by
    rw [le_div_iff₀ ha0, ← abs_mul, show (v - d) * c = a - b - c * d by rw [hv]; field_simp]
    exact hT
  have e4 : |v| ≤ T / |c| + |d| := by
    have : |v| ≤ |v - d| + |d| := by simpa using abs_add_le (v - d) d
    linarith
  have e5 : |y - d| ≤ |y - s / c| + |s / c - v| + |v - d| := by
    calc |y - d| = |(y - s / c) + (s / c - v) + (v - d)| := by congr 1; ring
      _ ≤ _ := (abs_add_le _ _).trans (by linarith [abs_add_le (y - s / c) (s / c - v)])
  have e6 : ε * |s / c| ≤ ε * ((1 + ε) * |v|) := mul_le_mul_of_nonneg_left e2 hε
  have e7 : (ε * (1 + ε) + ε) * |v| ≤ (ε * (1 + ε) + ε) * (T / |c| + |d|) := mul_le_mul_of_nonneg_left e4 (by positivity)
  calc |y - d| ≤ (ε * (1 + ε) + ε) * (T / |c| + |d|) + T / |c| := by linarith
    _ = _ := by ring

theorem nonempty {ε δ : ℝ} (hε : 0 ≤ ε) (hδ : 0 ≤ δ) (F : ℝ → ℝ) {A B : Set ℝ} (hA : A.Nonempty) (hB : B.Nonempty) (h : ℝ) :
    (FloatPoly.div ε (FloatPoly.sub ε (eval δ F A) (eval δ F B)) {h}).Nonempty := by
  obtain ⟨a, ha⟩ := hA
  obtain ⟨b, hb⟩ := hB
  exact ⟨_, _, ⟨F a, ⟨a, ha, by simpa using hδ⟩, F b, ⟨b, hb, by simpa using hδ⟩, rounded_self hε⟩, h, rfl, rounded_self hε⟩

theorem mem_of_uIcc {x k t ρ : ℝ} (hk : |k| ≤ ρ) (ht : t ∈ uIcc 0 k) : |x + t - x| ≤ ρ := by
  rw [add_sub_cancel_left]
  have := abs_sub_left_of_mem_uIcc ht
  simp only [sub_zero] at this
  exact this.trans hk

end C101aux
open C101aux

/-- **C101** The forward difference of a univariate function in floating point arithmetic. If every operation has a relative error of at most `ε` and the
function is computed with an error of at most `δ`, then the error of the forward difference is bounded by the errors of the two values and of the point
`x + h`, the error of first order of the method and the relative errors of the difference and the quotient. -/
theorem C101_forward_rounding (ε δ : ℝ) (hε : 0 ≤ ε) (hδ : 0 ≤ δ) (F D D2 : ℝ → ℝ) (x h M : ℝ) (hh : h ≠ 0)
    (h1 : ∀ t, |t - x| ≤ |h| + ε * |x + h| → HasDerivAt F (D t) t) (h2 : ∀ t, |t - x| ≤ |h| + ε * |x + h| → HasDerivAt D (D2 t) t)
    (hM : ∀ t, |t - x| ≤ |h| + ε * |x + h| → |D2 t| ≤ M) :
    (FloatDifference.forward1 ε δ F x h).Nonempty ∧ ∀ y ∈ FloatDifference.forward1 ε δ F x h,
      |y - D x| ≤ (1 + ε) ^ 2 * (2 * δ + ε * |x + h| * |D x| + M / 2 * (|h| + ε * |x + h|) ^ 2) / |h| + ((1 + ε) ^ 2 - 1) * |D x| := by
  refine ⟨nonempty hε hδ F (A := FloatPoly.add ε {x} {h}) (B := {x}) ⟨x + h, x, rfl, h, rfl, rounded_self hε⟩ ⟨x, rfl⟩ h, fun y hy => quotient hε hh ?_ hy⟩
  rintro a ⟨z, ⟨x', rfl, h', rfl, hz⟩, ha⟩ b ⟨x'', rfl, hb⟩
  unfold Rounded at hz
  set k := z - x'' with hk
  have hz' : |k - h'| ≤ ε * |x'' + h'| := by rw [hk, sub_sub]; exact hz
  have hkρ : |k| ≤ |h'| + ε * |x'' + h'| := by
    have : |k| ≤ |k - h'| + |h'| := by simpa using abs_add_le (k - h') h'
    linarith
  have hM0 : 0 ≤ M := (abs_nonneg _).trans (hM x'' (by simp; positivity))
  have t := taylor2 (φ := fun t => F (x'' + t)) (φ1 := fun t => D (x'' + t)) (φ2 := fun t => D2 (x'' + t)) (M := M) (h := k)
    (fun t ht => shift_deriv (h1 _ (mem_of_uIcc hkρ ht))) (fun t ht => shift_deriv (h2 _ (mem_of_uIcc hkρ ht))) (fun t ht => hM _ (mem_of_uIcc hkρ ht))
  rw [Real.norm_eq_abs, smul_eq_mul, add_zero, hk, add_sub_cancel, ← hk, ← sq_abs] at t
  have t2 : M / 2 * |k| ^ 2 ≤ M / 2 * (|h'| + ε * |x'' + h'|) ^ 2 := mul_le_mul_of_nonneg_left (pow_le_pow_left₀ (abs_nonneg _) hkρ 2) (by positivity)
  have t3 : |(k - h') * D x''| ≤ ε * |x'' + h'| * |D x''| := by rw [abs_mul]; exact mul_le_mul_of_nonneg_right hz' (abs_nonneg _)
  calc |a - b - h' * D x''| = |(a - F z) - (b - F x'') + (F z - F x'' - k * D x'') + (k - h') * D x''| := by congr 1; ring
    _ ≤ |a - F z| + |b - F x''| + |F z - F x'' - k * D x''| + |(k - h') * D x''| := by
      refine (abs_add_le _ _).trans (add_le_add_left ((abs_add_le _ _).trans (add_le_add_left (abs_sub _ _) _)) _)
    _ ≤ _ := by linarith

/-- **C101** The central difference of a univariate function in floating point arithmetic; `η` bounds the errors of the two points, and `ρ` their distances
from `x`. -/
theorem C101_central_rounding (ε δ : ℝ) (hε : 0 ≤ ε) (hδ : 0 ≤ δ) (F D D2 D3 : ℝ → ℝ) (x h M η ρ : ℝ) (hh : h ≠ 0)
    (hη : η = ε * (|h| / 2) + ε * (|x| + (1 + ε) * (|h| / 2))) (hρ : ρ = |h| / 2 + η)
    (h1 : ∀ t, |t - x| ≤ ρ → HasDerivAt F (D t) t) (h2 : ∀ t, |t - x| ≤ ρ → HasDerivAt D (D2 t) t) (h3 : ∀ t, |t - x| ≤ ρ → HasDerivAt D2 (D3 t) t)
    (hM : ∀ t, |t - x| ≤ ρ → |D3 t| ≤ M) :
    (FloatDifference.central1 ε δ F x h).Nonempty ∧ ∀ y ∈ FloatDifference.central1 ε δ F x h,
      |y - D x| ≤ (1 + ε) ^ 2 * (2 * δ + 2 * η * |D x| + 2 * η * ρ * |D2 x| + M / 3 * ρ ^ 3) / |h| + ((1 + ε) ^ 2 - 1) * |D x| := by
  refine ⟨nonempty hε hδ F (A := FloatPoly.add ε {x} (FloatPoly.mul ε {1 / 2} {h})) (B := FloatPoly.sub ε {x} (FloatPoly.mul ε {1 / 2} {h}))
    ⟨x + 1 / 2 * h, x, rfl, 1 / 2 * h, ⟨1 / 2, rfl, h, rfl, rounded_self hε⟩, rounded_self hε⟩
    ⟨x - 1 / 2 * h, x, rfl, 1 / 2 * h, ⟨1 / 2, rfl, h, rfl, rounded_self hε⟩, rounded_self hε⟩ h, fun y hy => quotient hε hh ?_ hy⟩
  rintro a ⟨zp, ⟨x1, rfl, q1, ⟨c1, rfl, g1, rfl, hq1⟩, hzp⟩, ha⟩ b ⟨zm, ⟨x2, e2, q2, ⟨c2, rfl, g2, e3, hq2⟩, hzm⟩, hb⟩
  obtain rfl : x2 = x1 := e2
  obtain rfl : g2 = g1 := e3
  unfold Rounded at hq1 hq2 hzp hzm
  have habs : |1 / 2 * g2| = |g2| / 2 := by rw [abs_mul, abs_of_pos (by norm_num : (0 : ℝ) < 1 / 2)]; ring
  have hq : ∀ q, |q - 1 / 2 * g2| ≤ ε * |1 / 2 * g2| → |q| ≤ (1 + ε) * (|g2| / 2) := by
    intro q hq
    have : |q| ≤ |q - 1 / 2 * g2| + |1 / 2 * g2| := by simpa using abs_add_le (q - 1 / 2 * g2) (1 / 2 * g2)
    rw [habs] at *
    linarith
  have hη0 : 0 ≤ η := by rw [hη]; positivity
  have hρ0 : 0 ≤ ρ := by rw [hρ]; positivity
  set k1 := zp - x2 with hk1
  set k2 := x2 - zm with hk2
  have n1 : |k1 - g2 / 2| ≤ η := by
    have a1 : |x2 + q1| ≤ |x2| + (1 + ε) * (|g2| / 2) := (abs_add_le _ _).trans (by linarith [hq q1 hq1])
    have a2 : ε * |x2 + q1| ≤ ε * (|x2| + (1 + ε) * (|g2| / 2)) := mul_le_mul_of_nonneg_left a1 hε
    calc |k1 - g2 / 2| = |(zp - (x2 + q1)) + (q1 - 1 / 2 * g2)| := by congr 1; rw [hk1]; ring
      _ ≤ |zp - (x2 + q1)| + |q1 - 1 / 2 * g2| := abs_add_le _ _
      _ ≤ η := by rw [habs] at hq1; rw [hη]; linarith
  have n2 : |k2 - g2 / 2| ≤ η := by
    have a1 : |x2 - q2| ≤ |x2| + (1 + ε) * (|g2| / 2) := (abs_sub _ _).trans (by linarith [hq q2 hq2])
    have a2 : ε * |x2 - q2| ≤ ε * (|x2| + (1 + ε) * (|g2| / 2)) := mul_le_mul_of_nonneg_left a1 hε
    calc |k2 - g2 / 2| = |(q2 - 1 / 2 * g2) - (zm - (x2 - q2))| := by congr 1; rw [hk2]; ring
      _ ≤ |q2 - 1 / 2 * g2| + |zm - (x2 - q2)| := abs_sub _ _
      _ ≤ η := by rw [habs] at hq2; rw [hη]; linarith
  have r : ∀ k, |k - g2 / 2| ≤ η → |k| ≤ ρ := by
    intro k hk
    have : |k| ≤ |k - g2 / 2| + |g2 / 2| := by simpa using abs_add_le (k - g2 / 2) (g2 / 2)
    have h2 : |g2 / 2| = |g2| / 2 := by rw [abs_div, abs_of_pos (by norm_num : (0 : ℝ) < 2)]
    rw [hρ]; linarith
  have r1 := r k1 n1
  have r2 := r k2 n2
  have r2' : |-k2| ≤ ρ := by rwa [abs_neg]
  have hM0 : 0 ≤ M := (abs_nonneg _).trans (hM x2 (by simpa using hρ0))
  have T : ∀ k, |k| ≤ ρ → |F (x2 + k) - F x2 - k * D x2 - k ^ 2 / 2 * D2 x2| ≤ M / 6 * ρ ^ 3 := by
    intro k hk
    have t := taylor3 (φ := fun t => F (x2 + t)) (φ1 := fun t => D (x2 + t)) (φ2 := fun t => D2 (x2 + t)) (φ3 := fun t => D3 (x2 + t)) (M := M) (h := k)
      (fun t ht => shift_deriv (h1 _ (mem_of_uIcc hk ht))) (fun t ht => shift_deriv (h2 _ (mem_of_uIcc hk ht)))
      (fun t ht => shift_deriv (h3 _ (mem_of_uIcc hk ht))) (fun t ht => hM _ (mem_of_uIcc hk ht))
    rw [Real.norm_eq_abs, smul_eq_mul, smul_eq_mul, add_zero] at t
    exact t.trans (mul_le_mul_of_nonneg_left (pow_le_pow_left₀ (abs_nonneg _) hk 3) (by positivity))
  have t1 := T k1 r1
  have t2 := T (-k2) r2'
  rw [show x2 + k1 = zp by rw [hk1]; ring] at t1
  rw [show x2 + -k2 = zm by rw [hk2]; ring] at t2
  have u1 : |(k1 + k2 - g2) * D x2| ≤ 2 * η * |D x2| := by
    rw [abs_mul]
    refine mul_le_mul_of_nonneg_right ?_ (abs_nonneg _)
    calc |k1 + k2 - g2| = |(k1 - g2 / 2) + (k2 - g2 / 2)| := by congr 1; ring
      _ ≤ _ := (abs_add_le _ _).trans (by linarith)
  have u2 : |(k1 - k2) * (k1 + k2) / 2 * D2 x2| ≤ 2 * η * ρ * |D2 x2| := by
    rw [abs_mul]
    refine mul_le_mul_of_nonneg_right ?_ (abs_nonneg _)
    have v1 : |k1 - k2| ≤ 2 * η := by
      calc |k1 - k2| = |(k1 - g2 / 2) - (k2 - g2 / 2)| := by congr 1; ring
        _ ≤ _ := (abs_sub _ _).trans (by linarith)
    have v2 : |k1 + k2| ≤ 2 * ρ := (abs_add_le _ _).trans (by linarith)
    have v3 : |k1 - k2| * |k1 + k2| ≤ 2 * η * (2 * ρ) := mul_le_mul v1 v2 (abs_nonneg _) (by positivity)
    rw [abs_div, abs_mul, abs_of_pos (by norm_num : (0 : ℝ) < 2)]
    linarith
  calc |a - b - g2 * D x2| = |(a - F zp) - (b - F zm) + ((F zp - F x2 - k1 * D x2 - k1 ^ 2 / 2 * D2 x2) - (F zm - F x2 - -k2 * D x2 - (-k2) ^ 2 / 2 * D2 x2)) +
        (k1 + k2 - g2) * D x2 + (k1 - k2) * (k1 + k2) / 2 * D2 x2| := by congr 1; ring
    _ ≤ |a - F zp| + |b - F zm| + (|F zp - F x2 - k1 * D x2 - k1 ^ 2 / 2 * D2 x2| + |F zm - F x2 - -k2 * D x2 - (-k2) ^ 2 / 2 * D2 x2|) +
        |(k1 + k2 - g2) * D x2| + |(k1 - k2) * (k1 + k2) / 2 * D2 x2| := by
      refine (abs_add_le _ _).trans (add_le_add_left ((abs_add_le _ _).trans (add_le_add_left ((abs_add_le _ _).trans
        (add_le_add (abs_sub _ _) (abs_sub _ _))) _)) _)
    _ ≤ _ := by linarith

/-- **C101** The entries of the gradients in floating point arithmetic: `D i` is the derivative with respect to the coordinate `i`. -/
theorem C101_gradient_rounding (ε δ : ℝ) (hε : 0 ≤ ε) (hδ : 0 ≤ δ) (F : List ℝ → ℝ) (x : List ℝ) (h M : ℝ) (hh : h ≠ 0) (D D2 : ℕ → ℝ → ℝ)
    (h1 : ∀ i xi, x[i]? = some xi → ∀ t, |t - xi| ≤ |h| + ε * |xi + h| → HasDerivAt (fun s => F (x.set i s)) (D i t) t)
    (h2 : ∀ i xi, x[i]? = some xi → ∀ t, |t - xi| ≤ |h| + ε * |xi + h| → HasDerivAt (D i) (D2 i t) t)
    (hM : ∀ i xi, x[i]? = some xi → ∀ t, |t - xi| ≤ |h| + ε * |xi + h| → |D2 i t| ≤ M) :
    (FloatDifference.forwardDifference ε δ F x h).length = x.length ∧ ∀ i xi, x[i]? = some xi →
      ∃ S, (FloatDifference.forwardDifference ε δ F x h)[i]? = some S ∧ S.Nonempty ∧ ∀ y ∈ S,
        |y - D i xi| ≤ (1 + ε) ^ 2 * (2 * δ + ε * |xi + h| * |D i xi| + M / 2 * (|h| + ε * |xi + h|) ^ 2) / |h| + ((1 + ε) ^ 2 - 1) * |D i xi| := by
  refine ⟨by simp [FloatDifference.forwardDifference], fun i xi hi => ?_⟩
  obtain ⟨a1, a2⟩ := C101_forward_rounding ε δ hε hδ (fun s => F (x.set i s)) (D i) (D2 i) xi h M hh (h1 i xi hi) (h2 i xi hi) (hM i xi hi)
  exact ⟨_, by simp [FloatDifference.forwardDifference, hi], a1, a2⟩

/-- **C101** Gradients by central differences. -/
theorem C101_central_gradient_rounding (ε δ : ℝ) (hε : 0 ≤ ε) (hδ : 0 ≤ δ) (F : List ℝ → ℝ) (x : List ℝ) (h M : ℝ) (hh : h ≠ 0) (D D2 D3 : ℕ → ℝ → ℝ)
    (η ρ : ℝ → ℝ) (hη : ∀ xi, η xi = ε * (|h| / 2) + ε * (|xi| + (1 + ε) * (|h| / 2))) (hρ : ∀ xi, ρ xi = |h| / 2 + η xi)
    (h1 : ∀ i xi, x[i]? = some xi → ∀ t, |t - xi| ≤ ρ xi → HasDerivAt (fun s => F (x.set i s)) (D i t) t)
    (h2 : ∀ i xi, x[i]? = some xi → ∀ t, |t - xi| ≤ ρ xi → HasDerivAt (D i) (D2 i t) t)
    (h3 : ∀ i xi, x[i]? = some xi → ∀ t, |t - xi| ≤ ρ xi → HasDerivAt (D2 i) (D3 i t) t)
    (hM : ∀ i xi, x[i]? = some xi → ∀ t, |t - xi| ≤ ρ xi → |D3 i t| ≤ M) :
    (FloatDifference.centralDifference ε δ F x h).length = x.length ∧ ∀ i xi, x[i]? = some xi →
      ∃ S, (FloatDifference.centralDifference ε δ F x h)[i]? = some S ∧ S.Nonempty ∧ ∀ y ∈ S,
        |y - D i xi| ≤ (1 + ε) ^ 2 * (2 * δ + 2 * η xi * |D i xi| + 2 * η xi * ρ xi * |D2 i xi| + M / 3 * ρ xi ^ 3) / |h| +
          ((1 + ε) ^ 2 - 1) * |D i xi| := by
  refine ⟨by simp [FloatDifference.centralDifference], fun i xi hi => ?_⟩
  obtain ⟨a1, a2⟩ := C101_central_rounding ε δ hε hδ (fun s => F (x.set i s)) (D i) (D2 i) (D3 i) xi h M (η xi) (ρ xi) hh (hη xi) (hρ xi)
    (h1 i xi hi) (h2 i xi hi) (h3 i xi hi) (hM i xi hi)
  exact ⟨_, by simp [FloatDifference.centralDifference, hi], a1, a2⟩

/-- The sine function with double precision and the default step meets the hypotheses; the error at `x = 1` is less than `10⁻⁷`. -/
example : ∀ y ∈ FloatDifference.forward1 (2 ^ (-53 : ℤ)) (2 ^ (-52 : ℤ)) Real.sin 1 (1 / 10 ^ 8), |y - Real.cos 1| ≤ 1 / 10 ^ 7 := by
  intro y hy
  have := (C101_forward_rounding (2 ^ (-53 : ℤ)) (2 ^ (-52 : ℤ)) (by positivity) (by positivity) Real.sin Real.cos (fun t => -Real.sin t) 1 (1 / 10 ^ 8) 1
    (by norm_num) (fun t _ => Real.hasDerivAt_sin t) (fun t _ => Real.hasDerivAt_cos t) (fun t _ => by simpa using Real.abs_sin_le_one t)).2 y hy
  refine this.trans ?_
  have hc := Real.abs_cos_le_one 1
  have a1 : |(1 : ℝ) / 10 ^ 8| = 1 / 10 ^ 8 := abs_of_pos (by norm_num)
  have a2 : |(1 : ℝ) + 1 / 10 ^ 8| = 1 + 1 / 10 ^ 8 := abs_of_pos (by norm_num)
  rw [a1, a2]
  have hc0 := abs_nonneg (Real.cos 1)
  generalize |Real.cos 1| = c at *
  norm_num
  linarith

end Verif.Props
