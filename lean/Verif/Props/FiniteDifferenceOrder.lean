import Verif.Lemmas.FiniteDifferenceOrder
import Verif.Props.FiniteDifference
import Mathlib.Analysis.Calculus.Deriv.MeanValue
import Mathlib.Analysis.SpecialFunctions.Trigonometric.Deriv
/-!
# C101: the order of accuracy of finite differences

The derivatives are given along the coordinate lines: `D i t` is the derivative of `t ↦ F (p + t e_i)` at `t`, `D2 i t` the derivative of `D i` at `t`, and
so on. `V` is a normed space (the real numbers for gradients, vectors for the columns of Jacobian matrices).
-/

namespace Verif.FinDiff
open Verif Set

variable {V : Type} [NormedAddCommGroup V] [NormedSpace ℝ V]

theorem uIcc_half {h t : ℝ} (ht : t ∈ Icc (-(|h| / 2)) (|h| / 2)) : t ∈ uIcc (-(h / 2)) (h / 2) := by
  rcases le_total 0 h with hh | hh
  · rw [abs_of_nonneg hh] at ht
    rwa [uIcc_of_le (by linarith)]
  · rw [abs_of_nonpos hh] at ht
    rw [uIcc_of_ge (by linarith)]
    exact ⟨by linarith [ht.1], by linarith [ht.2]⟩

theorem forward_error {φ φ1 φ2 : ℝ → V} {M h : ℝ} (hh : h ≠ 0) (h1 : ∀ t ∈ uIcc 0 h, HasDerivAt φ (φ1 t) t)
    (h2 : ∀ t ∈ uIcc 0 h, HasDerivAt φ1 (φ2 t) t) (hM : ∀ t ∈ uIcc 0 h, ‖φ2 t‖ ≤ M) : ‖(1 / h) • (φ h - φ 0) - φ1 0‖ ≤ M / 2 * |h| := by
  have t := taylor2 h1 h2 hM
  have e : (1 / h) • (φ h - φ 0) - φ1 0 = (1 / h) • (φ h - φ 0 - h • φ1 0) := by
    rw [smul_sub (1 / h) (φ h - φ 0), smul_smul, one_div_mul_cancel hh, one_smul]
  have ha : 0 < |h| := abs_pos.2 hh
  rw [e, norm_smul, Real.norm_eq_abs, abs_div, abs_one, ← sq_abs] at *
  calc 1 / |h| * ‖φ h - φ 0 - h • φ1 0‖ ≤ 1 / |h| * (M / 2 * |h| ^ 2) := mul_le_mul_of_nonneg_left t (by positivity)
    _ = M / 2 * |h| := by field_simp

theorem central_error {φ φ1 φ2 φ3 : ℝ → V} {M h : ℝ} (hh : h ≠ 0) (h1 : ∀ t ∈ uIcc (-(h / 2)) (h / 2), HasDerivAt φ (φ1 t) t)
    (h2 : ∀ t ∈ uIcc (-(h / 2)) (h / 2), HasDerivAt φ1 (φ2 t) t) (h3 : ∀ t ∈ uIcc (-(h / 2)) (h / 2), HasDerivAt φ2 (φ3 t) t)
    (hM : ∀ t ∈ uIcc (-(h / 2)) (h / 2), ‖φ3 t‖ ≤ M) : ‖(1 / h) • (φ (1 / 2 * h) - φ (-(1 / 2 * h))) - φ1 0‖ ≤ M / 24 * h ^ 2 := by
  have ha : 0 < |h| := abs_pos.2 hh
  have t := symm_diff_pos (h := |h| / 2) (by positivity) (fun t ht => h1 t (uIcc_half ht)) (fun t ht => h2 t (uIcc_half ht))
    (fun t ht => h3 t (uIcc_half ht)) (fun t ht => hM t (uIcc_half ht))
  have e : ‖(1 / h) • (φ (1 / 2 * h) - φ (-(1 / 2 * h))) - φ1 0‖ = ‖(1 / |h|) • (φ (|h| / 2) - φ (-(|h| / 2)) - (2 * (|h| / 2)) • φ1 0)‖ := by
    rw [show 2 * (|h| / 2) = |h| by ring, smul_sub (1 / |h|) (φ (|h| / 2) - _), smul_smul, one_div_mul_cancel ha.ne', one_smul,
      show 1 / 2 * h = h / 2 by ring]
    rcases le_total 0 h with h0 | h0
    · rw [abs_of_nonneg h0]
    · rw [abs_of_nonpos h0, neg_div, neg_neg, one_div_neg_eq_neg_one_div, neg_smul, ← smul_neg, neg_sub]
  rw [e, norm_smul, Real.norm_eq_abs, abs_div, abs_one, abs_abs]
  calc _ ≤ 1 / |h| * (M / 3 * (|h| / 2) ^ 3) := mul_le_mul_of_nonneg_left t (by positivity)
    _ = M / 24 * |h| ^ 2 := by field_simp; ring
    _ = M / 24 * h ^ 2 := by rw [sq_abs]

/-- **C101** The forward differences (gradient, columns of the Jacobian) are accurate of first order: the error is at most half a bound of the second
derivatives along the coordinate lines, times the step. -/
theorem C101_forward {n : Nat} (f : List ℝ → Py V) (F : (Fin n → ℝ) → V) (hf : Computes f F) (p : Fin n → ℝ) (h : ℝ) (hh : h ≠ 0)
    (D D2 : Fin n → ℝ → V) (M : ℝ) (h1 : ∀ i, ∀ t ∈ uIcc 0 h, HasDerivAt (fun s => F (p + s • e i)) (D i t) t)
    (h2 : ∀ i, ∀ t ∈ uIcc 0 h, HasDerivAt (D i) (D2 i t) t) (hM : ∀ i, ∀ t ∈ uIcc 0 h, ‖D2 i t‖ ≤ M) :
    ∃ g : Fin n → V, forwardDifference f (List.ofFn p) h = (.ok (List.ofFn g), List.ofFn p) ∧ ∀ i, ‖g i - D i 0‖ ≤ M / 2 * |h| := by
  refine ⟨_, C53_forward_difference f F hf p h, fun i => ?_⟩
  have := forward_error hh (h1 i) (h2 i) (hM i)
  simpa using this

/-- **C101** The central differences are accurate of second order: the error is at most a bound of the third derivatives times `h² / 24`. -/
theorem C101_central {n : Nat} (f : List ℝ → Py V) (F : (Fin n → ℝ) → V) (hf : Computes f F) (p : Fin n → ℝ) (h : ℝ) (hh : h ≠ 0)
    (D D2 D3 : Fin n → ℝ → V) (M : ℝ) (h1 : ∀ i, ∀ t ∈ uIcc (-(h / 2)) (h / 2), HasDerivAt (fun s => F (p + s • e i)) (D i t) t)
    (h2 : ∀ i, ∀ t ∈ uIcc (-(h / 2)) (h / 2), HasDerivAt (D i) (D2 i t) t) (h3 : ∀ i, ∀ t ∈ uIcc (-(h / 2)) (h / 2), HasDerivAt (D2 i) (D3 i t) t)
    (hM : ∀ i, ∀ t ∈ uIcc (-(h / 2)) (h / 2), ‖D3 i t‖ ≤ M) :
    ∃ g : Fin n → V, centralDifference f (List.ofFn p) h = (.ok (List.ofFn g), List.ofFn p) ∧ ∀ i, ‖g i - D i 0‖ ≤ M / 24 * h ^ 2 := by
  refine ⟨_, C53_central_difference f F hf p h, fun i => ?_⟩
  have := central_error hh (h1 i) (h2 i) (h3 i) (hM i)
  simpa only [neg_smul, ← sub_eq_add_neg] using this

theorem shift_deriv {φ φ1 : ℝ → V} {x t : ℝ} (h : HasDerivAt φ (φ1 (x + t)) (x + t)) : HasDerivAt (fun s => φ (x + s)) (φ1 (x + t)) t :=
  hda (h.scomp t ((hasDerivAt_id t).const_add x)) (fun _ => rfl) (by simp)

/-- **C101** First differences of univariate functions. -/
theorem C101_univariate (f : ℝ → Py V) (F D D2 D3 : ℝ → V) (hf : ∀ t, f t = .ok (F t)) (x h : ℝ) (hh : h ≠ 0) (M2 M3 : ℝ)
    (h1 : ∀ t, |t - x| ≤ |h| → HasDerivAt F (D t) t) (h2 : ∀ t, |t - x| ≤ |h| → HasDerivAt D (D2 t) t)
    (hM2 : ∀ t, |t - x| ≤ |h| → ‖D2 t‖ ≤ M2) :
    (∃ g, forward1 f x h = .ok g ∧ ‖g - D x‖ ≤ M2 / 2 * |h|) ∧
      ((∀ t, |t - x| ≤ |h| / 2 → HasDerivAt D2 (D3 t) t) → (∀ t, |t - x| ≤ |h| / 2 → ‖D3 t‖ ≤ M3) →
        ∃ g, central1 f x h = .ok g ∧ ‖g - D x‖ ≤ M3 / 24 * h ^ 2) := by
  have m1 : ∀ t ∈ uIcc 0 h, |x + t - x| ≤ |h| := fun t ht => by
    have := abs_sub_left_of_mem_uIcc ht
    simpa using this
  have m2 : ∀ t ∈ uIcc (-(h / 2)) (h / 2), |x + t - x| ≤ |h| / 2 := fun t ht => by
    rw [add_sub_cancel_left, abs_le]
    rcases le_total 0 h with h0 | h0
    · rw [uIcc_of_le (by linarith)] at ht; rw [abs_of_nonneg h0]; exact ht
    · rw [uIcc_of_ge (by linarith)] at ht; rw [abs_of_nonpos h0]; exact ⟨by linarith [ht.1], by linarith [ht.2]⟩
  have m3 : ∀ t ∈ uIcc (-(h / 2)) (h / 2), |x + t - x| ≤ |h| := fun t ht => (m2 t ht).trans (by linarith [abs_nonneg h])
  refine ⟨⟨(1 / h) • (F (x + h) - F x), by simp [forward1, hf], ?_⟩,
    fun h3 hM3 => ⟨(1 / h) • (F (x + 1 / 2 * h) - F (x - 1 / 2 * h)), by simp [central1, hf], ?_⟩⟩
  · have := forward_error (φ := fun t => F (x + t)) (φ1 := fun t => D (x + t)) (φ2 := fun t => D2 (x + t)) hh
      (fun t ht => shift_deriv (h1 _ (m1 t ht))) (fun t ht => shift_deriv (h2 _ (m1 t ht))) (fun t ht => hM2 _ (m1 t ht))
    simpa using this
  · have := central_error (φ := fun t => F (x + t)) (φ1 := fun t => D (x + t)) (φ2 := fun t => D2 (x + t)) (φ3 := fun t => D3 (x + t)) hh
      (fun t ht => shift_deriv (h1 _ (m3 t ht))) (fun t ht => shift_deriv (h2 _ (m3 t ht))) (fun t ht => shift_deriv (h3 _ (m2 t ht)))
      (fun t ht => hM3 _ (m2 t ht))
    simpa only [add_zero, ← sub_eq_add_neg] using this

/-- **C101** Second forward differences of univariate functions are accurate of first order. -/
theorem C101_second_forward_univariate (f : ℝ → Py ℝ) (F D D2 D3 : ℝ → ℝ) (hf : ∀ t, f t = .ok (F t)) (x h : ℝ) (hh : h ≠ 0) (M : ℝ)
    (h1 : ∀ t, |t - x| ≤ 2 * |h| → HasDerivAt F (D t) t) (h2 : ∀ t, |t - x| ≤ 2 * |h| → HasDerivAt D (D2 t) t)
    (h3 : ∀ t, |t - x| ≤ 2 * |h| → HasDerivAt D2 (D3 t) t) (hM : ∀ t, |t - x| ≤ 2 * |h| → |D3 t| ≤ M) :
    ∃ g, secondForward1 f x h = .ok g ∧ |g - D2 x| ≤ M * |h| := by
  have ha : 0 < |h| := abs_pos.2 hh
  refine ⟨(F (x + 2 * h) - 2 * F (x + h) + F x) / h ^ 2, by simp [secondForward1, hf], ?_⟩
  have key : |F (x + 2 * h) - 2 * F (x + h) + F x - h ^ 2 * D2 x| ≤ M * |h| ^ 3 := by
    rcases le_total 0 h with h0 | h0
    · rw [abs_of_nonneg h0] at *
      have m : ∀ t ∈ Icc 0 (2 * h), |x + t - x| ≤ 2 * h := fun t ht => by rw [add_sub_cancel_left, abs_of_nonneg ht.1]; exact ht.2
      have := second_forward_pos (φ := fun t => F (x + t)) (φ1 := fun t => D (x + t)) (φ2 := fun t => D2 (x + t)) (φ3 := fun t => D3 (x + t)) h0
        (fun t ht => shift_deriv (h1 _ (m t ht))) (fun t ht => shift_deriv (h2 _ (m t ht))) (fun t ht => shift_deriv (h3 _ (m t ht)))
        (fun t ht => hM _ (m t ht))
      simpa using this
    · rw [abs_of_nonpos h0] at *
      have m : ∀ t ∈ Icc 0 (2 * -h), |x + -t - x| ≤ 2 * -h := fun t ht => by rw [add_sub_cancel_left, abs_neg, abs_of_nonneg ht.1]; exact ht.2
      have := second_forward_pos (φ := fun t => F (x + -t)) (φ1 := fun t => -D (x + -t)) (φ2 := fun t => D2 (x + -t)) (φ3 := fun t => -D3 (x + -t))
        (neg_nonneg.2 h0) (fun t ht => hasDerivAt_neg_comp (shift_deriv (h1 _ (m t ht))))
        (fun t ht => hda (hasDerivAt_neg_comp (shift_deriv (h2 _ (m t ht)))).neg (fun _ => rfl) (by simp))
        (fun t ht => hasDerivAt_neg_comp (shift_deriv (h3 _ (m t ht)))) (fun t ht => by rw [norm_neg]; exact hM _ (m t ht))
      simpa using this
  have e1 : (F (x + 2 * h) - 2 * F (x + h) + F x) / h ^ 2 - D2 x = (F (x + 2 * h) - 2 * F (x + h) + F x - h ^ 2 * D2 x) / h ^ 2 := by field_simp
  rw [e1, abs_div, abs_pow, div_le_iff₀ (by positivity)]
  calc _ ≤ M * |h| ^ 3 := key
    _ = _ := by ring

/-- **C101** Second central differences of univariate functions are accurate of second order. -/
theorem C101_second_central_univariate (f : ℝ → Py ℝ) (F D D2 D3 D4 : ℝ → ℝ) (hf : ∀ t, f t = .ok (F t)) (x h : ℝ) (hh : h ≠ 0) (M : ℝ)
    (h1 : ∀ t, |t - x| ≤ |h| → HasDerivAt F (D t) t) (h2 : ∀ t, |t - x| ≤ |h| → HasDerivAt D (D2 t) t)
    (h3 : ∀ t, |t - x| ≤ |h| → HasDerivAt D2 (D3 t) t) (h4 : ∀ t, |t - x| ≤ |h| → HasDerivAt D3 (D4 t) t) (hM : ∀ t, |t - x| ≤ |h| → |D4 t| ≤ M) :
    ∃ g, secondCentral1 f x h = .ok g ∧ |g - D2 x| ≤ M / 12 * h ^ 2 := by
  have ha : 0 < |h| := abs_pos.2 hh
  refine ⟨(F (x + h) - 2 * F x + F (x - h)) / h ^ 2, by simp [secondCentral1, hf], ?_⟩
  have m : ∀ t ∈ Icc (-|h|) |h|, |x + t - x| ≤ |h| := fun t ht => by rw [add_sub_cancel_left, abs_le]; exact ht
  have := symm_second_pos (φ := fun t => F (x + t)) (φ1 := fun t => D (x + t)) (φ2 := fun t => D2 (x + t)) (φ3 := fun t => D3 (x + t))
    (φ4 := fun t => D4 (x + t)) ha.le
    (fun t ht => shift_deriv (h1 _ (m t ht))) (fun t ht => shift_deriv (h2 _ (m t ht))) (fun t ht => shift_deriv (h3 _ (m t ht)))
    (fun t ht => shift_deriv (h4 _ (m t ht))) (fun t ht => hM _ (m t ht))
  have e0 : F (x + |h|) + F (x + -|h|) = F (x + h) + F (x - h) := by
    rcases le_total 0 h with h0 | h0
    · rw [abs_of_nonneg h0, ← sub_eq_add_neg]
    · rw [abs_of_nonpos h0, neg_neg, ← sub_eq_add_neg, add_comm]
  simp only [e0, add_zero, smul_eq_mul, sq_abs, Real.norm_eq_abs] at this
  have e1 : (F (x + h) - 2 * F x + F (x - h)) / h ^ 2 - D2 x = (F (x + h) + F (x - h) - 2 * F x - h ^ 2 * D2 x) / h ^ 2 := by field_simp; ring
  rw [e1, abs_div, abs_of_pos (by positivity : 0 < h ^ 2), div_le_iff₀ (by positivity)]
  calc _ ≤ M / 12 * |h| ^ 4 := this
    _ = M / 12 * (|h| ^ 2) * (|h| ^ 2) := by ring
    _ = _ := by rw [sq_abs]

/-- The mean value theorem for a difference between two points in any order. -/
theorem mean_value {g g' : ℝ → ℝ} {a b : ℝ} (hg : ∀ t ∈ uIcc a b, HasDerivAt g (g' t) t) : ∃ c ∈ uIcc a b, g b - g a = g' c * (b - a) := by
  rcases lt_trichotomy a b with h | h | h
  · rw [uIcc_of_le h.le] at *
    obtain ⟨c, hc, e⟩ := exists_hasDerivAt_eq_slope g g' h (fun t ht => (hg t ht).continuousAt.continuousWithinAt) (fun t ht => hg t (Ioo_subset_Icc_self ht))
    exact ⟨c, Ioo_subset_Icc_self hc, by rw [e, div_mul_cancel₀ _ (sub_ne_zero.2 h.ne')]⟩
  · subst h
    exact ⟨a, by simp, by simp⟩
  · rw [uIcc_of_ge h.le] at *
    obtain ⟨c, hc, e⟩ := exists_hasDerivAt_eq_slope g g' h (fun t ht => (hg t ht).continuousAt.continuousWithinAt) (fun t ht => hg t (Ioo_subset_Icc_self ht))
    refine ⟨c, Ioo_subset_Icc_self hc, ?_⟩
    rw [e, show b - a = -(a - b) by ring, mul_neg, div_mul_cancel₀ _ (sub_ne_zero.2 h.ne')]
    ring

/-- A mixed difference over a square is the mixed derivative at a point of the square. -/
theorem mixed_mean_value {P P1 P12 : ℝ → ℝ → ℝ} {a b : ℝ} (h1 : ∀ s ∈ uIcc a b, ∀ t ∈ uIcc a b, HasDerivAt (fun u => P u t) (P1 s t) s)
    (h2 : ∀ s ∈ uIcc a b, ∀ t ∈ uIcc a b, HasDerivAt (fun u => P1 s u) (P12 s t) t) :
    ∃ s ∈ uIcc a b, ∃ t ∈ uIcc a b, P b b - P b a - P a b + P a a = P12 s t * (b - a) ^ 2 := by
  obtain ⟨s, hs, e1⟩ := mean_value (g := fun s => P s b - P s a) (g' := fun s => P1 s b - P1 s a)
    (fun s hs => (h1 s hs b right_mem_uIcc).sub (h1 s hs a left_mem_uIcc))
  obtain ⟨t, ht, e2⟩ := mean_value (fun t ht => h2 s hs t ht)
  refine ⟨s, hs, t, ht, ?_⟩
  calc _ = P b b - P b a - (P a b - P a a) := by ring
    _ = _ := by rw [e1, e2]; ring

/-- **C101** Every entry of the matrix of second forward differences is the mixed second derivative at a point of a square with side `h` at `p`: `P1` is the
derivative of `F (p + s e_i + t e_j)` in `s`, `P12` the derivative of `P1` in `t`. -/
theorem C101_second_forward {n : Nat} (f : List ℝ → Py ℝ) (F : (Fin n → ℝ) → ℝ) (hf : Computes f F) (p : Fin n → ℝ) (h : ℝ) (hh : h ≠ 0) (tab : Table ℝ)
    (P1 P12 : Fin n → Fin n → ℝ → ℝ → ℝ)
    (h1 : ∀ i j, ∀ s ∈ uIcc 0 h, ∀ t ∈ uIcc 0 h, HasDerivAt (fun u => F (p + u • e i + t • e j)) (P1 i j s t) s)
    (h2 : ∀ i j, ∀ s ∈ uIcc 0 h, ∀ t ∈ uIcc 0 h, HasDerivAt (fun u => P1 i j s u) (P12 i j s t) t) :
    ∃ H, secondForwardDifference f (List.ofFn p) h tab = .ok H ∧ ∀ i j : Fin n, ∃ s ∈ uIcc 0 h, ∃ t ∈ uIcc 0 h, H i j = P12 i j s t := by
  obtain ⟨H, a1, a2⟩ := C53_second_forward_difference f F hf p h tab
  refine ⟨H, a1, fun i j => ?_⟩
  obtain ⟨s, hs, t, ht, e1⟩ := mixed_mean_value (P := fun s t => F (p + s • e i + t • e j)) (h1 i j) (h2 i j)
  refine ⟨s, hs, t, ht, ?_⟩
  simp only [zero_smul, add_zero, sub_zero] at e1
  rw [a2, e1, mul_div_cancel_right₀ _ (pow_ne_zero 2 hh)]

/-- **C101** Every entry of the matrix of second central differences is the mixed second derivative at a point of the square with side `h` and centre `p`. -/
theorem C101_second_central {n : Nat} (f : List ℝ → Py ℝ) (F : (Fin n → ℝ) → ℝ) (hf : Computes f F) (p : Fin n → ℝ) (h : ℝ) (hh : h ≠ 0) (tab : Table ℝ)
    (P1 P12 : Fin n → Fin n → ℝ → ℝ → ℝ)
    (h1 : ∀ i j, ∀ s ∈ uIcc (-(h / 2)) (h / 2), ∀ t ∈ uIcc (-(h / 2)) (h / 2), HasDerivAt (fun u => F (p + u • e i + t • e j)) (P1 i j s t) s)
    (h2 : ∀ i j, ∀ s ∈ uIcc (-(h / 2)) (h / 2), ∀ t ∈ uIcc (-(h / 2)) (h / 2), HasDerivAt (fun u => P1 i j s u) (P12 i j s t) t) :
    ∃ H, secondCentralDifference f (List.ofFn p) h tab = .ok H ∧
      ∀ i j : Fin n, ∃ s ∈ uIcc (-(h / 2)) (h / 2), ∃ t ∈ uIcc (-(h / 2)) (h / 2), H i j = P12 i j s t := by
  obtain ⟨H, a1, a2⟩ := C53_second_central_difference f F hf p h tab
  refine ⟨H, a1, fun i j => ?_⟩
  obtain ⟨s, hs, t, ht, e1⟩ := mixed_mean_value (P := fun s t => F (p + s • e i + t • e j)) (h1 i j) (h2 i j)
  refine ⟨s, hs, t, ht, ?_⟩
  have q1 : p + (1 / 2 * h) • (e i + e j) = p + (h / 2) • e i + (h / 2) • e j := by module
  have q2 : p + (1 / 2 * h) • (e i - e j) = p + (h / 2) • e i + (-(h / 2)) • e j := by module
  have q3 : p + (1 / 2 * h) • (e j - e i) = p + (-(h / 2)) • e i + (h / 2) • e j := by module
  have q4 : p - (1 / 2 * h) • (e i + e j) = p + (-(h / 2)) • e i + (-(h / 2)) • e j := by module
  rw [a2, q1, q2, q3, q4, e1, show h / 2 - -(h / 2) = h by ring, mul_div_cancel_right₀ _ (pow_ne_zero 2 hh)]

/-- The sine function meets the hypotheses, for every point and every step. -/
example (x h : ℝ) (hh : h ≠ 0) : (∃ g, forward1 (fun t => .ok (Real.sin t)) x h = .ok g ∧ ‖g - Real.cos x‖ ≤ 1 / 2 * |h|) ∧
    ∃ g, central1 (fun t => .ok (Real.sin t)) x h = .ok g ∧ ‖g - Real.cos x‖ ≤ 1 / 24 * h ^ 2 := by
  have h2 : ∀ t, HasDerivAt (fun u => -Real.sin u) (-Real.cos t) t := fun t => (Real.hasDerivAt_sin t).neg
  have := C101_univariate (fun t => .ok (Real.sin t)) Real.sin Real.cos (fun t => -Real.sin t) (fun t => -Real.cos t) (fun _ => rfl) x h hh 1 1
    (fun t _ => Real.hasDerivAt_sin t) (fun t _ => Real.hasDerivAt_cos t) (fun t _ => by simpa using Real.abs_sin_le_one t)
  exact ⟨this.1, this.2 (fun t _ => h2 t) (fun t _ => by simpa using Real.abs_cos_le_one t)⟩

theorem sum_add_smul_e {n : Nat} (p : Fin n → ℝ) (s : ℝ) (i : Fin n) : ∑ k, (p + s • e i : Fin n → ℝ) k = ∑ k, p k + s := by
  simp [e, Finset.sum_add_distrib, Pi.single_apply]

/-- The sine of the sum of the coordinates meets the hypotheses in every dimension. -/
example {n : Nat} (f : List ℝ → Py ℝ) (hf : Computes f (fun p : Fin n → ℝ => Real.sin (∑ k, p k))) (p : Fin n → ℝ) (h : ℝ) (hh : h ≠ 0) (tab : Table ℝ) :
    (∃ g : Fin n → ℝ, centralDifference f (List.ofFn p) h = (.ok (List.ofFn g), List.ofFn p) ∧ ∀ i, ‖g i - Real.cos (∑ k, p k)‖ ≤ 1 / 24 * h ^ 2) ∧
      ∃ H, secondForwardDifference f (List.ofFn p) h tab = .ok H ∧
        ∀ i j : Fin n, ∃ s ∈ uIcc 0 h, ∃ t ∈ uIcc 0 h, H i j = -Real.sin (∑ k, p k + s + t) := by
  have d1 : ∀ c t : ℝ, HasDerivAt (fun s => Real.sin (c + s)) (Real.cos (c + t)) t := fun c t => shift_deriv (φ1 := Real.cos) (Real.hasDerivAt_sin _)
  have d2 : ∀ c t : ℝ, HasDerivAt (fun s => Real.cos (c + s)) (-Real.sin (c + t)) t := fun c t =>
    shift_deriv (φ1 := fun u => -Real.sin u) (Real.hasDerivAt_cos _)
  refine ⟨?_, ?_⟩
  · have := C101_central f _ hf p h hh (fun _ t => Real.cos (∑ k, p k + t)) (fun _ t => -Real.sin (∑ k, p k + t)) (fun _ t => -Real.cos (∑ k, p k + t)) 1
      (fun i t _ => by simp only [sum_add_smul_e]; exact d1 _ t) (fun i t _ => d2 _ t) (fun i t _ => (d1 _ t).neg)
      (fun i t _ => by simpa using Real.abs_cos_le_one _)
    simpa using this
  · refine C101_second_forward f _ hf p h hh tab (fun _ _ s t => Real.cos (∑ k, p k + s + t)) (fun _ _ s t => -Real.sin (∑ k, p k + s + t))
      (fun i j s _ t _ => ?_) (fun i j s _ t _ => d2 _ t)
    simp only [sum_add_smul_e]
    have := d1 (∑ k, p k + t) s
    simp only [add_right_comm _ t] at this
    exact this

end Verif.FinDiff
