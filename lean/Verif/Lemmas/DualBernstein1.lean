import Mathlib.Algebra.Group.ForwardDiff
import Mathlib.RingTheory.Polynomial.Pochhammer
import Mathlib.Data.Nat.Choose.Cast
import Mathlib.Data.Nat.Factorial.BigOperators
import Mathlib.LinearAlgebra.Matrix.NonsingularInverse
import Mathlib.Tactic.FieldSimp
import Mathlib.Tactic.Ring
import Mathlib.Tactic.LinearCombination
/-!
# The closed form of the univariate dual Bernstein polynomials
-/

namespace Verif.Poly.Dual1

open Finset Nat

variable {K : Type} [Field K] [CharZero K]

/-- `∫₀¹ xᵃ (1 - x)ᵇ dx`. -/
def bet (K : Type) [Field K] (a b : ℕ) : K := (a ! : K) * b ! / (a + b + 1)!

omit [CharZero K] in
theorem factorial_ne [CharZero K] (n : ℕ) : ((n ! : ℕ) : K) ≠ 0 := Nat.cast_ne_zero.2 (Nat.factorial_ne_zero n)

theorem bet_succ (a b : ℕ) : bet K a (b + 1) = bet K a b - bet K (a + 1) b := by
  unfold bet
  rw [show a + (b + 1) + 1 = (a + b + 1) + 1 by omega, show a + 1 + b + 1 = (a + b + 1) + 1 by omega,
    Nat.factorial_succ (a + b + 1), Nat.factorial_succ b, Nat.factorial_succ a]
  have h1 := factorial_ne (K := K) (a + b + 1)
  have h2 : (((a + b + 1 + 1 : ℕ)) : K) ≠ 0 := Nat.cast_ne_zero.2 (by omega)
  push_cast at h2 ⊢
  field_simp
  ring

theorem bet_expand (a b : ℕ) : ∀ c, bet K a (b + c) = ∑ i ∈ range (c + 1), ((-1) ^ i * (c.choose i : K)) * bet K (a + i) b := by
  intro c
  induction c generalizing a with
  | zero => simp
  | succ c ih =>
    rw [← add_assoc, bet_succ, ih, ih, sum_range_succ' _ (c + 1)]
    simp only [Nat.choose_succ_succ]
    have e : ∑ i ∈ range (c + 1), ((-1 : K) ^ (i + 1) * ((c.choose i + c.choose (i + 1) : ℕ) : K)) * bet K (a + (i + 1)) b =
        - ∑ i ∈ range (c + 1), ((-1) ^ i * (c.choose i : K)) * bet K (a + 1 + i) b +
        ∑ i ∈ range (c + 1), ((-1 : K) ^ (i + 1) * (c.choose (i + 1) : K)) * bet K (a + (i + 1)) b := by
      rw [← sum_neg_distrib, ← sum_add_distrib]
      refine sum_congr rfl (fun i _ => ?_)
      rw [show a + 1 + i = a + (i + 1) by omega]; push_cast; ring
    rw [e, sum_range_succ (fun i => (-1 : K) ^ (i + 1) * (c.choose (i + 1) : K) * bet K (a + (i + 1)) b) c, Nat.choose_succ_self,
      sum_range_succ' (fun i => (-1 : K) ^ i * (c.choose i : K) * bet K (a + i) b) c]
    simp
    ring

/-- `Σ (-1)^i C(n, i) P(i) = 0` if `P` has degree below `n`. -/
theorem alternating_zero (P : Polynomial K) (n : ℕ) (h : P.natDegree < n) :
    ∑ i ∈ range (n + 1), ((-1 : K) ^ i * (n.choose i : K)) * P.eval (i : K) = 0 := by
  have h1 := congrFun (Polynomial.fwdDiff_iter_eq_zero_of_degree_lt h) 0
  rw [fwdDiff_iter_eq_sum_shift] at h1
  simp only [zero_add, Pi.zero_apply, zsmul_eq_mul, nsmul_eq_mul, mul_one] at h1
  have h2 : ∑ i ∈ range (n + 1), ((-1 : K) ^ i * (n.choose i : K)) * P.eval (i : K) =
      (-1) ^ n * ∑ k ∈ range (n + 1), (((-1 : ℤ) ^ (n - k) * (n.choose k : ℤ) : ℤ) : K) * P.eval (k : K) := by
    rw [mul_sum]
    refine sum_congr rfl (fun i hi => ?_)
    have hi' : i ≤ n := by have := mem_range.1 hi; omega
    push_cast
    have : (-1 : K) ^ i = (-1) ^ n * (-1) ^ (n - i) := by
      rw [← pow_add, show n + (n - i) = i + 2 * (n - i) by omega, pow_add, pow_mul]; simp
    rw [this]; ring
  rw [h2, h1, mul_zero]

/-- `Σ (-1)^i C(n, i) / (i + a + 1) = n! a! / (n + a + 1)!`. -/
theorem alternating_beta (n a : ℕ) :
    ∑ i ∈ range (n + 1), ((-1 : K) ^ i * (n.choose i : K)) * (1 / ((i + a + 1 : ℕ) : K)) = bet K a n := by
  have h := bet_expand (K := K) a 0 n
  rw [zero_add] at h
  rw [h]
  refine sum_congr rfl (fun i _ => ?_)
  congr 1
  unfold bet
  rw [Nat.factorial_zero, Nat.factorial_succ]
  have := factorial_ne (K := K) (i + a)
  have h2 : ((i + a + 1 : ℕ) : K) ≠ 0 := Nat.cast_ne_zero.2 (by omega)
  rw [show a + i = i + a by omega]
  push_cast at h2 ⊢
  field_simp

/-- The coefficient of `x^k (1 - x)^(r - k)` in the `l`:th orthogonal polynomial. -/
def ac (K : Type) [Field K] (r l k : ℕ) : K := (-1) ^ k * ((r + l + 1).choose (r - k) : K) * ((r - l).choose (r - k) : K)

/-- `∫ E_l x^s`. -/
def mom (K : Type) [Field K] (r l s : ℕ) : K := ∑ k ∈ range (r + 1), ac K r l k * bet K (k + s) (r - k)

theorem ac_zero (r l k : ℕ) (h : k < l) (hl : l ≤ r) : ac K r l k = 0 := by
  unfold ac
  rw [Nat.choose_eq_zero_of_lt (show r - l < r - k by omega)]; simp

/-- The moments, written as an alternating sum. -/
theorem mom_eq (r l s : ℕ) (hl : l ≤ r) :
    mom K r l s = ((r + l + 1)! : K) / (r + s + 1)! * ((-1) ^ l * ∑ i ∈ range (r - l + 1),
      ((-1 : K) ^ i * ((r - l).choose i : K)) * (((i + l + s)! : K) / (i + l + l + 1)!)) := by
  unfold mom
  obtain ⟨n, rfl⟩ := Nat.exists_eq_add_of_le hl
  rw [show l + n + 1 = l + (n + 1) by omega, sum_range_add]
  rw [sum_eq_zero (s := range l), zero_add, show l + n - l + 1 = n + 1 by omega, mul_sum, mul_sum]
  · refine sum_congr rfl (fun i hi => ?_)
    have hi' : i ≤ n := by have := mem_range.1 hi; omega
    unfold ac bet
    rw [show l + n - (l + i) = n - i by omega, show l + n - l = n by omega, Nat.choose_symm hi',
      show l + i + s + (n - i) + 1 = l + n + s + 1 by omega, show i + l + s = l + i + s by omega]
    have h1 : ((l + n + l + 1).choose (n - i) : K) = ((l + n + l + 1)! : K) / ((n - i)! * (i + l + l + 1)!) := by
      rw [Nat.cast_choose K (by omega), show l + n + l + 1 - (n - i) = i + l + l + 1 by omega]
    rw [h1]
    have a1 := factorial_ne (K := K) (n - i)
    have a2 := factorial_ne (K := K) (i + l + l + 1)
    have a3 := factorial_ne (K := K) (l + n + s + 1)
    field_simp
    ring
  · intro k hk
    rw [ac_zero _ _ _ (mem_range.1 hk) hl, zero_mul]

theorem mom_zero (r l s : ℕ) (h1 : l < s) (h2 : s ≤ r) : mom K r l s = 0 := by
  rw [mom_eq r l s (by omega)]
  obtain ⟨d, rfl⟩ := Nat.exists_eq_add_of_lt h1
  have key := alternating_zero ((ascPochhammer K d).comp (Polynomial.X + Polynomial.C ((l + l + 1 : ℕ) + 1 : K))) (r - l) (by
    refine lt_of_le_of_lt Polynomial.natDegree_comp_le ?_
    rw [ascPochhammer_natDegree, Polynomial.natDegree_X_add_C]; omega)
  have e : ∑ i ∈ range (r - l + 1), ((-1 : K) ^ i * ((r - l).choose i : K)) * (((i + l + (l + d + 1))! : K) / (i + l + l + 1)!) = 0 := by
    rw [← key]
    refine sum_congr rfl (fun i _ => ?_)
    congr 1
    have h := factorial_mul_ascPochhammer K (i + l + l + 1) d
    have a2 := factorial_ne (K := K) (i + l + l + 1)
    rw [show i + l + (l + d + 1) = i + l + l + 1 + d by omega, ← h, mul_comm, mul_div_assoc, div_self a2, mul_one,
      Polynomial.eval_comp]
    congr 1
    simp
    ring
  rw [e]; simp

theorem mom_diag (r l : ℕ) (hl : l ≤ r) : mom K r l l = (-1) ^ l * bet K (l + l) (r - l) := by
  rw [mom_eq r l l hl, div_self (factorial_ne _), one_mul, ← alternating_beta]
  congr 1
  refine sum_congr rfl (fun i _ => ?_)
  congr 1
  rw [Nat.factorial_succ (i + l + l), show i + (l + l) + 1 = i + l + l + 1 by omega]
  have := factorial_ne (K := K) (i + l + l)
  have h2 : ((i + l + l + 1 : ℕ) : K) ≠ 0 := Nat.cast_ne_zero.2 (by omega)
  push_cast at h2 ⊢
  field_simp

/-- The Gram matrix of `x^k (1 - x)^(r - k)`. -/
def gram (K : Type) [Field K] (r k j : ℕ) : K := bet K (k + j) (2 * r - (k + j))

theorem ac_gram (r l j : ℕ) (hj : j ≤ r) :
    ∑ k ∈ range (r + 1), ac K r l k * gram K r k j = ∑ i ∈ range (r - j + 1), ((-1) ^ i * ((r - j).choose i : K)) * mom K r l (j + i) := by
  unfold mom
  simp only [mul_sum]
  rw [sum_comm]
  refine sum_congr rfl (fun k hk => ?_)
  have hk' : k ≤ r := by have := mem_range.1 hk; omega
  unfold gram
  rw [show 2 * r - (k + j) = (r - k) + (r - j) by omega, bet_expand, mul_sum]
  refine sum_congr rfl (fun i _ => ?_)
  rw [show k + (j + i) = k + j + i by omega]; ring

theorem ac_gram_zero (r l j : ℕ) (hl : l < j) (hj : j ≤ r) : ∑ k ∈ range (r + 1), ac K r l k * gram K r k j = 0 := by
  rw [ac_gram r l j hj]
  refine sum_eq_zero (fun i hi => ?_)
  have := mem_range.1 hi
  rw [mom_zero r l (j + i) (by omega) (by omega), mul_zero]

theorem ac_gram_diag (r l : ℕ) (hl : l ≤ r) : ∑ k ∈ range (r + 1), ac K r l k * gram K r k l = (-1) ^ l * bet K (l + l) (r - l) := by
  rw [ac_gram r l l hl, sum_range_succ', sum_eq_zero, zero_add]
  · simp [mom_diag r l hl]
  · intro i hi
    have := mem_range.1 hi
    rw [mom_zero r l (l + (i + 1)) (by omega) (by omega), mul_zero]

omit [CharZero K] in
theorem gram_symm (r k j : ℕ) : gram K r k j = gram K r j k := by unfold gram; rw [add_comm]

/-- Orthogonality, with the norms. -/
theorem orthogonal_le (r l s : ℕ) (hs : s ≤ r) (h : l ≤ s) :
    ∑ j ∈ range (r + 1), (∑ k ∈ range (r + 1), ac K r l k * gram K r k j) * ac K r s j =
      if l = s then 1 / ((2 * l + 1 : ℕ) : K) else 0 := by
  have hz : ∀ j ∈ range (r + 1), j ≠ s → (∑ k ∈ range (r + 1), ac K r l k * gram K r k j) * ac K r s j = 0 := by
    intro j hj hne
    have := mem_range.1 hj
    rcases lt_or_gt_of_ne hne with h1 | h1
    · rw [ac_zero r s j h1 hs, mul_zero]
    · rw [ac_gram_zero r l j (by omega) (by omega), zero_mul]
  rw [sum_eq_single s hz (fun h => absurd (mem_range.2 (by omega)) h)]
  split
  · rename_i hls
    subst hls
    rw [ac_gram_diag r l hs]
    unfold ac bet
    rw [Nat.choose_self, Nat.cast_choose K (show r - l ≤ r + l + 1 by omega), show r + l + 1 - (r - l) = 2 * l + 1 by omega,
      show l + l + (r - l) + 1 = r + l + 1 by omega, show l + l = 2 * l by omega, Nat.factorial_succ (2 * l)]
    have a1 := factorial_ne (K := K) (2 * l)
    have a2 := factorial_ne (K := K) (r - l)
    have a3 := factorial_ne (K := K) (r + l + 1)
    have h2 : ((2 * l + 1 : ℕ) : K) ≠ 0 := Nat.cast_ne_zero.2 (by omega)
    have h3 : (-1 : K) ^ l * (-1) ^ l = 1 := by rw [← mul_pow]; simp
    push_cast at h2 ⊢
    field_simp
    rw [pow_two] 
    linear_combination h3
  · rename_i hls
    rw [ac_gram_zero r l s (by omega) hs, zero_mul]

theorem orthogonal (r l s : ℕ) (hl : l ≤ r) (hs : s ≤ r) :
    ∑ j ∈ range (r + 1), (∑ k ∈ range (r + 1), ac K r l k * gram K r k j) * ac K r s j =
      if l = s then 1 / ((2 * l + 1 : ℕ) : K) else 0 := by
  rcases le_total l s with h | h
  · exact orthogonal_le r l s hs h
  · have := orthogonal_le (K := K) r s l hl h
    rw [if_congr (eq_comm (a := l)) rfl rfl]
    rcases eq_or_ne s l with rfl | hne
    · exact this
    · rw [if_neg hne] at this ⊢
      rw [← this]
      simp only [sum_mul]
      rw [sum_comm]
      refine sum_congr rfl (fun k _ => sum_congr rfl (fun j _ => ?_))
      rw [gram_symm r k j]; ring

/-- The coefficients of the dual polynomials with respect to `x^k (1 - x)^(r - k)` invert the Gram matrix. -/
theorem dual_gram (r i j : ℕ) (hi : i ≤ r) (hj : j ≤ r) :
    ∑ k ∈ range (r + 1), (∑ l ∈ range (r + 1), ((2 * l + 1 : ℕ) : K) * (ac K r l i * ac K r l k)) * gram K r k j =
      if i = j then 1 else 0 := by
  let A : Matrix (Fin (r + 1)) (Fin (r + 1)) K := Matrix.of fun l k => ac K r l k
  let G : Matrix (Fin (r + 1)) (Fin (r + 1)) K := Matrix.of fun k j => gram K r k j
  let D : Matrix (Fin (r + 1)) (Fin (r + 1)) K := Matrix.diagonal fun l => ((2 * (l : ℕ) + 1 : ℕ) : K)
  have h1 : A * (G * (A.transpose * D)) = 1 := by
    rw [← Matrix.mul_assoc, ← Matrix.mul_assoc]
    ext l s
    rw [Matrix.mul_diagonal, Matrix.mul_apply]
    simp only [Matrix.mul_apply, Matrix.transpose_apply, A, G, Matrix.of_apply]
    have := orthogonal (K := K) r l s (by omega) (by omega)
    rw [Finset.sum_range] at this
    simp only [Finset.sum_range] at this
    rw [this, Matrix.one_apply]
    by_cases hls : l = s
    · subst hls
      have h2 : ((2 * (l : ℕ) + 1 : ℕ) : K) ≠ 0 := Nat.cast_ne_zero.2 (by omega)
      rw [if_pos rfl, if_pos rfl, one_div, inv_mul_cancel₀ h2]
    · rw [if_neg (fun h => hls (Fin.ext h)), if_neg hls, zero_mul]
  have h2 : (A.transpose * D * A) * G = 1 := by
    have h3 := mul_eq_one_comm.1 h1
    have h4 : G * (A.transpose * D * A) = 1 := by rw [← h3]; simp only [Matrix.mul_assoc]
    exact mul_eq_one_comm.1 h4
  have h5 := congrFun (congrFun h2 ⟨i, by omega⟩) ⟨j, by omega⟩
  rw [Matrix.mul_apply, Matrix.one_apply] at h5
  simp only [Fin.mk.injEq] at h5
  rw [← h5, Finset.sum_range]
  refine sum_congr rfl (fun k _ => ?_)
  congr 1
  rw [Matrix.mul_apply, Finset.sum_range]
  refine sum_congr rfl (fun l _ => ?_)
  rw [Matrix.mul_diagonal]
  simp only [Matrix.transpose_apply, A, Matrix.of_apply]
  ring

end Verif.Poly.Dual1
