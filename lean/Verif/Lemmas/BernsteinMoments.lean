import Verif.Lemmas.PolyRep
import Verif.Lemmas.PolyBernstein
import Mathlib.Algebra.Polynomial.Roots
import Mathlib.Algebra.Polynomial.Coeff
import Mathlib.Algebra.Polynomial.Eval.Coeff
import Mathlib.Data.Nat.Choose.Cast
/-!
# Moments of the Bernstein polynomials

At a point of the unit simplex the values of the Bernstein polynomials are the probabilities of a multinomial distribution. Its factorial moments.
-/

namespace Verif.Poly
open Verif Spec Polynomial

variable {K : Type} [Field K] [CharZero K]

omit [CharZero K] in
/-- `Σ_ν B_ν(x) (1 + t)^(ν_j) = (1 + x_j t)^r`. -/
theorem bernstein_generating (n r : ℕ) (x : Fin n → K) (j : Fin n) (t : K) :
    ∑ ν ∈ S n r, Spec.bernstein r (List.ofFn x) (List.ofFn ν) * (1 + t) ^ ν j = (1 + x j * t) ^ r := by
  have h := multinomial_theorem n r (fun i => x i * if i = j then 1 + t else 1) (1 - ∑ i, x i)
  have hs : ∑ i, (x i * if i = j then 1 + t else 1) = ∑ i, x i + x j * t := by
    have : ∀ i, (x i * if i = j then 1 + t else 1) = x i + if i = j then x i * t else 0 := by
      intro i
      split_ifs <;> ring
    simp only [this, Finset.sum_add_distrib, Finset.sum_ite_eq', Finset.mem_univ, if_true]
  rw [hs] at h
  rw [show 1 - ∑ i, x i + (∑ i, x i + x j * t) = 1 + x j * t by ring] at h
  rw [← h]
  refine Finset.sum_congr rfl (fun ν _ => ?_)
  rw [bernstein_ofFn]
  simp only [mul_pow, Finset.prod_mul_distrib, ite_pow, one_pow, Finset.prod_ite_eq', Finset.mem_univ, if_true]
  ring

/-- The factorial moments. -/
theorem bernstein_moment (n r : ℕ) (x : Fin n → K) (j : Fin n) (k : ℕ) :
    ∑ ν ∈ S n r, Spec.bernstein r (List.ofFn x) (List.ofFn ν) * ((ν j).choose k : K) = (r.choose k : K) * x j ^ k := by
  have h : (∑ ν ∈ S n r, C (Spec.bernstein r (List.ofFn x) (List.ofFn ν)) * (1 + X) ^ ν j : K[X]) = ((1 + X) ^ r).comp (C (x j) * X) := by
    have : Infinite K := Infinite.of_injective (fun k : ℕ => (k : K)) Nat.cast_injective
    refine Polynomial.funext (fun t => ?_)
    rw [eval_finsetSum]
    simp only [eval_mul, eval_C, eval_pow, eval_add, eval_one, eval_X, eval_comp]
    exact bernstein_generating n r x j t
  have h2 := congrArg (fun p => Polynomial.coeff p k) h
  simp only [finsetSum_coeff, coeff_C_mul, coeff_one_add_X_pow, comp_C_mul_X_coeff] at h2
  exact h2

omit [CharZero K] in
theorem bernstein_total (n r : ℕ) (x : Fin n → K) : ∑ ν ∈ S n r, Spec.bernstein r (List.ofFn x) (List.ofFn ν) = 1 := by
  simp only [bernstein_ofFn]
  exact partition_of_unity n r x

theorem bernstein_mean (n r : ℕ) (x : Fin n → K) (j : Fin n) :
    ∑ ν ∈ S n r, Spec.bernstein r (List.ofFn x) (List.ofFn ν) * (ν j : K) = (r : K) * x j := by
  simpa using bernstein_moment n r x j 1

theorem bernstein_second (n r : ℕ) (x : Fin n → K) (j : Fin n) :
    ∑ ν ∈ S n r, Spec.bernstein r (List.ofFn x) (List.ofFn ν) * (ν j : K) ^ 2 = (r : K) * ((r : K) - 1) * x j ^ 2 + (r : K) * x j := by
  have h := bernstein_moment n r x j 2
  have h1 := bernstein_mean n r x j
  have e : ∀ a : ℕ, (a : K) ^ 2 = 2 * (a.choose 2 : K) + a := by
    intro a
    rw [Nat.cast_choose_two]
    ring
  have : ∀ ν : Fin n → ℕ, Spec.bernstein r (List.ofFn x) (List.ofFn ν) * (ν j : K) ^ 2 =
      2 * (Spec.bernstein r (List.ofFn x) (List.ofFn ν) * ((ν j).choose 2 : K)) + Spec.bernstein r (List.ofFn x) (List.ofFn ν) * (ν j : K) := by
    intro ν
    rw [e]
    ring
  simp only [this]
  rw [Finset.sum_add_distrib, ← Finset.mul_sum, h, h1, Nat.cast_choose_two]
  ring

/-- The variance of the relative frequencies. -/
theorem bernstein_variance (n r : ℕ) (hr : r ≠ 0) (x : Fin n → K) (j : Fin n) :
    ∑ ν ∈ S n r, Spec.bernstein r (List.ofFn x) (List.ofFn ν) * ((ν j : K) / (r : K) - x j) ^ 2 = x j * (1 - x j) / (r : K) := by
  have hr' : (r : K) ≠ 0 := Nat.cast_ne_zero.2 hr
  have : ∀ ν : Fin n → ℕ, Spec.bernstein r (List.ofFn x) (List.ofFn ν) * ((ν j : K) / (r : K) - x j) ^ 2 =
      1 / (r : K) ^ 2 * (Spec.bernstein r (List.ofFn x) (List.ofFn ν) * (ν j : K) ^ 2) -
        2 * x j / (r : K) * (Spec.bernstein r (List.ofFn x) (List.ofFn ν) * (ν j : K)) + x j ^ 2 * Spec.bernstein r (List.ofFn x) (List.ofFn ν) := by
    intro ν
    field_simp
    ring
  simp only [this]
  rw [Finset.sum_add_distrib, Finset.sum_sub_distrib, ← Finset.mul_sum, ← Finset.mul_sum, ← Finset.mul_sum, bernstein_second, bernstein_mean, bernstein_total]
  field_simp
  ring

end Verif.Poly
