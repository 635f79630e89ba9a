import Verif.Lemmas.PolyRepPow
import Mathlib.Analysis.Calculus.Deriv.Mul
import Mathlib.Analysis.Calculus.Deriv.Pow
import Mathlib.Analysis.Calculus.Deriv.Add
/-!
# Partial derivatives
-/

namespace Verif.Poly
open Verif Verif.MI Verif.Spec

/-! ## Summation by shifting -/

theorem sum_shift {W : Type} [AddCommMonoid W] (m r : Nat) (hr : r ≠ 0) (i : Fin m) (G : (Fin m → ℕ) → W) :
    ∑ ν ∈ S m r, (if ν i = 0 then 0 else G ν) = ∑ τ ∈ S m (r - 1), G (τ + Pi.single i 1) := by
  rw [Finset.sum_congr rfl (fun ν _ => (ite_not (ν i = 0) (G ν) 0).symm), ← Finset.sum_filter]
  refine Finset.sum_nbij' (fun ν => ν - Pi.single i 1) (fun τ => τ + Pi.single i 1) ?_ ?_ ?_ ?_ ?_
  · intro ν hν
    obtain ⟨h1, h2⟩ := Finset.mem_filter.1 hν
    have hle : (Pi.single i 1 : Fin m → ℕ) ≤ ν := by
      intro j
      by_cases hj : j = i
      · subst hj; simp; omega
      · simp [Pi.single_apply, hj]
    rw [mem_S] at h1 ⊢
    rw [sum_sub hle]; simp; omega
  · intro τ hτ
    rw [Finset.mem_filter, mem_S]
    rw [mem_S] at hτ
    simp only [Pi.add_apply, Finset.sum_add_distrib, Pi.single_eq_same]
    rw [show ∑ j, (Pi.single i 1 : Fin m → ℕ) j = 1 by simp]
    omega
  · intro ν hν
    obtain ⟨h1, h2⟩ := Finset.mem_filter.1 hν
    funext j
    by_cases hj : j = i
    · subst hj; simp; omega
    · simp [Pi.single_apply, hj]
  · intro τ _
    funext j; simp
  · intro ν hν
    obtain ⟨h1, h2⟩ := Finset.mem_filter.1 hν
    congr 1
    funext j
    by_cases hj : j = i
    · subst hj; simp; omega
    · simp [Pi.single_apply, hj]

theorem sum_shrink {W : Type} [AddCommMonoid W] (m r : Nat) (hr : r ≠ 0) (G : (Fin m → ℕ) → W) :
    ∑ ν ∈ S m r, (if ∑ i, ν i = r then 0 else G ν) = ∑ τ ∈ S m (r - 1), G τ := by
  rw [Finset.sum_congr rfl (fun ν _ => (ite_not (∑ i, ν i = r) (G ν) 0).symm), ← Finset.sum_filter]
  refine Finset.sum_congr ?_ (fun _ _ => rfl)
  ext ν
  rw [Finset.mem_filter, mem_S, mem_S]; omega

theorem map_factorial_ofFn {m : Nat} (ν : Fin m → ℕ) : ((List.ofFn ν).map Nat.factorial).prod = ∏ i, (ν i).factorial := by
  rw [List.map_ofFn, List.prod_ofFn]; rfl

theorem multinomial_shrink {m : Nat} (r : Nat) (hr : r ≠ 0) (τ : Fin m → ℕ) (h : τ ∈ S m (r - 1)) :
    multinomial r (List.ofFn τ) * (r - ∑ i, τ i) = r * multinomial (r - 1) (List.ofFn τ) := by
  have hs := mem_S.1 h
  have h1 := multinomial_mul r (List.ofFn τ) (by rw [List.sum_ofFn]; omega)
  have h2 := multinomial_mul (r - 1) (List.ofFn τ) (by rw [List.sum_ofFn]; omega)
  have hp := factorials_pos (r - 1) (List.ofFn τ)
  rw [List.sum_ofFn] at h1 h2 hp
  apply Nat.eq_of_mul_eq_mul_right hp
  have e1 : (r - ∑ i, τ i).factorial = (r - ∑ i, τ i) * (r - 1 - ∑ i, τ i).factorial := by
    rw [show r - ∑ i, τ i = (r - 1 - ∑ i, τ i) + 1 by omega, Nat.factorial_succ]
  have e2 : r.factorial = r * (r - 1).factorial := by
    obtain ⟨k, rfl⟩ := Nat.exists_eq_succ_of_ne_zero hr
    rw [Nat.factorial_succ]; simp
  rw [e1, e2, ← h2] at h1
  rw [Nat.mul_assoc r, ← h1]
  ring

theorem multinomial_shift {m : Nat} (r : Nat) (hr : r ≠ 0) (i : Fin m) (τ : Fin m → ℕ) (h : τ ∈ S m (r - 1)) :
    multinomial r (List.ofFn (τ + Pi.single i 1)) * (τ i + 1) = r * multinomial (r - 1) (List.ofFn τ) := by
  have hs := mem_S.1 h
  have hsum : (List.ofFn (τ + Pi.single i 1)).sum = ∑ i, τ i + 1 := by
    rw [List.sum_ofFn]; simp [Finset.sum_add_distrib]
  have h1 := multinomial_mul r (List.ofFn (τ + Pi.single i 1)) (by rw [hsum]; omega)
  have h2 := multinomial_mul (r - 1) (List.ofFn τ) (by rw [List.sum_ofFn]; omega)
  have hp := factorials_pos (r - 1) (List.ofFn τ)
  rw [hsum] at h1
  rw [List.sum_ofFn] at h2 hp
  apply Nat.eq_of_mul_eq_mul_right hp
  have e2 : r.factorial = r * (r - 1).factorial := by
    obtain ⟨k, rfl⟩ := Nat.exists_eq_succ_of_ne_zero hr
    rw [Nat.factorial_succ]; simp
  have e3 : ((List.ofFn (τ + Pi.single i 1)).map Nat.factorial).prod = (τ i + 1) * ((List.ofFn τ).map Nat.factorial).prod := by
    rw [map_factorial_ofFn, map_factorial_ofFn, ← Finset.mul_prod_erase Finset.univ _ (Finset.mem_univ i),
      ← Finset.mul_prod_erase Finset.univ (fun j => (τ j).factorial) (Finset.mem_univ i), ← mul_assoc]
    congr 1
    · simp [Nat.factorial_succ]
    · refine Finset.prod_congr rfl (fun j hj => ?_)
      simp [Pi.single_apply, (Finset.mem_erase.1 hj).1]
  rw [e3, e2, ← h2, show r - (∑ i, τ i + 1) = r - 1 - ∑ i, τ i by omega] at h1
  rw [Nat.mul_assoc r, ← h1]
  ring

variable {K V : Type} [NontriviallyNormedField K] [DecidableEq K] [CharZero K] [NormedAddCommGroup V] [NormedSpace K V]

omit [DecidableEq K] [CharZero K] in
theorem hasDerivAt_monomial {m : Nat} (x : Fin m → K) (i : Fin m) (ν : Fin m → ℕ) :
    HasDerivAt (fun t => ∏ j, (Function.update x i t) j ^ ν j)
      (if ν i = 0 then 0 else (ν i : K) * ∏ j, x j ^ (ν - Pi.single i 1 : Fin m → ℕ) j) (x i) := by
  have h1 : (fun t => ∏ j, (Function.update x i t) j ^ ν j) =
      fun t => t ^ ν i * ∏ j ∈ Finset.univ.erase i, x j ^ ν j := by
    funext t
    rw [← Finset.mul_prod_erase Finset.univ _ (Finset.mem_univ i), Function.update_self]
    congr 1
    exact Finset.prod_congr rfl (fun j hj => by rw [Function.update_of_ne (Finset.mem_erase.1 hj).1])
  rw [h1]
  have h2 := (hasDerivAt_pow (ν i) (x i)).mul_const (∏ j ∈ Finset.univ.erase i, x j ^ ν j)
  refine h2.congr_deriv ?_
  symm
  by_cases h0 : ν i = 0
  · rw [if_pos h0, h0]; simp
  · rw [if_neg h0, ← Finset.mul_prod_erase Finset.univ _ (Finset.mem_univ i), mul_assoc]
    congr 2
    · simp
    · refine Finset.prod_congr rfl (fun j hj => ?_)
      simp [Pi.single_apply, (Finset.mem_erase.1 hj).1]

omit [DecidableEq K] [CharZero K] in
theorem hasDerivAt_bary {m : Nat} (x : Fin m → K) (i : Fin m) :
    HasDerivAt (fun t => 1 - ∑ j, (Function.update x i t) j) (-1) (x i) := by
  have h1 : (fun t => 1 - ∑ j, (Function.update x i t) j) = fun t => 1 - (t + ∑ j ∈ Finset.univ.erase i, x j) := by
    funext t
    rw [← Finset.add_sum_erase Finset.univ _ (Finset.mem_univ i), Function.update_self]
    congr 2
    exact Finset.sum_congr rfl (fun j hj => by rw [Function.update_of_ne (Finset.mem_erase.1 hj).1])
  rw [h1]
  exact ((hasDerivAt_id (x i)).add_const _).const_sub 1

omit [DecidableEq K] [CharZero K] in
theorem hasDerivAt_val_monomial (m r : Nat) (hr : r ≠ 0) (c : List Nat → V) (x : Fin m → K) (i : Fin m) :
    HasDerivAt (fun t => val .monomial m r c (Function.update x i t))
      (val .monomial m (r - 1) (fun τ => (τ.getD i 0 + 1) • c (incAt τ i)) x) (x i) := by
  simp only [val, basisFn, monomial_ofFn]
  have h1 : HasDerivAt (fun t => ∑ ν ∈ S m r, (∏ j, (Function.update x i t) j ^ ν j) • c (List.ofFn ν))
      (∑ ν ∈ S m r, (if ν i = 0 then 0 else (ν i : K) * ∏ j, x j ^ (ν - Pi.single i 1 : Fin m → ℕ) j) • c (List.ofFn ν)) (x i) :=
    HasDerivAt.fun_sum (fun ν _ => (hasDerivAt_monomial x i ν).smul_const _)
  refine h1.congr_deriv ?_
  symm
  simp only [ite_smul, zero_smul]
  rw [sum_shift m r hr i]
  refine Finset.sum_congr rfl (fun τ _ => ?_)
  have e1 : (τ + Pi.single i 1 - Pi.single i 1 : Fin m → ℕ) = τ := by funext j; simp
  rw [e1, incAt_ofFn]
  have e2 : (List.ofFn τ).getD (i : Nat) 0 = τ i := by simp
  rw [e2, ← Nat.cast_smul_eq_nsmul K, smul_smul, mul_comm]
  simp

omit [DecidableEq K] [CharZero K] in
theorem hasDerivAt_val_bernstein (m r : Nat) (hr : r ≠ 0) (c : List Nat → V) (x : Fin m → K) (i : Fin m) :
    HasDerivAt (fun t => val .bernstein m r c (Function.update x i t))
      (val .bernstein m (r - 1) (fun τ => (r : K) • (c (incAt τ i) - c τ)) x) (x i) := by
  simp only [val, basisFn, bernstein_ofFn]
  have hx : 1 - ∑ j, (Function.update x i (x i)) j = 1 - ∑ j, x j := by rw [Function.update_eq_self]
  have hx' : ∀ ν : Fin m → ℕ, ∏ j, (Function.update x i (x i)) j ^ ν j = ∏ j, x j ^ ν j := by
    intro ν; rw [Function.update_eq_self]
  have h1 : HasDerivAt (fun t => ∑ ν ∈ S m r, ((multinomial r (List.ofFn ν) : K) * ((∏ j, (Function.update x i t) j ^ ν j) *
        (1 - ∑ j, (Function.update x i t) j) ^ (r - ∑ j, ν j))) • c (List.ofFn ν))
      (∑ ν ∈ S m r, ((multinomial r (List.ofFn ν) : K) *
        ((if ν i = 0 then 0 else (ν i : K) * ∏ j, x j ^ (ν - Pi.single i 1 : Fin m → ℕ) j) * (1 - ∑ j, x j) ^ (r - ∑ j, ν j) +
          (∏ j, x j ^ ν j) * (((r - ∑ j, ν j : Nat) : K) * (1 - ∑ j, x j) ^ (r - ∑ j, ν j - 1) * (-1)))) • c (List.ofFn ν)) (x i) := by
    refine HasDerivAt.fun_sum (fun ν _ => (((HasDerivAt.const_mul _ ?_)).smul_const _))
    have := (hasDerivAt_monomial x i ν).mul ((hasDerivAt_bary x i).fun_pow (r - ∑ j, ν j))
    rw [hx, hx'] at this
    exact this
  refine h1.congr_deriv ?_
  symm
  have h2 : ∀ ν ∈ S m r, ((multinomial r (List.ofFn ν) : K) *
        ((if ν i = 0 then 0 else (ν i : K) * ∏ j, x j ^ (ν - Pi.single i 1 : Fin m → ℕ) j) * (1 - ∑ j, x j) ^ (r - ∑ j, ν j) +
          (∏ j, x j ^ ν j) * (((r - ∑ j, ν j : Nat) : K) * (1 - ∑ j, x j) ^ (r - ∑ j, ν j - 1) * (-1)))) • c (List.ofFn ν) =
      (if ν i = 0 then 0 else ((multinomial r (List.ofFn ν) : K) * (ν i : K) * ((∏ j, x j ^ (ν - Pi.single i 1 : Fin m → ℕ) j) *
        (1 - ∑ j, x j) ^ (r - ∑ j, ν j))) • c (List.ofFn ν)) -
      (if ∑ j, ν j = r then 0 else ((multinomial r (List.ofFn ν) : K) * ((r - ∑ j, ν j : Nat) : K) *
        ((∏ j, x j ^ ν j) * (1 - ∑ j, x j) ^ (r - 1 - ∑ j, ν j))) • c (List.ofFn ν)) := by
    intro ν hν
    have a1 : (if ∑ j, ν j = r then 0 else ((multinomial r (List.ofFn ν) : K) * ((r - ∑ j, ν j : Nat) : K) *
        ((∏ j, x j ^ ν j) * (1 - ∑ j, x j) ^ (r - 1 - ∑ j, ν j))) • c (List.ofFn ν)) =
        ((multinomial r (List.ofFn ν) : K) * ((r - ∑ j, ν j : Nat) : K) *
        ((∏ j, x j ^ ν j) * (1 - ∑ j, x j) ^ (r - 1 - ∑ j, ν j))) • c (List.ofFn ν) := by
      split
      · rename_i h; rw [h]; simp
      · rfl
    rw [a1, show r - ∑ j, ν j - 1 = r - 1 - ∑ j, ν j by omega]
    by_cases h0 : ν i = 0
    · rw [if_pos h0, if_pos h0, ← sub_eq_zero]
      rw [zero_sub, sub_neg_eq_add, ← add_smul]
      convert zero_smul K _ using 2
      ring
    · rw [if_neg h0, if_neg h0, ← sub_smul]
      congr 1
      ring
  rw [Finset.sum_congr rfl h2, Finset.sum_sub_distrib, sum_shift m r hr i, sum_shrink m r hr, ← Finset.sum_sub_distrib]
  refine Finset.sum_congr rfl (fun τ hτ => ?_)
  have e1 : (τ + Pi.single i 1 - Pi.single i 1 : Fin m → ℕ) = τ := by funext j; simp
  have e3 : r - ∑ j, (τ + Pi.single i 1 : Fin m → ℕ) j = r - 1 - ∑ j, τ j := by
    simp only [Pi.add_apply, Finset.sum_add_distrib]
    rw [show ∑ j, (Pi.single i 1 : Fin m → ℕ) j = 1 by simp]; omega
  have m1 : (multinomial r (List.ofFn (τ + Pi.single i 1)) : K) * ((τ + Pi.single i 1 : Fin m → ℕ) i : K) =
      (r : K) * (multinomial (r - 1) (List.ofFn τ) : K) := by
    have := multinomial_shift r hr i τ hτ
    simp only [Pi.add_apply, Pi.single_eq_same]
    rw [← Nat.cast_mul, this, Nat.cast_mul]
  have m2 : (multinomial r (List.ofFn τ) : K) * ((r - ∑ j, τ j : Nat) : K) =
      (r : K) * (multinomial (r - 1) (List.ofFn τ) : K) := by
    rw [← Nat.cast_mul, multinomial_shrink r hr τ hτ, Nat.cast_mul]
  rw [e1, e3, m1, m2, incAt_ofFn, ← smul_sub, smul_smul]
  congr 1
  ring

theorem zeroPolynomial_mk (b : Basis) (W : Type) [AddCommGroup W] (m : Nat) :
    zeroPolynomial b W 0 m = .ok (mkObj b m 0 (fun _ => 0)) := by
  unfold zeroPolynomial; rw [zeros_tab]; exact new_mk _ _ _ _ (fits_zero m)

omit [DecidableEq K] [CharZero K] in
theorem hasDerivAt_const_val (b : Basis) (m : Nat) (c : List Nat → V) (x : Fin m → K) (i : Fin m) :
    HasDerivAt (fun t => val b m 0 c (Function.update x i t)) 0 (x i) := by
  have h : (fun t => val b m 0 c (Function.update x i t)) = fun _ => val b m 0 c x := by
    funext t
    simp only [val, S_zero, Finset.sum_singleton]
    congr 1
    cases b with
    | monomial => simp only [basisFn, monomial_ofFn]; simp
    | bernstein => simp only [basisFn, bernstein_ofFn]; simp
    | lagrange => simp only [basisFn, lagrange_ofFn]; simp [fallingBinomial]
  rw [h]
  exact hasDerivAt_const _ _

omit [DecidableEq K] [CharZero K] in
theorem unitIndex_lt {m : Nat} (i : Fin m) (p : Obj V) (h : p.m = m) : decide ((i : Nat) < p.m) = true := by
  rw [h]; simp

theorem partialDerivative_rep {p : Obj V} {m : Nat} {f : (Fin m → K) → V} (hp : Represents p m f) (i : Fin m) :
    ∃ s f', p.partialDerivative K i = .ok s ∧ Represents s m f' ∧
      (∀ x, HasDerivAt (fun t => f (Function.update x i t)) (f' x) (x i)) ∧ s.basis = p.basis ∧ s.r = p.r - 1 := by
  obtain ⟨c, hpc, hfc, hfit⟩ := hp.exists_mk
  have hfit' : Fits (p.r - 1) m := hfit.mono (by omega)
  have hcoeff : p.coeff = tab p.m p.r c := by rw [hp.dim, hpc]; rfl
  have hi : (i : Nat) < p.m := by rw [hp.dim]; exact i.2
  by_cases hr : p.r = 0
  · refine ⟨mkObj p.basis m 0 (fun _ => 0), fun _ => 0, ?_, ?_, ?_, rfl, by rw [hr]; rfl⟩
    · unfold Obj.partialDerivative
      have hd := unitIndex_lt i p hp.dim
      cases p.basis with
      | monomial =>
        simp only [partialDerivativeMonomial]
        rw [hd]; simp only [pyAssert_true, Py.bind_ok]; rw [if_pos hr, hp.dim]; exact zeroPolynomial_mk _ _ _
      | bernstein =>
        simp only [partialDerivativeBernstein]
        rw [hd]; simp only [pyAssert_true, Py.bind_ok]; rw [if_pos hr, hp.dim]; exact zeroPolynomial_mk _ _ _
      | lagrange =>
        simp only [partialDerivativeLagrange]
        rw [hd]; simp only [pyAssert_true, Py.bind_ok]; rw [if_pos hr, hp.dim]; exact zeroPolynomial_mk _ _ _
    · rw [← funext (val_zero (K := K) (V := V) p.basis m 0)]; exact rep_mk _ _ _ _ (fits_zero m)
    · intro x; rw [hfc, hr]; exact hasDerivAt_const_val _ _ _ _ _
  · cases hb : p.basis with
    | monomial =>
      have h1 := partialDerivativeMonomial_tab p c i hcoeff hi hr
      rw [hp.dim, new_mk _ _ _ _ hfit'] at h1
      refine ⟨mkObj .monomial m (p.r - 1) (fun τ => (τ.getD i 0 + 1) • c (incAt τ i)), _, ?_, rep_mk (K := K) _ _ _ _ hfit',
        fun x => ?_, rfl, rfl⟩
      · unfold Obj.partialDerivative; rw [hb]; exact h1
      · rw [hfc, hb]; exact hasDerivAt_val_monomial m p.r hr c x i
    | bernstein =>
      have h1 := partialDerivativeBernstein_tab K p c i hcoeff hi hr
      rw [hp.dim, new_mk _ _ _ _ hfit'] at h1
      refine ⟨mkObj .bernstein m (p.r - 1) (fun τ => (p.r : K) • (c (incAt τ i) - c τ)), _, ?_, rep_mk (K := K) _ _ _ _ hfit',
        fun x => ?_, rfl, rfl⟩
      · unfold Obj.partialDerivative; rw [hb]; exact h1
      · rw [hfc, hb]; exact hasDerivAt_val_bernstein m p.r hr c x i
    | lagrange =>
      obtain ⟨q, q1, q2, q3, q4⟩ := toMonomialBasis_rep hp
      obtain ⟨d, hqd, hfd, _⟩ := q2.exists_mk
      rw [q3, q4] at hqd hfd
      have hqc : q.coeff = tab q.m q.r d := by rw [q2.dim, q4, hqd]; rfl
      have h1 := partialDerivativeMonomial_tab q d i hqc (by rw [q2.dim]; exact i.2) (by rw [q4]; exact hr)
      rw [q2.dim, q4, new_mk _ _ _ _ hfit'] at h1
      have hpoly := val_isPoly (K := K) .monomial m (p.r - 1) (fun τ => (τ.getD i 0 + 1) • d (incAt τ i))
      refine ⟨mkObj .lagrange m (p.r - 1) (fun ν => (val (K := K) .monomial m (p.r - 1) (fun τ => (τ.getD i 0 + 1) • d (incAt τ i)))
        (fun i => ((ν.getD i 0 : Nat) : K) / ((p.r - 1 : Nat) : K))), val .monomial m (p.r - 1) (fun τ => (τ.getD i 0 + 1) • d (incAt τ i)), ?_, ?_, fun x => ?_, rfl, rfl⟩
      · unfold Obj.partialDerivative
        rw [hb]
        simp only [partialDerivativeLagrange]
        rw [unitIndex_lt i p hp.dim]
        simp only [pyAssert_true, Py.bind_ok]
        rw [if_neg hr, q1]
        simp only [Py.bind_ok]
        rw [h1]
        simp only [Py.bind_ok]
        rw [hp.dim, lagrange_sample m (p.r - 1) _ _ (fun x => call_mk .monomial m (p.r - 1) _ x)]
        exact new_mk _ _ _ _ hfit'
      · have := rep_mk (K := K) .lagrange m (p.r - 1) (fun ν => (val (K := K) .monomial m (p.r - 1) (fun τ => (τ.getD i 0 + 1) • d (incAt τ i)))
          (fun i => ((ν.getD i 0 : Nat) : K) / ((p.r - 1 : Nat) : K))) hfit'
        rwa [funext (val_sampled hpoly)] at this
      · rw [hfd]; exact hasDerivAt_val_monomial m p.r hr d x i

omit [CharZero K] in
theorem partialDerivative_range (p : Obj V) (i : Nat) (h : p.m ≤ i) : p.partialDerivative K i = .error .assertion := by
  have hd : decide (i < p.m) = false := by simpa using h
  unfold Obj.partialDerivative
  cases p.basis with
  | monomial => simp only [partialDerivativeMonomial]; rw [hd]; rfl
  | bernstein => simp only [partialDerivativeBernstein]; rw [hd]; rfl
  | lagrange => simp only [partialDerivativeLagrange]; rw [hd]; rfl

end Verif.Poly
