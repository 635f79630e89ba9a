import Verif.Lemmas.PolyUnique
import Mathlib.Algebra.MvPolynomial.Degrees
import Mathlib.Algebra.MvPolynomial.Eval
/-!
# Denominators of the monomial coefficients of Lagrange basis polynomials
-/

namespace Verif.Poly
open Verif Verif.MI Verif.Spec MvPolynomial

/-- `t (t - 1) ⋯ (t - k + 1)` for a polynomial `t`. -/
noncomputable def falling {m : Nat} (t : MvPolynomial (Fin m) ℤ) (k : Nat) : MvPolynomial (Fin m) ℤ := ((List.range k).map (fun (j : Nat) => t - C (j : ℤ))).prod

theorem falling_degree {m : Nat} {t : MvPolynomial (Fin m) ℤ} (ht : t.totalDegree ≤ 1) (k : Nat) : (falling t k).totalDegree ≤ k := by
  unfold falling
  induction k with
  | zero => simp
  | succ k ih =>
    rw [List.range_succ, List.map_append, List.prod_append, List.map_singleton, List.prod_singleton]
    refine (totalDegree_mul _ _).trans (Nat.add_le_add ih ((totalDegree_sub _ _).trans ?_))
    rw [totalDegree_C]
    omega

theorem falling_eval {m : Nat} (t : MvPolynomial (Fin m) ℤ) (x : Fin m → ℚ) (k : Nat) :
    eval₂ (Int.castRingHom ℚ) x (falling t k) = (k.factorial : ℚ) * fallingBinomial (eval₂ (Int.castRingHom ℚ) x t) k := by
  have h1 : eval₂ (Int.castRingHom ℚ) x (falling t k) = ((List.range k).map (fun (j : Nat) => eval₂ (Int.castRingHom ℚ) x t - (j : ℚ))).prod := by
    unfold falling
    rw [← coe_eval₂Hom, map_list_prod, List.map_map]
    congr 1
    refine List.map_congr_left fun j _ => ?_
    simp
  have h2 : ∀ n, n ≤ k → ((List.range n).map (fun (j : Nat) => (k : ℚ) - j)).prod = (k.descFactorial n : ℚ) := by
    intro n
    induction n with
    | zero => simp
    | succ n ih =>
      intro hn
      rw [List.range_succ, List.map_append, List.prod_append, List.map_singleton, List.prod_singleton, ih (by omega), Nat.descFactorial_succ, Nat.cast_mul,
        Nat.cast_sub (by omega), mul_comm]
  have h3 := h2 k le_rfl
  rw [Nat.descFactorial_self] at h3
  rw [h1, fallingBinomial, ← h3, ← List.prod_map_mul]
  congr 1
  refine List.map_congr_left fun j hj => ?_
  have hj' : (k : ℚ) - j ≠ 0 := by
    have : j < k := List.mem_range.1 hj
    rw [sub_ne_zero]
    exact_mod_cast this.ne'
  field_simp

theorem int_of_poly {m r : Nat} (P : MvPolynomial (Fin m) ℤ) (hP : P.totalDegree ≤ r) (a : ℚ) (c : List Nat → ℚ)
    (h : ∀ x : Fin m → ℚ, eval₂ (Int.castRingHom ℚ) x P = a * ∑ μ ∈ S m r, (∏ i, x i ^ μ i) • c (List.ofFn μ)) (μ : Fin m → ℕ) (hμ : μ ∈ S m r) :
    a * c (List.ofFn μ) = (P.coeff (Finsupp.equivFunOnFinite.symm μ) : ℤ) := by
  have hs : ∀ x : Fin m → ℚ, eval₂ (Int.castRingHom ℚ) x P =
      ∑ μ ∈ S m r, (∏ i, x i ^ μ i) * ((P.coeff (Finsupp.equivFunOnFinite.symm μ) : ℤ) : ℚ) := by
    intro x
    rw [eval₂_eq']
    have e := Finset.sum_map (S m r) (Finsupp.equivFunOnFinite.symm.toEmbedding) (fun d : Fin m →₀ ℕ => (∏ i, x i ^ d i) * ((P.coeff d : ℤ) : ℚ))
    refine Eq.trans ?_ e
    refine (Finset.sum_subset (s₂ := (S m r).map Finsupp.equivFunOnFinite.symm.toEmbedding) ?_ ?_).trans ?_
    · intro d hd
      rw [Finset.mem_map]
      refine ⟨fun i => d i, mem_S.2 ?_, by ext; rfl⟩
      have := (le_totalDegree hd).trans hP
      rwa [Finsupp.sum_fintype _ _ (fun _ => rfl)] at this
    · intro d _ hd
      rw [notMem_support_iff.1 hd]
      simp
    · exact Finset.sum_congr rfl fun d _ => by simp [mul_comm]
  have h0 := val_monomial_inj (K := ℚ) m r (fun ν => a * c ν - (P.coeff (Finsupp.equivFunOnFinite.symm (fun i : Fin m => ν.getD i 0)) : ℤ)) (fun x => by
    have h1 := (hs x).symm.trans (h x)
    rw [Finset.mul_sum, ← sub_eq_zero, ← Finset.sum_sub_distrib] at h1
    rw [← neg_eq_zero, ← h1]
    unfold val
    rw [← Finset.sum_neg_distrib]
    refine Finset.sum_congr rfl fun ν _ => ?_
    simp only [basisFn, monomial_ofFn, smul_eq_mul]
    have e : (fun i : Fin m => (List.ofFn ν).getD i 0) = ν := by funext i; simp [List.getD_eq_getElem?_getD]
    rw [e]
    ring) (List.ofFn μ) (by simp) (by rw [List.sum_ofFn]; exact mem_S.1 hμ)
  have e : (fun i : Fin m => (List.ofFn μ).getD i 0) = μ := by funext i; simp [List.getD_eq_getElem?_getD]
  simp only [e] at h0
  exact sub_eq_zero.1 h0

/-- The monomial coefficients of a Lagrange basis polynomial of degree `r` are integers divided by `r!`. -/
theorem lagCoeff_int {m r : Nat} {ν μ : List Nat} (hν : ν ∈ mis m r) (hμ : μ ∈ mis m r) : ∃ z : ℤ, (r.factorial : ℚ) * lagCoeff ℚ m r ν μ = z := by
  obtain ⟨hl, hs⟩ := mem_mis.1 hν
  obtain ⟨hl', hs'⟩ := mem_mis.1 hμ
  have hspec := fun x => lagCoeff_spec (K := ℚ) hl hs x
  obtain ⟨n, rfl⟩ := eq_ofFn hl
  obtain ⟨k, rfl⟩ := eq_ofFn hl'
  rw [List.sum_ofFn] at hs hs'
  let P : MvPolynomial (Fin m) ℤ := C (multinomial r (List.ofFn n) : ℤ) * (falling (C (r : ℤ) * (1 - ∑ i, X i)) (r - ∑ i, n i) * ∏ i, falling (C (r : ℤ) * X i) (n i))
  refine ⟨_, int_of_poly P ?_ _ _ (fun x => ?_) k (mem_S.2 hs')⟩
  · refine (totalDegree_mul _ _).trans ?_
    rw [totalDegree_C, zero_add]
    refine (totalDegree_mul _ _).trans ?_
    have hX : ∀ i : Fin m, (C (r : ℤ) * X i : MvPolynomial (Fin m) ℤ).totalDegree ≤ 1 := fun i => (totalDegree_mul _ _).trans (by rw [totalDegree_C, totalDegree_X])
    have h1 : (C (r : ℤ) * (1 - ∑ i, X i) : MvPolynomial (Fin m) ℤ).totalDegree ≤ 1 := by
      refine (totalDegree_mul _ _).trans ?_
      rw [totalDegree_C, zero_add]
      refine (totalDegree_sub _ _).trans (max_le (by simp) ?_)
      exact totalDegree_finsetSum_le (fun i _ => by rw [totalDegree_X])
    have h2 : (∏ i, falling (C (r : ℤ) * X i : MvPolynomial (Fin m) ℤ) (n i)).totalDegree ≤ ∑ i, n i :=
      (totalDegree_finsetProd _ _).trans (Finset.sum_le_sum fun i _ => falling_degree (hX i) _)
    have h3 := falling_degree h1 (r - ∑ i, n i)
    omega
  · rw [← hspec x, lagrange_ofFn]
    have hm := multinomial_mul r (List.ofFn n) (by rwa [List.sum_ofFn])
    have hm' : (r.factorial : ℚ) = (multinomial r (List.ofFn n) : ℚ) * ((∏ i, ((n i).factorial : ℚ)) * ((r - ∑ i, n i).factorial : ℚ)) := by
      rw [← hm, List.sum_ofFn, List.map_ofFn, List.prod_ofFn]
      push_cast
      rfl
    have e : eval₂ (Int.castRingHom ℚ) x P = (multinomial r (List.ofFn n) : ℚ) *
        (((r - ∑ i, n i).factorial : ℚ) * fallingBinomial ((r : ℚ) * (1 - ∑ i, x i)) (r - ∑ i, n i) *
          ∏ i, (((n i).factorial : ℚ) * fallingBinomial ((r : ℚ) * x i) (n i))) := by
      have h1 := falling_eval (C (r : ℤ) * (1 - ∑ i, X i)) x (r - ∑ i, n i)
      have h2 : ∀ i, _ := fun i => falling_eval (C (r : ℤ) * X i) x (n i)
      simp only [P, ← coe_eval₂Hom, map_mul, map_prod] at h1 h2 ⊢
      rw [h1]
      simp only [h2]
      simp
    rw [e, hm', Finset.prod_mul_distrib]
    ring

/-- Their denominators are at most `r!`. -/
theorem lagCoeff_den {m r : Nat} {ν μ : List Nat} (hν : ν ∈ mis m r) (hμ : μ ∈ mis m r) : (lagCoeff ℚ m r ν μ).den ≤ r.factorial := by
  obtain ⟨z, hz⟩ := lagCoeff_int hν hμ
  have hf : (r.factorial : ℚ) ≠ 0 := by exact_mod_cast r.factorial_ne_zero
  have h1 : lagCoeff ℚ m r ν μ = (z : ℚ) / ((r.factorial : ℤ) : ℚ) := by
    rw [Int.cast_natCast, eq_div_iff hf, mul_comm]
    exact hz
  rw [h1]
  have h2 := Rat.den_dvd z (r.factorial : ℤ)
  rw [Rat.divInt_eq_div] at h2
  exact Nat.le_of_dvd r.factorial_pos (by exact_mod_cast h2)

end Verif.Poly
