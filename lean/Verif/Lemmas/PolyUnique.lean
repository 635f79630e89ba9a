import Verif.Lemmas.PolyRepPow
/-!
# Coefficients are determined by the function

Monomial: interpolation at the Lagrange points; Lagrange: values at the Lagrange points; Bernstein: the monomial form is
triangular with a non-zero diagonal.
-/

namespace Verif.Poly
open Verif Verif.MI

variable {K V : Type} [Field K] [DecidableEq K] [CharZero K] [AddCommGroup V] [Module K V]

omit [DecidableEq K] in
theorem val_monomial_inj (m r : Nat) (c : List Nat → V) (h : ∀ x : Fin m → K, val .monomial m r c x = 0) (τ : List Nat)
    (hτ : τ.length = m) (hs : τ.sum ≤ r) : c τ = 0 := by
  rw [coeff_of_values (K := K) m r c τ hτ hs]
  refine Finset.sum_eq_zero (fun μ _ => ?_)
  have := h (lpt K r μ)
  simp only [val, basisFn, monomial_ofFn] at this
  rw [this, smul_zero]

omit [DecidableEq K] in
theorem val_lagrange_inj (m r : Nat) (c : List Nat → V) (h : ∀ x : Fin m → K, val .lagrange m r c x = 0) (μ : Fin m → ℕ)
    (hμ : μ ∈ S m r) : c (List.ofFn μ) = 0 := by
  have := h (lpt K r μ)
  simp only [val] at this
  rw [Finset.sum_eq_single μ] at this
  · rw [show basisFn Basis.lagrange r (List.ofFn (lpt K r μ)) (List.ofFn μ) = 1 from by
      have := lagrange_delta (K := K) r μ μ hμ hμ
      rw [if_pos rfl] at this; exact this, one_smul] at this
    exact this
  · intro ν hν hne
    rw [show basisFn Basis.lagrange r (List.ofFn (lpt K r μ)) (List.ofFn ν) = 0 from by
      have := lagrange_delta (K := K) r ν μ hν hμ
      rw [if_neg hne] at this; exact this, zero_smul]
  · intro h; exact absurd hμ h

omit [DecidableEq K] [CharZero K] in
theorem bernMono_sum (m r : Nat) (ν τ : Fin m → ℕ) :
    bernMono K m r (List.ofFn ν) (List.ofFn τ) =
      ∑ μ ∈ S m (r - ∑ i, ν i), if μ + ν = τ then ((bernCoeff r (List.ofFn ν) (List.ofFn μ) : Int) : K) else 0 := by
  simp only [bernMono, List.sum_ofFn]
  rw [sum_mis, Int.cast_sum]
  refine Finset.sum_congr rfl (fun μ _ => ?_)
  rw [zipWith_add_ofFn]
  by_cases hh : μ + ν = τ
  · rw [if_pos hh, if_pos (by rw [hh])]
  · rw [if_neg hh, if_neg (fun h => hh (List.ofFn_injective h))]; simp

omit [DecidableEq K] [CharZero K] in
theorem bernMono_zero (m r : Nat) (ν τ : Fin m → ℕ) (h : ¬ ν ≤ τ) : bernMono K m r (List.ofFn ν) (List.ofFn τ) = 0 := by
  rw [bernMono_sum]
  refine Finset.sum_eq_zero (fun μ _ => ?_)
  rw [if_neg]
  rintro rfl
  exact h (fun i => by simp)

omit [DecidableEq K] in
theorem bernMono_diag (m r : Nat) (τ : Fin m → ℕ) (hτ : τ ∈ S m r) : bernMono K m r (List.ofFn τ) (List.ofFn τ) ≠ 0 := by
  rw [bernMono_sum, Finset.sum_eq_single 0]
  · rw [if_pos (by simp)]
    unfold bernCoeff
    rw [List.sum_ofFn]
    simp only [Pi.zero_apply, Finset.sum_const_zero]
    have h1 := multinomial_mul r (List.ofFn τ) (by rw [List.sum_ofFn]; exact mem_S.1 hτ)
    have h2 := multinomial_mul (r - (List.ofFn τ).sum) (List.ofFn (0 : Fin m → ℕ)) (by rw [List.sum_ofFn]; simp)
    have h3 : Spec.multinomial r (List.ofFn τ) ≠ 0 := by
      intro h0; rw [h0] at h1; simp at h1
      exact absurd h1.symm (Nat.factorial_ne_zero _)
    have h4 : Spec.multinomial (r - (List.ofFn τ).sum) (List.ofFn (0 : Fin m → ℕ)) ≠ 0 := by
      intro h0; rw [h0] at h2; simp at h2
      exact absurd h2.symm (Nat.factorial_ne_zero _)
    rw [if_neg (by decide)]
    rw [Int.cast_natCast, Nat.cast_ne_zero]
    exact Nat.mul_ne_zero h3 (by simpa using h4)
  · intro μ _ hne
    rw [if_neg]
    intro h
    apply hne
    funext i
    have := congrFun h i
    simpa using this
  · intro h
    exact absurd (mem_S.2 (by simp)) h

omit [DecidableEq K] in
theorem val_bernstein_inj (m r : Nat) (c : List Nat → V) (h : ∀ x : Fin m → K, val .bernstein m r c x = 0) :
    ∀ μ : Fin m → ℕ, μ ∈ S m r → c (List.ofFn μ) = 0 := by
  have hmono : ∀ x : Fin m → K, val .monomial m r (fun τ => ∑ ν ∈ S m r, bernMono K m r (List.ofFn ν) τ • c (List.ofFn ν)) x = 0 := by
    intro x
    rw [← h x]
    simp only [val, Finset.smul_sum]
    rw [Finset.sum_comm]
    refine Finset.sum_congr rfl (fun ν hν => ?_)
    have := bernMono_val (K := K) (List.ofFn ν) r m (by simp) (by rw [List.sum_ofFn]; exact mem_S.1 hν) x
    simp only [val, smul_eq_mul] at this
    simp only [basisFn] at this ⊢
    rw [← this, Finset.sum_smul]
    exact Finset.sum_congr rfl (fun τ _ => by rw [smul_smul])
  suffices H : ∀ (k : Nat) (μ : Fin m → ℕ), μ ∈ S m r → ∑ i, μ i = k → c (List.ofFn μ) = 0 from fun μ hμ => H _ μ hμ rfl
  intro k
  induction k using Nat.strong_induction_on with
  | _ k ih =>
    intro μ hμ hk
    have := val_monomial_inj (K := K) m r _ hmono (List.ofFn μ) (by simp) (by rw [List.sum_ofFn]; exact mem_S.1 hμ)
    rw [Finset.sum_eq_single μ] at this
    · exact (smul_eq_zero_iff_right (bernMono_diag m r μ hμ)).1 this
    · intro ν hν hne
      by_cases hle : ν ≤ μ
      · have hlt : ∑ i, ν i < k := by
          rw [← hk]
          obtain ⟨i, hi⟩ : ∃ i, ν i ≠ μ i := by
            by_contra hc; exact hne (funext fun i => by by_contra h'; exact hc ⟨i, h'⟩)
          exact Finset.sum_lt_sum (fun j _ => hle j) ⟨i, Finset.mem_univ _, lt_of_le_of_ne (hle i) hi⟩
        rw [ih _ hlt ν hν rfl, smul_zero]
      · rw [bernMono_zero m r ν μ hle, zero_smul]
    · intro hc; exact absurd hμ hc

omit [DecidableEq K] in
/-- For each basis: equal values everywhere give equal coefficient lists. -/
theorem tab_unique (b : Basis) (m r : Nat) (c d : List Nat → V) (h : ∀ x : Fin m → K, val b m r c x = val b m r d x) :
    tab m r c = tab m r d := by
  have h0 : ∀ x : Fin m → K, val b m r (fun τ => c τ - d τ) x = 0 := by
    intro x
    have := h x
    simp only [val, smul_sub, Finset.sum_sub_distrib] at this ⊢
    rw [this, sub_self]
  unfold tab
  refine List.map_congr_left (fun ν hν => ?_)
  obtain ⟨hl, hs⟩ := mem_mis.1 hν
  obtain ⟨ε, rfl⟩ := eq_ofFn hl
  have hε : ε ∈ S m r := by rw [mem_S, ← List.sum_ofFn]; exact hs
  rw [← sub_eq_zero]
  cases b with
  | monomial => exact val_monomial_inj (K := K) m r _ h0 _ hl hs
  | lagrange => exact val_lagrange_inj (K := K) m r _ h0 _ hε
  | bernstein => exact val_bernstein_inj (K := K) m r _ h0 _ hε

theorem rep_unique {p q : Obj V} {m : Nat} {f : (Fin m → K) → V} (hp : Represents p m f) (hq : Represents q m f)
    (hb : p.basis = q.basis) (hr : p.r = q.r) : p = q := by
  obtain ⟨c, hpc, hfc, _⟩ := hp.exists_mk
  obtain ⟨d, hqd, hfd, _⟩ := hq.exists_mk
  have := tab_unique (K := K) p.basis m p.r c d (fun x => by rw [← congrFun hfc x, congrFun hfd x, hb, hr])
  rw [hpc, hqd]
  unfold mkObj
  rw [this, hb, hr]

end Verif.Poly
