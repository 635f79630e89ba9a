import Verif.Lemmas.PolyBernstein
/-!
# Lagrange interpolation on the lattice `ν / r`
-/

namespace Verif.Poly
open Verif Verif.MI Verif.Spec

variable {K V : Type} [Field K] [AddCommGroup V] [Module K V]

/-! ## Polynomial functions of bounded degree -/

/-- `g` is given by a polynomial of degree at most `r` in `m` variables. -/
def IsPoly (m r : Nat) (g : (Fin m → K) → V) : Prop :=
  ∃ c : List Nat → V, ∀ x, g x = ∑ ν ∈ S m r, (∏ i, x i ^ ν i) • c (List.ofFn ν)

theorem S_zero (m : Nat) : S m 0 = {0} := by
  ext ν
  rw [mem_S, Finset.mem_singleton]
  constructor
  · intro h
    funext i
    have := Finset.single_le_sum (f := ν) (fun _ _ => Nat.zero_le _) (Finset.mem_univ i)
    simp; omega
  · rintro rfl; simp

theorem isPoly_const (m : Nat) (a : V) : IsPoly (K := K) m 0 (fun _ => a) :=
  ⟨fun _ => a, fun x => by simp [S_zero]⟩

theorem IsPoly.mono {m r s : Nat} {g : (Fin m → K) → V} (h : IsPoly m r g) (hs : r ≤ s) : IsPoly m s g := by
  obtain ⟨c, hc⟩ := h
  exact ⟨fun ν => if ν.sum ≤ r then c ν else 0, fun x => by rw [hc x, ← sum_elevate m r s hs]⟩

theorem IsPoly.add {m r : Nat} {g h : (Fin m → K) → V} (hg : IsPoly m r g) (hh : IsPoly m r h) :
    IsPoly m r (fun x => g x + h x) := by
  obtain ⟨c, hc⟩ := hg
  obtain ⟨d, hd⟩ := hh
  exact ⟨fun ν => c ν + d ν, fun x => by simp only [hc x, hd x, smul_add, Finset.sum_add_distrib]⟩

theorem IsPoly.sub {m r : Nat} {g h : (Fin m → K) → V} (hg : IsPoly m r g) (hh : IsPoly m r h) :
    IsPoly m r (fun x => g x - h x) := by
  obtain ⟨c, hc⟩ := hg
  obtain ⟨d, hd⟩ := hh
  exact ⟨fun ν => c ν - d ν, fun x => by simp only [hc x, hd x, smul_sub, Finset.sum_sub_distrib]⟩

theorem IsPoly.smul_mul {m r s : Nat} {g : (Fin m → K) → K} {h : (Fin m → K) → V} (hg : IsPoly m r g) (hh : IsPoly m s h) :
    IsPoly m (r + s) (fun x => g x • h x) := by
  obtain ⟨c, hc⟩ := hg
  obtain ⟨d, hd⟩ := hh
  refine ⟨convCoeff m r s (fun ν μ => c ν • d μ), fun x => ?_⟩
  rw [sum_convCoeff m r s _ (fun τ => ∏ i, x i ^ τ i)]
  simp only []
  rw [hc x, hd x, Finset.sum_smul]
  refine Finset.sum_congr rfl (fun ν _ => ?_)
  rw [Finset.smul_sum]
  refine Finset.sum_congr rfl (fun μ _ => ?_)
  simp only [Pi.add_apply, pow_add, Finset.prod_mul_distrib, smul_smul, smul_eq_mul]
  congr 1; ring

theorem IsPoly.mul {m r s : Nat} {g h : (Fin m → K) → K} (hg : IsPoly m r g) (hh : IsPoly m s h) :
    IsPoly m (r + s) (fun x => g x * h x) := hg.smul_mul hh

theorem IsPoly.smul_const {m r : Nat} {g : (Fin m → K) → K} (hg : IsPoly m r g) (v : V) :
    IsPoly m r (fun x => g x • v) := hg.smul_mul (s := 0) (isPoly_const m v)

theorem isPoly_monomial {m : Nat} (ν : Fin m → ℕ) (r : Nat) (h : ∑ i, ν i ≤ r) :
    IsPoly (K := K) m r (fun x => ∏ i, x i ^ ν i) := by
  refine ⟨fun μ => if μ = List.ofFn ν then 1 else 0, fun x => ?_⟩
  rw [Finset.sum_eq_single ν]
  · simp
  · intro μ _ hμ
    simp [show List.ofFn μ ≠ List.ofFn ν from fun hc => hμ (List.ofFn_injective hc)]
  · intro hc; exact absurd (mem_S.2 h) hc

theorem isPoly_coord {m : Nat} (i : Fin m) : IsPoly (K := K) m 1 (fun x => x i) := by
  have := isPoly_monomial (K := K) (Pi.single i 1) 1 (by simp)
  have h : (fun x : Fin m → K => ∏ j, x j ^ (Pi.single i 1 : Fin m → ℕ) j) = fun x => x i := by
    funext x
    rw [Finset.prod_eq_single i]
    · simp
    · intro j _ hj; simp [hj]
    · intro hc; simp at hc
  rw [h] at this; exact this

theorem IsPoly.const_mul {m r : Nat} {g : (Fin m → K) → K} (a : K) (hg : IsPoly m r g) : IsPoly m r (fun x => a * g x) := by
  have := (isPoly_const (K := K) m a).mul hg
  rwa [Nat.zero_add] at this

theorem isPoly_finset_sum {ι : Type} {m r : Nat} (s : Finset ι) (g : ι → (Fin m → K) → V) (h : ∀ i ∈ s, IsPoly m r (g i)) :
    IsPoly m r (fun x => ∑ i ∈ s, g i x) := by
  classical
  induction s using Finset.induction_on with
  | empty => simpa using (isPoly_const (K := K) m (0 : V)).mono (Nat.zero_le r)
  | insert a s ha ih =>
    have h1 := h a (by simp)
    have h2 := ih (fun i hi => h i (by simp [hi]))
    simpa [Finset.sum_insert ha] using h1.add h2

theorem isPoly_finset_prod {ι : Type} {m : Nat} (s : Finset ι) (g : ι → (Fin m → K) → K) (d : ι → ℕ)
    (h : ∀ i ∈ s, IsPoly m (d i) (g i)) : IsPoly m (∑ i ∈ s, d i) (fun x => ∏ i ∈ s, g i x) := by
  classical
  induction s using Finset.induction_on with
  | empty => simpa using isPoly_const (K := K) m (1 : K)
  | insert a s ha ih =>
    have h1 := h a (by simp)
    have h2 := ih (fun i hi => h i (by simp [hi]))
    simpa [Finset.sum_insert ha, Finset.prod_insert ha] using h1.mul h2

theorem isPoly_bary {m : Nat} : IsPoly (K := K) m 1 (fun x => 1 - ∑ i, x i) :=
  ((isPoly_const m 1).mono (Nat.zero_le 1)).sub (isPoly_finset_sum _ _ (fun i _ => isPoly_coord i))

theorem IsPoly.pow {m r : Nat} {g : (Fin m → K) → K} (hg : IsPoly m r g) (k : Nat) : IsPoly m (r * k) (fun x => g x ^ k) := by
  induction k with
  | zero => simpa using isPoly_const (K := K) m (1 : K)
  | succ k ih => simpa [pow_succ, Nat.mul_succ] using ih.mul hg

/-! ## The interpolation property -/

theorem fallingBinomial_poly {m : Nat} {g : (Fin m → K) → K} (hg : IsPoly m 1 g) (k : Nat) :
    IsPoly m k (fun x => fallingBinomial (g x) k) := by
  unfold fallingBinomial
  have key : ∀ (l : List Nat) (a : Nat → K), IsPoly m l.length
      (fun x => (l.map (fun (j : Nat) => (g x - j) / a j)).prod) := by
    intro l a
    induction l with
    | nil => simpa using isPoly_const (K := K) m (1 : K)
    | cons j l ih =>
      have h1 : IsPoly m 1 (fun x => (g x - (j : K)) / a j) := by
        have := (hg.sub ((isPoly_const m (j : K)).mono (Nat.zero_le 1))).const_mul (a j)⁻¹
        simpa [div_eq_inv_mul] using this
      have := h1.mul ih
      simpa [Nat.add_comm] using this
  have := key (List.range k) (fun j => (k : K) - j)
  simpa using this

theorem fallingBinomial_self [CharZero K] (k : Nat) : fallingBinomial (k : K) k = 1 := by
  unfold fallingBinomial
  apply List.prod_eq_one
  intro y hy
  obtain ⟨j, hj, rfl⟩ := List.mem_map.1 hy
  have hj' := List.mem_range.1 hj
  apply div_self
  rw [sub_ne_zero]
  exact_mod_cast (Nat.ne_of_gt hj')

theorem fallingBinomial_lt (a k : Nat) (h : a < k) : fallingBinomial (a : K) k = 0 := by
  unfold fallingBinomial
  apply List.prod_eq_zero
  exact List.mem_map.2 ⟨a, List.mem_range.2 h, by simp⟩

theorem lagrange_ofFn {m : Nat} (r : Nat) (x : Fin m → K) (ν : Fin m → ℕ) :
    lagrange r (List.ofFn x) (List.ofFn ν) =
      fallingBinomial ((r : K) * (1 - ∑ i, x i)) (r - ∑ i, ν i) * ∏ i, fallingBinomial ((r : K) * x i) (ν i) := by
  unfold lagrange
  rw [List.sum_ofFn, List.sum_ofFn, ← List.prod_ofFn]
  congr 2
  apply List.ext_getElem <;> simp

theorem lagrange_isPoly {m : Nat} (r : Nat) (ν : Fin m → ℕ) (h : ∑ i, ν i ≤ r) :
    IsPoly (K := K) m r (fun x => lagrange r (List.ofFn x) (List.ofFn ν)) := by
  have h1 : IsPoly m (r - ∑ i, ν i) (fun x : Fin m → K => fallingBinomial ((r : K) * (1 - ∑ i, x i)) (r - ∑ i, ν i)) :=
    fallingBinomial_poly (isPoly_bary.const_mul _) _
  have h2 : IsPoly m (∑ i, ν i) (fun x : Fin m → K => ∏ i, fallingBinomial ((r : K) * x i) (ν i)) :=
    isPoly_finset_prod _ _ ν (fun i _ => fallingBinomial_poly ((isPoly_coord i).const_mul _) _)
  have := h1.mul h2
  rw [Nat.sub_add_cancel h] at this
  simpa only [lagrange_ofFn] using this

/-- The lattice point of `μ`. -/
def lpt (K : Type) [Field K] {m : Nat} (r : Nat) (μ : Fin m → ℕ) : Fin m → K := fun i => (μ i : K) / (r : K)

/-- The Lagrange basis polynomials take the values zero and one at the lattice points. -/
theorem lagrange_delta [CharZero K] {m : Nat} (r : Nat) (ν μ : Fin m → ℕ) (hν : ν ∈ S m r) (hμ : μ ∈ S m r) :
    lagrange r (List.ofFn (lpt K r μ)) (List.ofFn ν) = if ν = μ then 1 else 0 := by
  rw [lagrange_ofFn]
  rcases Nat.eq_zero_or_pos r with h0 | hr
  · subst h0
    rw [S_zero, Finset.mem_singleton] at hν hμ
    subst hν; subst hμ
    simp [fallingBinomial]
  · have hrK : (r : K) ≠ 0 := by exact_mod_cast hr.ne'
    have e1 : ∀ i, (r : K) * lpt K r μ i = (μ i : K) := fun i => by unfold lpt; field_simp
    have e2 : (r : K) * (1 - ∑ i, lpt K r μ i) = ((r - ∑ i, μ i : ℕ) : K) := by
      rw [mul_sub, mul_one, Finset.mul_sum, Nat.cast_sub (mem_S.1 hμ), Nat.cast_sum]
      simp only [e1]
    simp only [e1, e2]
    by_cases h : ν = μ
    · subst h
      rw [if_pos rfl, fallingBinomial_self, one_mul]
      exact Finset.prod_eq_one (fun i _ => fallingBinomial_self _)
    · rw [if_neg h]
      by_cases h1 : ∀ i, ν i ≤ μ i
      · -- then |ν| < |μ|
        have hlt : ∑ i, ν i < ∑ i, μ i := by
          apply Finset.sum_lt_sum (fun i _ => h1 i)
          by_contra hc
          apply h
          funext i
          refine Nat.le_antisymm (h1 i) ?_
          by_contra hi
          exact hc ⟨i, Finset.mem_univ _, by omega⟩
        have := mem_S.1 hμ
        rw [fallingBinomial_lt _ _ (by omega), zero_mul]
      · push Not at h1
        obtain ⟨i, hi⟩ := h1
        rw [Finset.prod_eq_zero (Finset.mem_univ i) (fallingBinomial_lt _ _ hi), mul_zero]

/-- Monomial coefficients of the Lagrange basis polynomial. -/
noncomputable def lagCoeff (K : Type) [Field K] (m r : Nat) (ν : List Nat) : List Nat → K :=
  open Classical in
  if h : ∃ c : List Nat → K, ∀ x : Fin m → K, lagrange r (List.ofFn x) ν =
      ∑ μ ∈ S m r, (∏ i, x i ^ μ i) • c (List.ofFn μ) then h.choose else fun _ => 0

theorem lagCoeff_spec {m r : Nat} {ν : List Nat} (hl : ν.length = m) (hs : ν.sum ≤ r) (x : Fin m → K) :
    lagrange r (List.ofFn x) ν = ∑ μ ∈ S m r, (∏ i, x i ^ μ i) • lagCoeff K m r ν (List.ofFn μ) := by
  obtain ⟨n, rfl⟩ := eq_ofFn hl
  have h := lagrange_isPoly (K := K) r n (by rwa [List.sum_ofFn] at hs)
  unfold lagCoeff
  have h' : ∃ c : List Nat → K, ∀ x : Fin m → K, lagrange r (List.ofFn x) (List.ofFn n) =
      ∑ μ ∈ S m r, (∏ i, x i ^ μ i) • c (List.ofFn μ) := h
  rw [dif_pos h']
  exact h'.choose_spec x

theorem sum_fin_getD {W : Type} [AddCommMonoid W] (m r N : Nat) (hN : N = (mis m r).length) (F : List Nat → W) :
    ∑ j : Fin N, F ((mis m r).getD j []) = ∑ ν ∈ S m r, F (List.ofFn ν) := by
  subst hN
  rw [← sum_mis, ← List.sum_ofFn]
  congr 1
  apply List.ext_getElem
  · simp
  · intro i h1 h2
    have : i < (mis m r).length := by simpa using h2
    simp [List.getD_eq_getElem?_getD, this]

/-- Vandermonde matrix at the lattice points. -/
def vdm (K : Type) [Field K] (m r N : Nat) : Matrix (Fin N) (Fin N) K :=
  Matrix.of fun i j => monomial (((mis m r).getD i []).map (fun (k : Nat) => (k : K) / (r : K))) ((mis m r).getD j [])

/-- Matrix of the coefficients of the Lagrange basis polynomials (as columns). -/
noncomputable def lagMat (K : Type) [Field K] (m r N : Nat) : Matrix (Fin N) (Fin N) K :=
  Matrix.of fun j k => lagCoeff K m r ((mis m r).getD k []) ((mis m r).getD j [])

theorem getD_mis {m r i : Nat} (h : i < (mis m r).length) : (mis m r)[i]? = some ((mis m r).getD i []) := by
  simp [List.getD_eq_getElem?_getD, h]

theorem map_lpt {m : Nat} (r : Nat) (μ : Fin m → ℕ) :
    (List.ofFn μ).map (fun (k : Nat) => (k : K) / (r : K)) = List.ofFn (lpt K r μ) := by
  rw [List.map_ofFn]; rfl

theorem vdm_mul_lagMat [CharZero K] (m r N : Nat) (hN : N = (mis m r).length) : vdm K m r N * lagMat K m r N = 1 := by
  ext i k
  rw [Matrix.mul_apply]
  have hi : (i : Nat) < (mis m r).length := by omega
  have hk : (k : Nat) < (mis m r).length := by omega
  have mi := mem_mis.1 (List.mem_of_getElem? (getD_mis hi))
  have mk := mem_mis.1 (List.mem_of_getElem? (getD_mis hk))
  obtain ⟨μ, hμ⟩ := eq_ofFn mi.1
  obtain ⟨ν, hν⟩ := eq_ofFn mk.1
  simp only [vdm, lagMat, Matrix.of_apply]
  rw [sum_fin_getD m r N hN (fun ρ => monomial (((mis m r).getD i []).map (fun (k : Nat) => (k : K) / (r : K))) ρ *
    lagCoeff K m r ((mis m r).getD k []) ρ)]
  rw [hμ, hν, map_lpt]
  simp only [monomial_ofFn]
  have := lagCoeff_spec (K := K) (m := m) (r := r) (ν := List.ofFn ν) (by simp) (hν ▸ mk.2) (lpt K r μ)
  simp only [smul_eq_mul] at this
  rw [← this, lagrange_delta r ν μ (by rw [mem_S, ← List.sum_ofFn, ← hν]; exact mk.2)
    (by rw [mem_S, ← List.sum_ofFn, ← hμ]; exact mi.2)]
  rw [Matrix.one_apply]
  by_cases h : i = k
  · subst h
    rw [if_pos rfl, if_pos]
    exact List.ofFn_injective (hν.symm.trans hμ)
  · rw [if_neg h, if_neg]
    intro hc
    apply h
    have : (mis m r).getD k [] = (mis m r).getD i [] := by rw [hν, hμ, hc]
    have e1 := getD_mis hi
    have e2 := getD_mis hk
    rw [this, ← e1] at e2
    ext
    obtain ⟨g1, g2⟩ := List.getElem?_eq_some_iff.1 (e1)
    rw [e1] at e2
    obtain ⟨g3, g4⟩ := List.getElem?_eq_some_iff.1 e2
    exact (nodup_mis m r).getElem_inj_iff.1 (g2.trans g4.symm)

theorem lagMat_mul_vdm [CharZero K] (m r N : Nat) (hN : N = (mis m r).length) : lagMat K m r N * vdm K m r N = 1 :=
  mul_eq_one_comm.1 (vdm_mul_lagMat m r N hN)

/-- Coefficients are determined by the values at the lattice points. -/
theorem coeff_of_values [CharZero K] (m r : Nat) (f : List Nat → V) (τ : List Nat) (hτ : τ.length = m) (hs : τ.sum ≤ r) :
    f τ = ∑ μ ∈ S m r, lagCoeff K m r (List.ofFn μ) τ • ∑ ν ∈ S m r, (∏ i, lpt K r μ i ^ ν i) • f (List.ofFn ν) := by
  obtain ⟨i, hi⟩ := List.getElem?_of_mem (mem_mis.2 ⟨hτ, hs⟩)
  obtain ⟨hi', he⟩ := List.getElem?_eq_some_iff.1 hi
  have hmul := lagMat_mul_vdm (K := K) m r (mis m r).length rfl
  have hget : (mis m r).getD i [] = τ := by simp [List.getD_eq_getElem?_getD, hi]
  have key : ∀ ν ∈ S m r, ∑ μ ∈ S m r, lagCoeff K m r (List.ofFn μ) τ * (∏ i, lpt K r μ i ^ ν i) =
      if List.ofFn ν = τ then 1 else 0 := by
    intro ν hν
    obtain ⟨k, hk⟩ := List.getElem?_of_mem ((mem_mis (r := r)).2 ⟨List.length_ofFn (f := ν), by rw [List.sum_ofFn]; exact mem_S.1 hν⟩)
    obtain ⟨hk', hke⟩ := List.getElem?_eq_some_iff.1 hk
    have hgetk : (mis m r).getD k [] = List.ofFn ν := by simp [List.getD_eq_getElem?_getD, hk]
    have e := congrFun (congrFun hmul ⟨i, hi'⟩) ⟨k, hk'⟩
    rw [Matrix.mul_apply] at e
    simp only [vdm, lagMat, Matrix.of_apply, hget, hgetk] at e
    rw [sum_fin_getD m r _ rfl (fun ρ => lagCoeff K m r ρ τ * monomial (ρ.map (fun (k : Nat) => (k : K) / (r : K))) (List.ofFn ν))] at e
    simp only [map_lpt, monomial_ofFn] at e
    rw [e, Matrix.one_apply]
    by_cases h : List.ofFn ν = τ
    · rw [if_pos h, if_pos]
      ext
      exact (nodup_mis m r).getElem_inj_iff.1 (by rw [he, hke, h])
    · rw [if_neg h, if_neg]
      intro hc
      apply h
      have : i = k := by simpa using hc
      subst this
      rw [← he, ← hke]
  simp only [Finset.smul_sum, smul_smul]
  rw [Finset.sum_comm]
  simp only [← Finset.sum_smul]
  obtain ⟨t, rfl⟩ := eq_ofFn hτ
  rw [Finset.sum_eq_single t]
  · rw [key t (by rw [mem_S, ← List.sum_ofFn]; exact hs), if_pos rfl, one_smul]
  · intro ν hν hne
    rw [key ν hν, if_neg (fun hc => hne (List.ofFn_injective hc)), zero_smul]
  · intro hc; exact absurd (by rw [mem_S, ← List.sum_ofFn]; exact hs) hc

/-- Lagrange interpolation reproduces polynomials of degree at most `r`. -/
theorem interpolation [CharZero K] {m r : Nat} {g : (Fin m → K) → V} (hg : IsPoly m r g) (x : Fin m → K) :
    g x = ∑ μ ∈ S m r, lagrange r (List.ofFn x) (List.ofFn μ) • g (lpt K r μ) := by
  obtain ⟨c, hc⟩ := hg
  have : ∀ ν ∈ S m r, (∏ i, x i ^ ν i) • c (List.ofFn ν) =
      ∑ μ ∈ S m r, ((∏ i, x i ^ ν i) * lagCoeff K m r (List.ofFn μ) (List.ofFn ν)) • g (lpt K r μ) := by
    intro ν hν
    rw [coeff_of_values (K := K) m r c (List.ofFn ν) (by simp) (by rw [List.sum_ofFn]; exact mem_S.1 hν), Finset.smul_sum]
    refine Finset.sum_congr rfl (fun μ _ => ?_)
    rw [smul_smul, hc (lpt K r μ)]
  rw [hc x, Finset.sum_congr rfl this, Finset.sum_comm]
  refine Finset.sum_congr rfl (fun μ hμ => ?_)
  rw [← Finset.sum_smul]
  congr 1
  rw [lagCoeff_spec (K := K) (ν := List.ofFn μ) (by simp) (by rw [List.sum_ofFn]; exact mem_S.1 hμ) x]
  rfl

end Verif.Poly
