import Verif.Lemmas.Integration
import Verif.Lemmas.MultiCap
import Mathlib.Data.Fin.Tuple.Sort
import Mathlib.GroupTheory.Perm.DomMulAct
/-!
# Integration of monomials over a general simplex

The formula used by `integrate_homogeneous_polynomial_simplex` (Baldoni et al., formula (18)): polarisation of the monomial and
integrals of products of barycentric coordinates.
-/

namespace Verif.Integration
open Verif Verif.Poly Verif.MI MeasureTheory Finset

/-! ## Polarisation -/

theorem sign_sum (k : ℕ) : ∑ e ∈ ({1, -1} : Finset ℝ), e ^ (1 + k) = if k % 2 = 1 then 2 else 0 := by
  rw [Finset.sum_pair (by norm_num), one_pow]
  rcases Nat.even_or_odd k with h | h
  · rw [pow_add, h.neg_one_pow, if_neg (by rw [Nat.even_iff] at h; omega)]; norm_num
  · rw [pow_add, h.neg_one_pow, if_pos (Nat.odd_iff.1 h)]; norm_num

theorem sign_char {q : ℕ} (φ : Fin q → Fin q) :
    ∑ e ∈ Fintype.piFinset (fun _ : Fin q => ({1, -1} : Finset ℝ)), (∏ k, e k) * ∏ a, e (φ a) =
      if Function.Bijective φ then 2 ^ q else 0 := by
  have h1 : ∀ e : Fin q → ℝ, (∏ k, e k) * ∏ a, e (φ a) = ∏ k, e k ^ (1 + (univ.filter (fun a => φ a = k)).card) := by
    intro e
    rw [← Finset.prod_fiberwise univ φ (fun a => e (φ a)), ← Finset.prod_mul_distrib]
    refine Finset.prod_congr rfl (fun k _ => ?_)
    rw [pow_add, pow_one]
    congr 1
    rw [Finset.prod_congr rfl (g := fun _ => e k) (fun a ha => by rw [(Finset.mem_filter.1 ha).2]), Finset.prod_const]
  simp only [h1]
  rw [← Finset.prod_univ_sum (fun _ : Fin q => ({1, -1} : Finset ℝ)) (fun k e => e ^ (1 + (univ.filter (fun a => φ a = k)).card))]
  simp only [sign_sum]
  by_cases hb : Function.Bijective φ
  · rw [if_pos hb]
    have : ∀ k, (univ.filter (fun a => φ a = k)).card = 1 := by
      intro k
      rw [Finset.card_eq_one]
      obtain ⟨a, ha⟩ := hb.2 k
      exact ⟨a, by ext b; simp only [Finset.mem_filter, Finset.mem_univ, true_and, Finset.mem_singleton]
                   exact ⟨fun h => hb.1 (h.trans ha.symm), fun h => h ▸ ha⟩⟩
    simp [this]
  · rw [if_neg hb]
    have hs : ¬ Function.Surjective φ := fun h => hb (Finite.surjective_iff_bijective.1 h)
    rw [Function.Surjective] at hs
    push Not at hs
    obtain ⟨k, hk⟩ := hs
    apply Finset.prod_eq_zero (Finset.mem_univ k)
    rw [Finset.filter_false_of_mem (fun a _ => hk a)]
    simp

theorem polarization {q : ℕ} (M : Fin q → Fin q → ℝ) :
    ∑ e ∈ Fintype.piFinset (fun _ : Fin q => ({1, -1} : Finset ℝ)), (∏ k, e k) * ∏ a, ∑ k, e k * M a k =
      2 ^ q * ∑ σ : Equiv.Perm (Fin q), ∏ a, M a (σ a) := by
  have h1 : ∀ e : Fin q → ℝ, (∏ k, e k) * ∏ a, ∑ k, e k * M a k =
      ∑ φ : Fin q → Fin q, ((∏ k, e k) * ∏ a, e (φ a)) * ∏ a, M a (φ a) := by
    intro e
    rw [Finset.prod_univ_sum, Fintype.piFinset_univ, Finset.mul_sum]
    refine Finset.sum_congr rfl (fun φ _ => ?_)
    rw [Finset.prod_mul_distrib, mul_assoc]
  simp only [h1]
  rw [Finset.sum_comm]
  simp only [← Finset.sum_mul, sign_char]
  rw [Finset.mul_sum]
  simp only [ite_mul, zero_mul]
  rw [← Finset.sum_filter]
  symm
  apply Finset.sum_bij (fun (σ : Equiv.Perm (Fin q)) _ => (σ : Fin q → Fin q))
  · intro σ _; exact Finset.mem_filter.2 ⟨Finset.mem_univ _, σ.bijective⟩
  · intro σ _ τ _ h; exact Equiv.ext (congrFun h)
  · intro φ hφ
    exact ⟨Equiv.ofBijective φ (Finset.mem_filter.1 hφ).2, Finset.mem_univ _, rfl⟩
  · intro σ _; rfl

/-! ## Sorted tuples -/

/-- The number of times each vertex occurs. -/
def occ {q n : ℕ} (j : Fin q → Fin n) (c : Fin n) : ℕ := (univ.filter (fun a => j a = c)).card

theorem sorted_sum {q n : ℕ} (h : (Fin q → Fin n) → ℝ) :
    ∑ i : {i : Fin q → Fin n // Monotone i}, ∑ σ : Equiv.Perm (Fin q), h (i.1 ∘ σ) =
      ∑ j : Fin q → Fin n, ((∏ c, (occ j c).factorial : ℕ) : ℝ) * h j := by
  classical
  have h1 : ∀ i : Fin q → Fin n, ∑ σ : Equiv.Perm (Fin q), h (i ∘ σ) =
      ∑ j : Fin q → Fin n, ((univ.filter (fun σ : Equiv.Perm (Fin q) => i ∘ σ = j)).card : ℝ) * h j := by
    intro i
    rw [← Finset.sum_fiberwise univ (fun σ : Equiv.Perm (Fin q) => i ∘ σ) (fun σ => h (i ∘ σ))]
    refine Finset.sum_congr rfl (fun j _ => ?_)
    rw [Finset.sum_congr rfl (g := fun _ => h j) (fun σ hσ => by rw [(Finset.mem_filter.1 hσ).2]), Finset.sum_const, nsmul_eq_mul]
  simp only [h1]
  rw [Finset.sum_comm]
  refine Finset.sum_congr rfl (fun j _ => ?_)
  rw [← Finset.sum_mul, ← Nat.cast_sum]
  congr 2
  rw [Finset.sum_eq_single (⟨j ∘ Tuple.sort j, Tuple.monotone_sort j⟩ : {i : Fin q → Fin n // Monotone i})]
  · have h2 := DomMulAct.stabilizer_card (α := Fin q) j
    rw [show (∏ c, (occ j c).factorial) = ∏ i, (Fintype.card {a // j a = i}).factorial from
      Finset.prod_congr rfl (fun c _ => by rw [occ, Fintype.card_subtype]), ← h2, Fintype.card_subtype]
    apply Finset.card_bij (fun σ _ => σ.trans (Tuple.sort j))
    · intro σ hσ
      simp only [Finset.mem_filter, Finset.mem_univ, true_and] at hσ ⊢
      exact hσ
    · intro σ _ τ _ hστ
      ext a
      have := congrArg (fun e : Equiv.Perm (Fin q) => (Tuple.sort j).symm (e a)) hστ
      simpa using congrArg Fin.val this
    · intro g hg
      simp only [Finset.mem_filter, Finset.mem_univ, true_and] at hg
      refine ⟨g.trans (Tuple.sort j).symm, ?_, ?_⟩
      · simp only [Finset.mem_filter, Finset.mem_univ, true_and]
        rw [← hg]
        funext a
        simp [Function.comp]
        exact congrFun hg (g a)
      · ext a; simp
  · intro i _ hi
    rw [Finset.card_eq_zero, Finset.filter_eq_empty_iff]
    intro σ _ hσ
    apply hi
    apply Subtype.ext
    simp only
    rw [← hσ, Tuple.comp_perm_comp_sort_eq_comp_sort]
    have := (Tuple.comp_sort_eq_comp_iff_monotone (f := i.1) (σ := Equiv.refl _)).2 (by simpa using i.2)
    simpa using this
  · intro h; exact absurd (Finset.mem_univ _) h

/-! ## The integral -/

/-- A monomial of degree `q` as a product of `q` coordinates. -/
theorem monomial_prod {n : ℕ} (ν : Fin n → ℕ) : ∃ a : Fin (∑ i, ν i) → Fin n, ∀ x : Fin n → ℝ, ∏ i, x i ^ ν i = ∏ k, x (a k) := by
  refine ⟨fun k => (finSigmaFinEquiv.symm k).1, fun x => ?_⟩
  rw [← finSigmaFinEquiv.prod_comp (fun k => x (finSigmaFinEquiv.symm k).1)]
  simp only [Equiv.symm_apply_apply]
  rw [Fintype.prod_sigma]
  simp

theorem prod_occ {q n : ℕ} (j : Fin q → Fin n) (w : Fin n → ℝ) : ∏ k, w (j k) = ∏ c, w c ^ occ j c := by
  rw [← Finset.prod_fiberwise univ j (fun k => w (j k))]
  refine Finset.prod_congr rfl (fun c _ => ?_)
  rw [Finset.prod_congr rfl (g := fun _ => w c) (fun a ha => by rw [(Finset.mem_filter.1 ha).2]), Finset.prod_const, occ]

theorem sum_occ {q n : ℕ} (j : Fin q → Fin n) : ∑ c, occ j c = q := by
  unfold occ
  rw [← Finset.card_eq_sum_card_fiberwise (fun _ _ => Finset.mem_univ _), Finset.card_univ, Fintype.card_fin]

/-- The barycentric coordinates of a point of the unit simplex. -/
def bary {n : ℕ} (u : Fin n → ℝ) : Fin (n + 1) → ℝ := Fin.cons (1 - ∑ i, u i) u

theorem integral_bary {q n : ℕ} (j : Fin q → Fin (n + 1)) :
    ∫ u in Spec.unitSimplex n, ∏ k, bary u (j k) = ((∏ c, (occ j c).factorial : ℕ) : ℝ) / ((q + n).factorial : ℝ) := by
  simp only [prod_occ, Fin.prod_univ_succ, bary, Fin.cons_zero, Fin.cons_succ]
  have := integral_T_bary n (occ j 0) 1 zero_le_one (fun i => occ j i.succ)
  rw [T_one, one_pow, one_mul] at this
  have h2 := sum_occ j
  rw [Fin.sum_univ_succ] at h2
  rw [show (fun u : Fin n → ℝ => (1 - ∑ i, u i) ^ occ j 0 * ∏ i, u i ^ occ j i.succ) =
    fun u => (∏ i, u i ^ occ j i.succ) * (1 - ∑ i, u i) ^ occ j 0 from funext fun u => mul_comm _ _, this]
  rw [show ∑ i : Fin n, occ j i.succ + occ j 0 + n = q + n by omega]
  push_cast
  rw [mul_comm]

theorem fromUnit_bary {n : ℕ} (v : Fin (n + 1) → Fin n → ℝ) (u : Fin n → ℝ) (i : Fin n) :
    Spec.fromUnit v u i = ∑ c, bary u c * v c i := by
  rw [Spec.fromUnit, Fin.sum_univ_succ]
  simp only [bary, Fin.cons_zero, Fin.cons_succ, Pi.add_apply, Finset.sum_apply, Pi.smul_apply, Pi.sub_apply, smul_eq_mul,
    mul_sub, Finset.sum_sub_distrib, sub_mul, one_mul, Finset.sum_mul]
  ring

theorem continuous_bary {n : ℕ} (c : Fin (n + 1)) : Continuous (fun u : Fin n → ℝ => bary u c) := by
  unfold bary
  refine Fin.cases ?_ (fun i => ?_) c
  · simp only [Fin.cons_zero]; fun_prop
  · simp only [Fin.cons_succ]; fun_prop

/-- The integral of a monomial composed with the map from the unit simplex. -/
theorem integral_monomial_fromUnit {n : ℕ} (v : Fin (n + 1) → Fin n → ℝ) (ν : Fin n → ℕ) :
    ∫ u in Spec.unitSimplex n, ∏ i, Spec.fromUnit v u i ^ ν i =
      (∑ i : {i : Fin (∑ i, ν i) → Fin (n + 1) // Monotone i},
        ∑ e ∈ Fintype.piFinset (fun _ : Fin (∑ i, ν i) => ({1, -1} : Finset ℝ)),
          (∏ k, e k) * ∏ t, (∑ k, e k • v (i.1 k)) t ^ ν t) / (2 ^ (∑ i, ν i) * ((∑ i, ν i + n).factorial : ℝ)) := by
  obtain ⟨a, ha⟩ := monomial_prod ν
  simp only [ha]
  generalize (∑ i, ν i) = q at a
  have h1 : ∀ u : Fin n → ℝ, ∏ k, Spec.fromUnit v u (a k) =
      ∑ j : Fin q → Fin (n + 1), (∏ k, bary u (j k)) * ∏ k, v (j k) (a k) := by
    intro u
    simp only [fromUnit_bary]
    rw [Finset.prod_univ_sum, Fintype.piFinset_univ]
    exact Finset.sum_congr rfl (fun j _ => Finset.prod_mul_distrib)
  simp only [h1]
  rw [integral_finset_sum]
  · simp only [integral_mul_const, integral_bary]
    have h2 : ∀ i : {i : Fin q → Fin (n + 1) // Monotone i},
        ∑ e ∈ Fintype.piFinset (fun _ : Fin q => ({1, -1} : Finset ℝ)), (∏ k, e k) * ∏ t, (∑ k, e k • v (i.1 k)) (a t) =
        2 ^ q * ∑ σ : Equiv.Perm (Fin q), ∏ t, v ((i.1 ∘ σ) t) (a t) := by
      intro i
      have := polarization (fun t k => v (i.1 k) (a t))
      refine Eq.trans ?_ this
      refine Finset.sum_congr rfl (fun e _ => ?_)
      congr 1
      refine Finset.prod_congr rfl (fun t _ => ?_)
      rw [Finset.sum_apply]
      rfl
    simp only [h2]
    rw [← Finset.mul_sum, sorted_sum (fun j => ∏ t, v (j t) (a t)), mul_div_mul_left _ _ (by positivity), Finset.sum_div]
    exact Finset.sum_congr rfl (fun j _ => by ring)
  · intro j _
    exact integrable_unit ((continuous_finsetProd _ (fun k _ => continuous_bary (j k))).mul continuous_const)

/-- The integral over a simplex of full dimension, degenerate or not. -/
theorem integral_simplex_all {V : Type} [NormedAddCommGroup V] [NormedSpace ℝ V] {n : ℕ} (v : Fin (n + 1) → Fin n → ℝ)
    (g : (Fin n → ℝ) → V) :
    ∫ x in Spec.simplex v, g x = |(edges v).det| • ∫ u in Spec.unitSimplex n, g (Spec.fromUnit v u) := by
  by_cases hd : (edges v).det = 0
  · rw [hd, abs_zero, zero_smul]
    apply setIntegral_measure_zero
    rw [simplex_eq_image, show Spec.fromUnit v = (fun x => x + v 0) ∘ (Matrix.toLin' (edges v)) from
      funext fun u => by rw [fromUnit_eq]; rfl, Set.image_comp, Set.image_add_right, measure_preimage_add_right,
      Measure.addHaar_image_linearMap, LinearMap.det_toLin', hd]
    simp
  · exact integral_simplex v hd g

end Verif.Integration
