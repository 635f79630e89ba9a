import Verif.Lemmas.BasicMeshes
import Verif.Lemmas.Baldoni
import Verif.Lemmas.Equality
/-!
# Integrals over tilings by simplices
-/

namespace Verif.Midpoint
open Verif Verif.Mesh Verif.Integration MeasureTheory

variable {d : ℕ}

/-- The corners of a lattice cell. -/
def cellVerts (P : List (Fin d → ℕ)) : Fin (d + 1) → Fin d → ℝ := fun i k => ((P.getD i 0) k : ℝ)

theorem wsum_ofFn {α : Type} {n : ℕ} (f : Fin n → ℝ) (w : Fin n → α) (g : α → ℝ) :
    wsum (List.ofFn f) (List.ofFn w) g = ∑ i, f i * g (w i) := by
  have : (List.ofFn f).zip (List.ofFn w) = List.ofFn fun i => (f i, w i) :=
    List.ext_getElem (by simp) (fun i _ _ => by simp)
  rw [wsum, this, List.map_ofFn, List.sum_ofFn]
  rfl

theorem eq_ofFn {α : Type} [Inhabited α] {n : ℕ} (l : List α) (h : l.length = n) (z : α) : l = List.ofFn fun i : Fin n => l.getD i z :=
  List.ext_getElem (by simp [h]) (fun i h1 _ => by simp [List.getElem?_eq_getElem h1])

theorem lin_iff (P : List (Fin d → ℕ)) (h : P.length = d + 1) (ξ : Fin d → ℝ) : LIn P ξ ↔ ξ ∈ Spec.simplex (cellVerts P) := by
  constructor
  · rintro ⟨w, h0, h1, h2, h3⟩
    rw [h] at h2
    rw [eq_ofFn w h2 0] at h0 h1 h3
    refine ⟨fun i => w.getD i 0, fun i => h0 _ (by rw [List.mem_ofFn]; exact ⟨i, rfl⟩), by rw [← h1, List.sum_ofFn], ?_⟩
    funext k
    rw [← h3 k]
    conv_lhs => rw [eq_ofFn P h 0]
    rw [wsum_ofFn]
    simp [cellVerts]
  · rintro ⟨w, h0, h1, rfl⟩
    refine ⟨List.ofFn w, ?_, by rw [List.sum_ofFn, h1], by simp [h], fun k => ?_⟩
    · intro a ha
      obtain ⟨i, rfl⟩ := (List.mem_ofFn).1 ha
      exact h0 i
    · conv_lhs => rw [eq_ofFn P h 0]
      rw [wsum_ofFn]
      simp [cellVerts]

theorem lint_of (P : List (Fin d → ℕ)) (h : P.length = d + 1) (w : Fin (d + 1) → ℝ) (h0 : ∀ i, 0 < w i) (h1 : ∑ i, w i = 1) :
    LInt P (∑ i, w i • cellVerts P i) := by
  refine ⟨List.ofFn w, ?_, by rw [List.sum_ofFn, h1], by simp [h], fun k => ?_⟩
  · intro a ha
    obtain ⟨i, rfl⟩ := (List.mem_ofFn).1 ha
    exact h0 i
  · conv_lhs => rw [eq_ofFn P h 0]
    rw [wsum_ofFn]
    simp [cellVerts]

/-- The boundary of the unit simplex has measure zero. -/
theorem unit_boundary (d : ℕ) : volume {u ∈ Spec.unitSimplex d | ¬((∀ i, 0 < u i) ∧ ∑ i, u i < 1)} = 0 := by
  have h1 : ∀ i : Fin d, volume {u : Fin d → ℝ | u i = 0} = 0 := by
    intro i
    have := Verif.Equality.zeros_null d (MvPolynomial.X i) (MvPolynomial.X_ne_zero i)
    simpa using this
  have h2 : volume {u : Fin d → ℝ | 1 - ∑ i, u i = 0} = 0 := by
    have := Verif.Equality.zeros_null d (1 - ∑ i, MvPolynomial.X i) (fun h => by
      have := congrArg (MvPolynomial.eval 0) h
      simp at this)
    simpa using this
  refine measure_mono_null (t := (⋃ i : Fin d, {u : Fin d → ℝ | u i = 0}) ∪ {u : Fin d → ℝ | 1 - ∑ i, u i = 0}) ?_ ?_
  · rintro u ⟨⟨a, b⟩, c⟩
    by_cases h : ∀ i, 0 < u i
    · right
      have : ¬ ∑ i, u i < 1 := fun h' => c ⟨h, h'⟩
      show 1 - ∑ i, u i = 0
      linarith [not_lt.1 this]
    · left
      push Not at h
      obtain ⟨i, hi⟩ := h
      exact Set.mem_iUnion.2 ⟨i, le_antisymm hi (a i)⟩
  · exact measure_union_null (measure_iUnion_null h1) h2

theorem image_null (v : Fin (d + 1) → Fin d → ℝ) (s : Set (Fin d → ℝ)) (hs : volume s = 0) : volume (Spec.fromUnit v '' s) = 0 := by
  rw [show Spec.fromUnit v = (fun x => x + v 0) ∘ (Matrix.toLin' (edges v)) from
      funext fun u => by rw [fromUnit_eq]; rfl, Set.image_comp, Set.image_add_right, measure_preimage_add_right,
      Measure.addHaar_image_linearMap, hs, mul_zero]

theorem cell_boundary (P : List (Fin d → ℕ)) (h : P.length = d + 1) : volume {ξ : Fin d → ℝ | LIn P ξ ∧ ¬LInt P ξ} = 0 := by
  refine measure_mono_null ?_ (image_null (cellVerts P) _ (unit_boundary d))
  rintro ξ ⟨h1, h2⟩
  rw [lin_iff P h, simplex_eq_image] at h1
  obtain ⟨u, hu, rfl⟩ := h1
  refine ⟨u, ⟨hu, fun hc => h2 ?_⟩, rfl⟩
  have e : Spec.fromUnit (cellVerts P) u = ∑ i, (Fin.cons (1 - ∑ i, u i) u : Fin (d + 1) → ℝ) i • cellVerts P i := by
    rw [Spec.fromUnit, Fin.sum_univ_succ]
    simp only [Fin.cons_zero, Fin.cons_succ, smul_sub, Finset.sum_sub_distrib, ← Finset.sum_smul, sub_smul, one_smul]
    abel
  rw [e]
  refine lint_of P h _ ?_ ?_
  · intro i
    refine Fin.cases ?_ (fun i => ?_) i
    · simpa using hc.2
    · simpa using hc.1 i
  · rw [Fin.sum_univ_succ]; simp

theorem continuous_fromUnit {k n : ℕ} (v : Fin (k + 1) → Fin n → ℝ) : Continuous (Spec.fromUnit v) := by
  unfold Spec.fromUnit
  fun_prop

theorem isCompact_simplex {k n : ℕ} (v : Fin (k + 1) → Fin n → ℝ) : IsCompact (Spec.simplex v) := by
  rw [simplex_eq_image]
  exact (isCompact_unit k).image (continuous_fromUnit v)

/-- The integral over a region that is tiled by simplices. -/
theorem integral_tiles (cells : List (List (Fin d → ℕ))) (hl : ∀ P ∈ cells, P.length = d + 1) (D : Set (Fin d → ℝ)) (h : LTiles cells D)
    (g : (Fin d → ℝ) → ℝ) (hg : IntegrableOn g D) :
    ∫ x in D, g x = (cells.map fun P => ∫ x in Spec.simplex (cellVerts P), g x).sum := by
  have hD : D = ⋃ i : Fin cells.length, Spec.simplex (cellVerts cells[i]) := by
    ext ξ
    rw [Set.mem_iUnion]
    constructor
    · intro hξ
      obtain ⟨P, hP, hi⟩ := h.cover ξ hξ
      obtain ⟨i, hi', rfl⟩ := List.getElem_of_mem hP
      exact ⟨⟨i, hi'⟩, (lin_iff _ (hl _ hP) ξ).1 hi⟩
    · rintro ⟨i, hi⟩
      exact h.inside _ (List.getElem_mem i.2) ξ ((lin_iff _ (hl _ (List.getElem_mem i.2)) ξ).2 hi)
  have hdis : Pairwise (Function.onFun (AEDisjoint volume) fun i : Fin cells.length => Spec.simplex (cellVerts cells[i])) := by
    have key : ∀ i j : Fin cells.length, i < j → AEDisjoint volume (Spec.simplex (cellVerts cells[i])) (Spec.simplex (cellVerts cells[j])) := by
      intro i j hij
      have hd := List.pairwise_iff_getElem.1 h.disjoint i j i.2 j.2 hij
      refine measure_mono_null ?_ (measure_union_null (cell_boundary cells[i] (hl _ (List.getElem_mem i.2)))
        (cell_boundary cells[j] (hl _ (List.getElem_mem j.2))))
      rintro ξ ⟨h1, h2⟩
      have h1' := (lin_iff _ (hl _ (List.getElem_mem i.2)) ξ).2 h1
      have h2' := (lin_iff _ (hl _ (List.getElem_mem j.2)) ξ).2 h2
      by_cases hc : LInt cells[i] ξ
      · exact Or.inr ⟨h2', fun hc' => hd ⟨ξ, hc, hc'⟩⟩
      · exact Or.inl ⟨h1', hc⟩
    intro i j hij
    rcases lt_or_gt_of_ne hij with h' | h'
    · exact key i j h'
    · exact (key j i h').symm
  rw [hD] at hg ⊢
  rw [integral_iUnion_ae (fun i => (isCompact_simplex _).isClosed.measurableSet.nullMeasurableSet) hdis hg, tsum_fintype]
  rw [← List.sum_ofFn]
  congr 1
  exact List.ext_getElem (by simp) (fun i _ _ => by simp)

/-- The centroid. -/
noncomputable def mid (v : Fin (d + 1) → Fin d → ℝ) : Fin d → ℝ := fun j => (∑ i, v i j) / ((d + 1 : ℕ) : ℝ)

theorem integral_unit_const (c : ℝ) : ∫ _ in Spec.unitSimplex d, c = c / (d.factorial : ℝ) := by
  have := integral_unit_monomial (n := d) 0
  simp at this
  rw [setIntegral_const, smul_eq_mul]
  have h2 : (volume : Measure (Fin d → ℝ)).real (Spec.unitSimplex d) = ((d.factorial : ℝ))⁻¹ := by simpa using this
  rw [h2]
  ring

theorem integral_unit_coord (i : Fin d) : ∫ u in Spec.unitSimplex d, u i = 1 / ((d + 1).factorial : ℝ) := by
  have := integral_unit_monomial (n := d) (Pi.single i 1)
  have e : ∀ x : Fin d → ℝ, ∏ j, x j ^ (Pi.single i 1 : Fin d → ℕ) j = x i := by
    intro x
    rw [Finset.prod_eq_single i]
    · simp
    · intro j _ hj
      rw [Pi.single_eq_of_ne hj, pow_zero]
    · simp
  simp only [e] at this
  rw [this]
  have e2 : ∏ j, ((Pi.single i 1 : Fin d → ℕ) j).factorial = 1 := by
    refine Finset.prod_eq_one (fun j _ => ?_)
    by_cases hj : j = i
    · subst hj; simp
    · rw [Pi.single_eq_of_ne hj]; rfl
  simp [e2, add_comm]

theorem simplex_volume (v : Fin (d + 1) → Fin d → ℝ) : (volume : Measure (Fin d → ℝ)).real (Spec.simplex v) = |(edges v).det| / (d.factorial : ℝ) := by
  have h := integral_simplex_all v (fun _ => (1 : ℝ))
  rw [integral_unit_const, setIntegral_const, smul_eq_mul, mul_one, smul_eq_mul, mul_one_div] at h
  exact h

theorem mid_mem (v : Fin (d + 1) → Fin d → ℝ) : mid v ∈ Spec.simplex v := by
  refine ⟨fun _ => 1 / ((d + 1 : ℕ) : ℝ), fun _ => by positivity, ?_, ?_⟩
  · rw [Finset.sum_const, Finset.card_univ, Fintype.card_fin, nsmul_eq_mul, mul_one_div, div_self (by positivity)]
  · funext j
    simp only [mid, Finset.sum_apply, Pi.smul_apply, smul_eq_mul]
    rw [← Finset.mul_sum]
    ring

theorem integral_offset (v : Fin (d + 1) → Fin d → ℝ) (j : Fin d) : ∫ x in Spec.simplex v, (x j - mid v j) = 0 := by
  rw [integral_simplex_all]
  have e : ∀ u : Fin d → ℝ, Spec.fromUnit v u j - mid v j = (v 0 j - mid v j) + ∑ i : Fin d, u i * (v i.succ j - v 0 j) := by
    intro u
    simp [Spec.fromUnit]
    ring
  simp only [e]
  have hi : ∀ i : Fin d, IntegrableOn (fun u : Fin d → ℝ => u i * (v i.succ j - v 0 j)) (Spec.unitSimplex d) :=
    fun i => integrable_unit (by fun_prop)
  rw [integral_add (integrable_unit (by fun_prop)) (integrable_finset_sum _ fun i _ => hi i), integral_finset_sum _ (fun i _ => hi i),
    integral_unit_const]
  have e2 : ∀ i : Fin d, ∫ u in Spec.unitSimplex d, u i * (v i.succ j - v 0 j) = 1 / ((d + 1).factorial : ℝ) * (v i.succ j - v 0 j) := by
    intro i
    rw [integral_mul_const, integral_unit_coord]
  simp only [e2]
  rw [← Finset.mul_sum, Finset.sum_sub_distrib, Finset.sum_const, Finset.card_univ, Fintype.card_fin, mid, Fin.sum_univ_succ, Nat.factorial_succ]
  have h1 : (d.factorial : ℝ) ≠ 0 := Nat.cast_ne_zero.2 (Nat.factorial_ne_zero d)
  have h2 : ((d : ℝ) + 1) ≠ 0 := by positivity
  rw [nsmul_eq_mul]
  push_cast
  have : (v 0 j - (v 0 j + ∑ i : Fin d, v i.succ j) / ((d : ℝ) + 1)) / (d.factorial : ℝ) +
      1 / (((d : ℝ) + 1) * (d.factorial : ℝ)) * (∑ i : Fin d, v i.succ j - (d : ℝ) * v 0 j) = 0 := by
    field_simp
    ring
  rw [this, smul_zero]

theorem linear_eq (l : (Fin d → ℝ) →ₗ[ℝ] ℝ) (x : Fin d → ℝ) : l x = ∑ j, x j * l (Pi.single j 1) := by
  conv_lhs => rw [← Finset.univ_sum_single x, map_sum]
  refine Finset.sum_congr rfl (fun j _ => ?_)
  rw [← smul_eq_mul, ← map_smul, ← Pi.single_smul, smul_eq_mul, mul_one]

/-- The error of the midpoint rule on one simplex, for a function that is close to an affine function. -/
theorem cell_error (v : Fin (d + 1) → Fin d → ℝ) (g : (Fin d → ℝ) → ℝ) (hg : ContinuousOn g (Spec.simplex v)) (l : (Fin d → ℝ) →ₗ[ℝ] ℝ)
    (ε : ℝ) (h : ∀ x ∈ Spec.simplex v, |g x - g (mid v) - l (x - mid v)| ≤ ε) :
    |(∫ x in Spec.simplex v, g x) - |(edges v).det| / (d.factorial : ℝ) * g (mid v)| ≤ ε * (|(edges v).det| / (d.factorial : ℝ)) := by
  have hK := isCompact_simplex v
  have hfin : volume (Spec.simplex v) < ⊤ := hK.measure_lt_top
  have i1 : IntegrableOn g (Spec.simplex v) := hg.integrableOn_compact hK
  have i2 : IntegrableOn (fun _ : Fin d → ℝ => g (mid v)) (Spec.simplex v) := integrableOn_const hfin.ne
  have i3 : ∀ j, IntegrableOn (fun x : Fin d → ℝ => (x j - mid v j) * l (Pi.single j 1)) (Spec.simplex v) := fun j =>
    ContinuousOn.integrableOn_compact hK (Continuous.continuousOn (by fun_prop))
  have hlin : (fun x : Fin d → ℝ => l (x - mid v)) = fun x => ∑ j, (x j - mid v j) * l (Pi.single j 1) := by
    funext x
    rw [linear_eq l]
    rfl
  have i4 : IntegrableOn (fun x : Fin d → ℝ => l (x - mid v)) (Spec.simplex v) := by
    rw [hlin]
    exact integrable_finset_sum _ fun j _ => i3 j
  have e1 : ∫ x in Spec.simplex v, l (x - mid v) = 0 := by
    rw [hlin, integral_finset_sum _ (fun j _ => i3 j)]
    refine Finset.sum_eq_zero (fun j _ => ?_)
    rw [integral_mul_const, integral_offset, zero_mul]
  have e2 : (∫ x in Spec.simplex v, g x) - |(edges v).det| / (d.factorial : ℝ) * g (mid v) =
      ∫ x in Spec.simplex v, (g x - g (mid v) - l (x - mid v)) := by
    have i5 : IntegrableOn (fun x => g x - g (mid v)) (Spec.simplex v) := i1.sub i2
    rw [integral_sub i5 i4, e1, sub_zero, integral_sub i1 i2, setIntegral_const, smul_eq_mul, simplex_volume]
  rw [e2, ← simplex_volume]
  have := norm_setIntegral_le_of_norm_le_const (f := fun x => g x - g (mid v) - l (x - mid v)) hfin (C := ε) (by
    intro x hx
    rw [Real.norm_eq_abs]
    exact h x hx)
  rwa [Real.norm_eq_abs] at this

/-- The point of the simplex `v` at a lattice position. -/
noncomputable def pos (v : Fin (d + 1) → Fin d → ℝ) (r : ℕ) (ξ : Fin d → ℝ) : Fin d → ℝ := Spec.fromUnit v ((1 / (r : ℝ)) • ξ)

theorem continuous_pos (v : Fin (d + 1) → Fin d → ℝ) (r : ℕ) : Continuous (pos v r) := (continuous_fromUnit v).comp (by fun_prop)

/-- The corners of the scaled unit simplex. -/
def bigVerts (d r : ℕ) : Fin (d + 1) → Fin d → ℝ := Fin.cons 0 fun i => Pi.single i (r : ℝ)

theorem bigVerts_fromUnit (r : ℕ) (u : Fin d → ℝ) : Spec.fromUnit (bigVerts d r) u = (r : ℝ) • u := by
  funext j
  simp [Spec.fromUnit, bigVerts, Pi.single_apply, mul_comm]

theorem bigVerts_simplex (r : ℕ) (hr : 1 ≤ r) : Spec.simplex (bigVerts d r) = T d r := by
  have pr : (0 : ℝ) < r := by exact_mod_cast hr
  rw [simplex_eq_image]
  ext ξ
  constructor
  · rintro ⟨u, ⟨h0, h1⟩, rfl⟩
    rw [bigVerts_fromUnit]
    refine ⟨fun i => mul_nonneg pr.le (h0 i), ?_⟩
    simp only [Pi.smul_apply, smul_eq_mul]
    rw [← Finset.mul_sum]
    exact mul_le_of_le_one_right pr.le h1
  · rintro ⟨h0, h1⟩
    refine ⟨(1 / (r : ℝ)) • ξ, ⟨fun i => mul_nonneg (by positivity) (h0 i), ?_⟩, ?_⟩
    · simp only [Pi.smul_apply, smul_eq_mul]
      rw [← Finset.mul_sum, one_div, inv_mul_le_one₀ pr]
      exact h1
    · rw [bigVerts_fromUnit, smul_smul, mul_one_div, div_self pr.ne', one_smul]

theorem bigVerts_det (r : ℕ) : (edges (bigVerts d r)).det = (r : ℝ) ^ d := by
  have : edges (bigVerts d r) = Matrix.diagonal fun _ => (r : ℝ) := by
    ext i j
    simp [edges, bigVerts, Matrix.diagonal_apply, Pi.single_apply]
  rw [this, Matrix.det_diagonal]
  simp

theorem pos_mem (v : Fin (d + 1) → Fin d → ℝ) (r : ℕ) (hr : 1 ≤ r) (ξ : Fin d → ℝ) (h : ξ ∈ T d r) : pos v r ξ ∈ Spec.simplex v := by
  have pr : (0 : ℝ) < r := by exact_mod_cast hr
  rw [simplex_eq_image]
  refine ⟨_, ⟨fun i => mul_nonneg (by positivity) (h.1 i), ?_⟩, rfl⟩
  show ∑ i, 1 / (r : ℝ) * ξ i ≤ 1
  rw [← Finset.mul_sum, one_div, inv_mul_le_one₀ pr]
  exact h.2

/-- The error of the midpoint rule on a simplex that is divided into simplices of equal volume. -/
theorem midpoint_error (r : ℕ) (hr : 1 ≤ r) (cells : List (List (Fin d → ℕ))) (hl : ∀ P ∈ cells, P.length = d + 1)
    (hdet : ∀ P ∈ cells, |(edges (cellVerts P)).det| = 1) (ht : LTiles cells (T d r)) (hN : cells.length = r ^ d)
    (v : Fin (d + 1) → Fin d → ℝ) (f : (Fin d → ℝ) → ℝ) (hf : ContinuousOn f (Spec.simplex v)) (ε : ℝ)
    (h : ∀ P ∈ cells, ∃ l : (Fin d → ℝ) →ₗ[ℝ] ℝ, ∀ ξ ∈ Spec.simplex (cellVerts P),
      |f (pos v r ξ) - f (pos v r (mid (cellVerts P))) - l (ξ - mid (cellVerts P))| ≤ ε) :
    |(cells.map fun P => |(edges v).det| / (d.factorial : ℝ) / (r : ℝ) ^ d * f (pos v r (mid (cellVerts P)))).sum - ∫ x in Spec.simplex v, f x| ≤
      |(edges v).det| / (d.factorial : ℝ) * ε := by
  have pr : (0 : ℝ) < r := by exact_mod_cast hr
  have prd : (0 : ℝ) < (r : ℝ) ^ d := pow_pos pr d
  have hsub : ∀ P ∈ cells, ∀ ξ ∈ Spec.simplex (cellVerts P), ξ ∈ T d r := fun P hP ξ hξ => ht.inside P hP ξ ((lin_iff P (hl P hP) ξ).2 hξ)
  have hg : ContinuousOn (fun ξ => f (pos v r ξ)) (T d r) :=
    hf.comp (continuous_pos v r).continuousOn fun ξ hξ => pos_mem v r hr ξ hξ
  have e1 : ∫ x in Spec.simplex v, f x = |(edges v).det| / (r : ℝ) ^ d * ∫ ξ in T d r, f (pos v r ξ) := by
    rw [← bigVerts_simplex r hr, integral_simplex_all v f, integral_simplex_all (bigVerts d r), bigVerts_det, abs_of_pos prd, smul_eq_mul, smul_eq_mul]
    have : ∀ u, pos v r (Spec.fromUnit (bigVerts d r) u) = Spec.fromUnit v u := by
      intro u
      rw [bigVerts_fromUnit, pos, smul_smul, one_div, inv_mul_cancel₀ pr.ne', one_smul]
    simp only [this]
    rw [← mul_assoc, div_mul_cancel₀ _ prd.ne']
  rw [e1, integral_tiles cells hl _ ht _ (hg.integrableOn_compact (isCompact_T d r))]
  have key : ∀ L : List (List (Fin d → ℕ)), (∀ P ∈ L, P ∈ cells) →
      |(L.map fun P => 1 / (d.factorial : ℝ) * f (pos v r (mid (cellVerts P)))).sum -
        (L.map fun P => ∫ ξ in Spec.simplex (cellVerts P), f (pos v r ξ)).sum| ≤ (L.length : ℝ) * (ε / (d.factorial : ℝ)) := by
    intro L
    induction L with
    | nil => simp
    | cons P L ih =>
      intro hL
      have hP := hL P List.mem_cons_self
      obtain ⟨l, hlin⟩ := h P hP
      have h1 := cell_error (cellVerts P) (fun ξ => f (pos v r ξ)) (hg.mono (hsub P hP)) l ε hlin
      rw [hdet P hP] at h1
      have h2 := ih (fun Q hQ => hL Q (List.mem_cons_of_mem _ hQ))
      rw [List.map_cons, List.map_cons, List.sum_cons, List.sum_cons, List.length_cons]
      rw [abs_le] at h1 h2 ⊢
      push_cast
      have e : ε * (1 / (d.factorial : ℝ)) = ε / (d.factorial : ℝ) := by ring
      rw [e] at h1
      constructor <;> nlinarith [h1.1, h1.2, h2.1, h2.2]
  have h1 := key cells (fun P hP => hP)
  have e2 : (cells.map fun P => |(edges v).det| / (d.factorial : ℝ) / (r : ℝ) ^ d * f (pos v r (mid (cellVerts P)))).sum =
      |(edges v).det| / (r : ℝ) ^ d * (cells.map fun P => 1 / (d.factorial : ℝ) * f (pos v r (mid (cellVerts P)))).sum := by
    rw [← List.sum_map_mul_left]
    congr 1
    refine List.map_congr_left (fun P _ => ?_)
    ring
  rw [e2, ← mul_sub, abs_mul, abs_div, abs_abs, abs_of_pos prd]
  calc _ ≤ |(edges v).det| / (r : ℝ) ^ d * ((cells.length : ℝ) * (ε / (d.factorial : ℝ))) := mul_le_mul_of_nonneg_left h1 (by positivity)
    _ = _ := by
      rw [hN]
      push_cast
      field_simp

end Verif.Midpoint
