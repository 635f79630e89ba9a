import Verif.Model.AdaptiveQuadrature
import Verif.Spec.Scipy
import Verif.Lemmas.Midpoint
import Verif.Props.Quadrature
/-!
# C73: the adaptive quadrature rules
-/

namespace Verif.Quadrature
open Verif MeasureTheory Simplex Integration Set

/-- Iterated integral over the slices, for functions that are continuous on the simplex. -/
theorem integral_T_succ_on (n : ℕ) (s : ℝ) (hs : 0 ≤ s) (f : (Fin (n + 1) → ℝ) → ℝ) (hf : ContinuousOn f (T (n + 1) s)) :
    ∫ x in T (n + 1) s, f x = ∫ t in (0 : ℝ)..s, ∫ y in T n (s - t), f (Fin.cons t y) := by
  have hm : MeasurableSet (T (n + 1) s) := (isClosed_T _ _).measurableSet
  rw [← integral_indicator hm]
  have mp := (volume_preserving_piFinSuccAbove (fun _ : Fin (n + 1) => ℝ) 0).symm
  rw [← mp.integral_comp']
  have hint : Integrable (indicator (T (n + 1) s) f) := (integrable_indicator_iff hm).2 (hf.integrableOn_compact (isCompact_T _ _))
  have hint2 := (mp.integrable_comp_emb (MeasurableEquiv.measurableEmbedding _)).2 hint
  have e : ∀ z : ℝ × (Fin n → ℝ), (MeasurableEquiv.piFinSuccAbove (fun _ : Fin (n + 1) => ℝ) 0).symm z = Fin.cons z.1 z.2 := by
    intro z
    simp [MeasurableEquiv.piFinSuccAbove, Fin.insertNthEquiv]
  rw [Measure.volume_eq_prod, integral_prod _ (by rw [← Measure.volume_eq_prod]; exact hint2)]
  simp only [e]
  rw [intervalIntegral.integral_of_le hs, ← integral_Icc_eq_integral_Ioc, ← integral_indicator measurableSet_Icc]
  refine integral_congr_ae (Filter.Eventually.of_forall fun t => ?_)
  simp only
  by_cases ht : t ∈ Icc (0 : ℝ) s
  · rw [indicator_of_mem ht, ← integral_indicator (isClosed_T n (s - t)).measurableSet]
    refine integral_congr_ae (Filter.Eventually.of_forall fun y => ?_)
    simp only [indicator]
    by_cases hy : y ∈ T n (s - t)
    · rw [if_pos hy, if_pos ((mem_T_cons n s t y).2 ⟨ht.1, hy⟩)]
    · rw [if_neg hy, if_neg (fun h => hy ((mem_T_cons n s t y).1 h).2)]
  · rw [indicator_of_notMem ht]
    have : ∀ y : Fin n → ℝ, (Fin.cons t y : Fin (n + 1) → ℝ) ∉ T (n + 1) s := by
      intro y h
      obtain ⟨h0, h1⟩ := (mem_T_cons n s t y).1 h
      by_cases hst : s < t
      · rw [T_empty n (s - t) (by linarith)] at h1; exact h1
      · exact ht ⟨h0, not_lt.1 hst⟩
    simp only [indicator, if_neg (this _), integral_zero]

/-- The integral over the interval `[0, s]`. -/
theorem integral_T_one (s : ℝ) (hs : 0 ≤ s) (f : (Fin 1 → ℝ) → ℝ) (hf : ContinuousOn f (T 1 s)) :
    ∫ x in T 1 s, f x = ∫ t in (0 : ℝ)..s, f ![t] := by
  rw [integral_T_succ_on 0 s hs f hf]
  refine intervalIntegral.integral_congr (fun t ht => ?_)
  rw [uIcc_of_le hs] at ht
  have h0 : T 0 (s - t) = univ := by
    ext x
    simp [T, ht.2]
  have hv : (volume : Measure (Fin 0 → ℝ)) univ = 1 := by
    rw [volume_pi, Measure.pi_univ]; simp
  have : ∀ y : Fin 0 → ℝ, f (Fin.cons t y) = f ![t] := by
    intro y
    congr 1
    funext i
    fin_cases i
    rfl
  simp only [this, h0]
  rw [setIntegral_const, Measure.real, hv]
  simp

theorem continuousOn_slice (n : ℕ) (s t : ℝ) (ht : 0 ≤ t) (f : (Fin (n + 1) → ℝ) → ℝ) (hf : ContinuousOn f (T (n + 1) s)) :
    ContinuousOn (fun y : Fin n → ℝ => f (Fin.cons t y)) (T n (s - t)) := by
  refine hf.comp (Continuous.continuousOn ?_) (fun y hy => (mem_T_cons n s t y).2 ⟨ht, hy⟩)
  refine continuous_pi (fun i => ?_)
  refine Fin.cases ?_ (fun i => ?_) i
  · simp only [Fin.cons_zero]; fun_prop
  · simp only [Fin.cons_succ]; fun_prop

theorem integral_T_two (s : ℝ) (hs : 0 ≤ s) (f : (Fin 2 → ℝ) → ℝ) (hf : ContinuousOn f (T 2 s)) :
    ∫ x in T 2 s, f x = ∫ t in (0 : ℝ)..s, ∫ u in (0 : ℝ)..(s - t), f ![t, u] := by
  rw [integral_T_succ_on 1 s hs f hf]
  refine intervalIntegral.integral_congr (fun t ht => ?_)
  rw [uIcc_of_le hs] at ht
  exact integral_T_one (s - t) (by linarith [ht.2]) _ (continuousOn_slice 1 s t ht.1 f hf)

theorem integral_T_three (s : ℝ) (hs : 0 ≤ s) (f : (Fin 3 → ℝ) → ℝ) (hf : ContinuousOn f (T 3 s)) :
    ∫ x in T 3 s, f x = ∫ t in (0 : ℝ)..s, ∫ u in (0 : ℝ)..(s - t), ∫ w in (0 : ℝ)..(s - t - u), f ![t, u, w] := by
  rw [integral_T_succ_on 2 s hs f hf]
  refine intervalIntegral.integral_congr (fun t ht => ?_)
  rw [uIcc_of_le hs] at ht
  exact integral_T_two (s - t) (by linarith [ht.2]) _ (continuousOn_slice 2 s t ht.1 f hf)

/-! ## The unit simplex is symmetric -/

/-- Reversing the order of the coordinates. -/
def rev {n : ℕ} (x : Fin n → ℝ) : Fin n → ℝ := fun i => x i.rev

theorem rev_mem {n : ℕ} (x : Fin n → ℝ) (h : x ∈ Spec.unitSimplex n) : rev x ∈ Spec.unitSimplex n := by
  refine ⟨fun i => h.1 _, ?_⟩
  have : ∑ i, rev x i = ∑ i, x i := Equiv.sum_comp Fin.revPerm x
  rw [this]
  exact h.2

theorem integral_rev {n : ℕ} (f : (Fin n → ℝ) → ℝ) : ∫ x in Spec.unitSimplex n, f (rev x) = ∫ x in Spec.unitSimplex n, f x := by
  have mp : MeasurePreserving (MeasurableEquiv.piCongrLeft (fun _ : Fin n => ℝ) Fin.revPerm) :=
    volume_measurePreserving_piCongrLeft _ _
  have hr : ∀ x : Fin n → ℝ, MeasurableEquiv.piCongrLeft (fun _ : Fin n => ℝ) Fin.revPerm x = rev x := by
    intro x
    funext i
    have := MeasurableEquiv.piCongrLeft_apply_apply (β := fun _ : Fin n => ℝ) Fin.revPerm x i.rev
    simpa [rev] using this
  have hpre : (MeasurableEquiv.piCongrLeft (fun _ : Fin n => ℝ) Fin.revPerm) ⁻¹' (Spec.unitSimplex n) = Spec.unitSimplex n := by
    ext x
    rw [mem_preimage, hr]
    refine ⟨fun h => ?_, rev_mem x⟩
    have := rev_mem _ h
    have e : rev (rev x) = x := by funext i; simp [rev]
    rwa [e] at this
  have := mp.setIntegral_preimage_emb (MeasurableEquiv.measurableEmbedding _) f (Spec.unitSimplex n)
  rw [hpre] at this
  simp only [hr] at this
  exact this

/-! ## Intervals -/

/-- **C73** `quadrature_unit_interval(f)`: as accurate as the external routine. -/
theorem C73_unit_interval (quad : Quad) (τ : ℝ) (f : ℝ → ℝ) (hf : ContinuousOn f (Icc 0 1)) (h : Spec.QuadAccurate quad τ f) :
    |unitInterval quad f - ∫ x in (0 : ℝ)..1, f x| ≤ τ :=
  h 0 1 (by rwa [uIcc_of_le zero_le_one])

/-- **C73** `quadrature_interval(f, a, b)`, also for `b < a` (the integral changes sign). -/
theorem C73_interval (quad : Quad) (τ : ℝ) (f : ℝ → ℝ) (a b : ℝ) (hf : ContinuousOn f (uIcc a b)) (h : Spec.QuadAccurate quad τ f) :
    |interval quad f a b - ∫ x in a..b, f x| ≤ τ :=
  h a b hf

/-! ## Triangles -/

/-- **C73** `quadrature_unit_triangle(f)`: within the accuracy of `dblquad` of the integral over the unit triangle, for every function that is
continuous there, although `dblquad` passes the arguments in the opposite order. -/
theorem C73_unit_triangle (dblquad : DblQuad) (τ : ℝ) (f : (Fin 2 → ℝ) → ℝ) (hf : ContinuousOn f (Spec.unitSimplex 2))
    (h : Spec.DblquadAccurate dblquad τ fun x y => f ![x, y]) :
    |unitTriangle dblquad (fun x y => f ![x, y]) - ∫ x in Spec.unitSimplex 2, f x| ≤ τ := by
  have hc : ContinuousOn (fun x => f (rev x)) (T 2 1) :=
    hf.comp (Continuous.continuousOn (by unfold rev; fun_prop)) (fun x hx => rev_mem x hx)
  have e : ∫ x in Spec.unitSimplex 2, f x = ∫ x in (0 : ℝ)..1, ∫ y in (0 : ℝ)..(1 - x), f ![y, x] := by
    rw [← integral_rev, ← T_one, integral_T_two 1 zero_le_one _ hc]
    have : ∀ t u : ℝ, rev ![t, u] = ![u, t] := by
      intro t u
      funext i
      fin_cases i <;> rfl
    simp only [this]
  rw [e]
  refine h 0 1 (fun _ => 0) (fun x => 1 - x) zero_le_one (Continuous.continuousOn (by fun_prop)) (Continuous.continuousOn (by fun_prop))
    (fun x hx => by linarith [hx.2]) ?_
  refine hf.comp (f := fun p : ℝ × ℝ => ![p.2, p.1]) (Continuous.continuousOn ?_) ?_
  · refine continuous_pi (fun i => ?_)
    fin_cases i
    · exact continuous_snd
    · exact continuous_fst
  · rintro ⟨x, y⟩ ⟨⟨h1, h2⟩, h3, h4⟩
    simp only at h1 h2 h3 h4
    refine ⟨fun i => ?_, ?_⟩
    · fin_cases i
      · exact h3
      · exact h1
    · rw [Fin.sum_univ_two]
      show y + x ≤ 1
      linarith

/-- **C73** `quadrature_triangle(f, vertices)`: within the accuracy of `dblquad` for the pulled back function, times twice the area, of the
integral over the triangle, for every triangle of any orientation, also degenerate, and every function that is continuous on it. -/
theorem C73_triangle (dblquad : DblQuad) (τ : ℝ) (f : (Fin 2 → ℝ) → ℝ) (v : Fin 3 → Fin 2 → ℝ) (hf : ContinuousOn f (Spec.simplex v))
    (h : Spec.DblquadAccurate dblquad τ fun x y => f (Spec.fromUnit v ![x, y])) :
    ∃ q, triangle dblquad (fun x y => f ![x, y]) v = .ok q ∧ |q - ∫ x in Spec.simplex v, f x| ≤ |Spec.edgeDet v| * τ := by
  have hc : ContinuousOn (fun u => f (Spec.fromUnit v u)) (Spec.unitSimplex 2) := by
    refine hf.comp (Midpoint.continuous_fromUnit v).continuousOn (fun u hu => ?_)
    rw [simplex_eq_image]
    exact ⟨u, hu, rfl⟩
  have key := C73_unit_triangle dblquad τ (fun u => f (Spec.fromUnit v u)) hc h
  refine ⟨|Spec.edgeDet v| * unitTriangle dblquad (fun x y => f (Spec.fromUnit v ![x, y])), ?_, ?_⟩
  · unfold triangle affineFromUnit
    simp only [le_refl, decide_true, pyAssert_true, Py.bind_ok, Py.pure_eq]
    have : ∀ x y : ℝ, f ![createAffineMap (Matrix.of fun j i => v i.succ j - v 0 j, v 0) ![x, y] 0,
        createAffineMap (Matrix.of fun j i => v i.succ j - v 0 j, v 0) ![x, y] 1] = f (Spec.fromUnit v ![x, y]) := by
      intro x y
      rw [vec2, fromUnit_eq]
      rfl
    simp only [this]
    rfl
  · rw [integral_simplex_all, smul_eq_mul, show |(edges v).det| = |Spec.edgeDet v| from rfl, ← mul_sub, abs_mul, abs_abs]
    exact mul_le_mul_of_nonneg_left key (abs_nonneg _)

/-! ## Tetrahedra -/

/-- **C73** `quadrature_unit_tetrahedron(f)`, in the same way. -/
theorem C73_unit_tetrahedron (tplquad : TplQuad) (τ : ℝ) (f : (Fin 3 → ℝ) → ℝ) (hf : ContinuousOn f (Spec.unitSimplex 3))
    (h : Spec.TplquadAccurate tplquad τ fun x y z => f ![x, y, z]) :
    |unitTetrahedron tplquad (fun x y z => f ![x, y, z]) - ∫ x in Spec.unitSimplex 3, f x| ≤ τ := by
  have hc : ContinuousOn (fun x => f (rev x)) (T 3 1) :=
    hf.comp (Continuous.continuousOn (by unfold rev; fun_prop)) (fun x hx => rev_mem x hx)
  have e : ∫ x in Spec.unitSimplex 3, f x = ∫ x in (0 : ℝ)..1, ∫ y in (0 : ℝ)..(1 - x), ∫ z in (0 : ℝ)..(1 - x - y), f ![z, y, x] := by
    rw [← integral_rev, ← T_one, integral_T_three 1 zero_le_one _ hc]
    have : ∀ t u w : ℝ, rev ![t, u, w] = ![w, u, t] := by
      intro t u w
      funext i
      fin_cases i <;> rfl
    simp only [this]
  rw [e]
  refine h 0 1 (fun _ => 0) (fun x => 1 - x) (fun _ _ => 0) (fun x y => 1 - x - y) zero_le_one (Continuous.continuousOn (by fun_prop))
    (Continuous.continuousOn (by fun_prop)) (fun x hx => by linarith [hx.2]) (Continuous.continuousOn (by fun_prop))
    (Continuous.continuousOn (by fun_prop)) (fun x hx y hy => by linarith [hy.2]) ?_
  refine hf.comp (f := fun p : ℝ × ℝ × ℝ => ![p.2.2, p.2.1, p.1]) (Continuous.continuousOn ?_) ?_
  · refine continuous_pi (fun i => ?_)
    fin_cases i
    · exact continuous_snd.comp continuous_snd
    · exact continuous_fst.comp continuous_snd
    · exact continuous_fst
  · rintro ⟨x, y, z⟩ ⟨⟨h1, h2⟩, ⟨h3, h4⟩, h5, h6⟩
    simp only at h1 h2 h3 h4 h5 h6
    refine ⟨fun i => ?_, ?_⟩
    · fin_cases i
      · exact h5
      · exact h3
      · exact h1
    · rw [Fin.sum_univ_three]
      show z + y + x ≤ 1
      linarith

/-- **C73** `quadrature_tetrahedron(f, vertices)`, in the same way. -/
theorem C73_tetrahedron (tplquad : TplQuad) (τ : ℝ) (f : (Fin 3 → ℝ) → ℝ) (v : Fin 4 → Fin 3 → ℝ) (hf : ContinuousOn f (Spec.simplex v))
    (h : Spec.TplquadAccurate tplquad τ fun x y z => f (Spec.fromUnit v ![x, y, z])) :
    ∃ q, tetrahedron tplquad (fun x y z => f ![x, y, z]) v = .ok q ∧ |q - ∫ x in Spec.simplex v, f x| ≤ |Spec.edgeDet v| * τ := by
  have hc : ContinuousOn (fun u => f (Spec.fromUnit v u)) (Spec.unitSimplex 3) := by
    refine hf.comp (Midpoint.continuous_fromUnit v).continuousOn (fun u hu => ?_)
    rw [simplex_eq_image]
    exact ⟨u, hu, rfl⟩
  have key := C73_unit_tetrahedron tplquad τ (fun u => f (Spec.fromUnit v u)) hc h
  refine ⟨|Spec.edgeDet v| * unitTetrahedron tplquad (fun x y z => f (Spec.fromUnit v ![x, y, z])), ?_, ?_⟩
  · unfold tetrahedron affineFromUnit
    simp only [le_refl, decide_true, pyAssert_true, Py.bind_ok, Py.pure_eq]
    have : ∀ x y z : ℝ, f ![createAffineMap (Matrix.of fun j i => v i.succ j - v 0 j, v 0) ![x, y, z] 0,
        createAffineMap (Matrix.of fun j i => v i.succ j - v 0 j, v 0) ![x, y, z] 1,
        createAffineMap (Matrix.of fun j i => v i.succ j - v 0 j, v 0) ![x, y, z] 2] = f (Spec.fromUnit v ![x, y, z]) := by
      intro x y z
      rw [vec3, fromUnit_eq]
      rfl
    simp only [this]
    rfl
  · rw [integral_simplex_all, smul_eq_mul, show |(edges v).det| = |Spec.edgeDet v| from rfl, ← mul_sub, abs_mul, abs_abs]
    exact mul_le_mul_of_nonneg_left key (abs_nonneg _)

/-- The contracts can be met: exact integration. -/
noncomputable def exactDblquad : DblQuad := fun f a b g h => ∫ x in a..b, ∫ y in g x..h x, f y x

noncomputable def exactTplquad : TplQuad := fun f a b g h q r => ∫ x in a..b, ∫ y in g x..h x, ∫ z in q x y..r x y, f z y x

/-- A function that is not symmetric in its arguments, on a negatively oriented triangle: the value is the integral. -/
example : triangle exactDblquad (fun x y => x * x - 3 * y) ![![1, 0], ![0, 2], ![3, 1]] =
    .ok (∫ x in Spec.simplex ![![1, 0], ![0, 2], ![3, 1]], (x 0 * x 0 - 3 * x 1)) := by
  obtain ⟨q, h1, h2⟩ := C73_triangle exactDblquad 0 (fun x => x 0 * x 0 - 3 * x 1) ![![1, 0], ![0, 2], ![3, 1]]
    (Continuous.continuousOn (by fun_prop)) (fun a b g h _ _ _ _ _ => by simp [exactDblquad])
  rw [mul_zero] at h2
  rw [← sub_eq_zero.1 (abs_nonpos_iff.1 h2)]
  exact h1

example : tetrahedron exactTplquad (fun x y z => Real.exp x - 3 * y * z) ![![1, 0, 0], ![0, 2, 0], ![3, 1, 1], ![0, 0, 5]] =
    .ok (∫ x in Spec.simplex ![![1, 0, 0], ![0, 2, 0], ![3, 1, 1], ![0, 0, 5]], (Real.exp (x 0) - 3 * x 1 * x 2)) := by
  obtain ⟨q, h1, h2⟩ := C73_tetrahedron exactTplquad 0 (fun x => Real.exp (x 0) - 3 * x 1 * x 2) ![![1, 0, 0], ![0, 2, 0], ![3, 1, 1], ![0, 0, 5]]
    (Continuous.continuousOn (by fun_prop)) (fun a b g h q r _ _ _ _ _ _ _ _ => by simp [exactTplquad])
  rw [mul_zero] at h2
  rw [← sub_eq_zero.1 (abs_nonpos_iff.1 h2)]
  exact h1

example : |interval (fun f a b => (∫ x in a..b, f x) + 1 / 100) (fun x => x) 2 5 - ∫ x in (2 : ℝ)..5, x| ≤ 1 / 100 :=
  C73_interval _ _ _ _ _ (Continuous.continuousOn (by fun_prop)) (fun a b _ => by norm_num)

end Verif.Quadrature
