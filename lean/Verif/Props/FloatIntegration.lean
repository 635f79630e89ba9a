import Verif.Lemmas.FloatIntegration
import Verif.Props.Integration
import Verif.Props.FloatCode
/-!
# C97: integrals and points are accurate in floating point arithmetic
-/

namespace Verif.FloatIntegration
open Verif Verif.Poly Verif.PyExpr Verif.MI MeasureTheory
open Verif.Spec (linComb bernstein monomial lagrange)

/-- C97: `integrate_bernstein_polynomial_unit_simplex(r, a, n)`. -/
theorem C97_bernstein (ε : ℝ) (hε : 0 ≤ ε) (r n : ℕ) (a : List ℝ) (ha : a.length = getDimension r n) :
    ∃ Y : Set ℝ, integrateBernsteinUnit ε r a n = .ok Y ∧ Y.Nonempty ∧ ∀ y ∈ Y,
      |y - ∫ x in Spec.unitSimplex n, linComb (bernstein r (List.ofFn x)) (MI.generateAll n r) a| ≤
        ((1 + ε) ^ (getDimension r n + 2) - 1) *
          ∫ x in Spec.unitSimplex n, linComb (bernstein r (List.ofFn x)) (MI.generateAll n r) (a.map (fun t => |t|)) := by
  have key : ∀ b : List ℝ, b.length = getDimension r n →
      ∫ x in Spec.unitSimplex n, linComb (bernstein r (List.ofFn x)) (MI.generateAll n r) b = Integration.integrateBernsteinBasisFnUnit ℝ r n * b.sum := by
    intro b hb
    have := Verif.Props.C50_integrate_bernstein r n b hb
    unfold Integration.integrateBernsteinUnit at this
    simp only [hb, decide_true, pyAssert_true, Py.bind_ok, Py.pure_eq, Except.ok.injEq] at this
    rw [← this, Integration.pySum_eq, smul_eq_mul]
  obtain ⟨Y, h1, h2, h3⟩ := bernsteinUnit_near hε r n a ha
  refine ⟨Y, h1, h2, fun y hy => ?_⟩
  rw [key a ha, key _ (by simpa using ha)]
  exact (h3 y hy).2

/-- C97: `integrate_polynomial_unit_simplex(r, n, a)`, with and without the table. -/
theorem C97_monomial (ε : ℝ) (hε : 0 ≤ ε) (hε' : ε ≤ 1 / 2) (r n : ℕ) (a : List ℝ) (ha : a.length = getDimension r n) :
    ∃ Y : Set ℝ, integrateMonomialPolynomialUnit ε r n a = .ok Y ∧ Y.Nonempty ∧ ∀ y ∈ Y,
      |y - ∫ x in Spec.unitSimplex n, linComb (monomial (List.ofFn x)) (MI.generateAll n r) a| ≤
        ((1 + ε) ^ (getDimension r n + 6) - 1) *
          ∫ x in Spec.unitSimplex n, linComb (monomial (List.ofFn x)) (MI.generateAll n r) (a.map (fun t => |t|)) := by
  obtain ⟨c, rfl⟩ := exists_tab n r a ha
  have key : ∀ d : List Nat → ℝ, ∫ x in Spec.unitSimplex n, linComb (monomial (List.ofFn x)) (MI.generateAll n r) (tab n r d) =
      ∑ ν ∈ S n r, Integration.mint ℝ ν * d (List.ofFn ν) := by
    intro d
    have := Verif.Props.C50_integrate_monomial r n (tab n r d) (length_tab _ _ _)
    rw [Integration.monomialPolynomialUnit_eq] at this
    simp only [Except.ok.injEq, smul_eq_mul] at this
    exact this.symm
  obtain ⟨Y, h1, h2, h3⟩ := monomialUnit_near hε hε' 0 r n c c (fun ν => |c ν|) (fun ν _ => near_self hε 0 _)
  refine ⟨Y, h1, h2, fun y hy => ?_⟩
  rw [show (tab n r c).map (fun t => |t|) = tab n r (fun ν => |c ν|) by unfold tab; rw [List.map_map]; rfl, key, key]
  have := (h3 y hy).2
  rwa [Nat.zero_add] at this

/-- C97: `integrate_lagrange_polynomial_unit_simplex(r, a, n)`, if the coefficients `b` of the basis polynomials that are used are the exact
coefficients `c` up to the relative error `ε`. -/
theorem C97_lagrange (ε : ℝ) (hε : 0 ≤ ε) (hε' : ε ≤ 1 / 2) (r n : ℕ) (a : List ℝ) (ha : a.length = getDimension r n) (b c : List Nat → List ℝ)
    (hc : ∀ ν ∈ MI.generateAll n r, getLagrangeBasisFnCoefficients ℝ ν r = .ok (c ν))
    (hb : ∀ ν ∈ MI.generateAll n r, List.Forall₂ (Rounded ε) (c ν) (b ν)) :
    ∃ Y : Set ℝ, integrateLagrangeUnit ε b r a n = .ok Y ∧ Y.Nonempty ∧ ∀ y ∈ Y,
      |y - ∫ x in Spec.unitSimplex n, linComb (lagrange r (List.ofFn x)) (MI.generateAll n r) a| ≤
        ((1 + ε) ^ (2 * getDimension r n + 8) - 1) *
          ∫ x in Spec.unitSimplex n, linComb (fun ν => linComb (monomial (List.ofFn x)) (MI.generateAll n r) ((c ν).map (fun t => |t|)))
            (MI.generateAll n r) (a.map (fun t => |t|)) := by
  obtain ⟨f, rfl⟩ := exists_tab n r a ha
  rw [MI.generateAll_eq_mis] at *
  have hc' : ∀ ν ∈ mis n r, c ν = tab n r (lagCoeff ℝ n r ν) := by
    intro ν hν
    obtain ⟨h1, h2⟩ := mem_mis.1 hν
    have := hc ν hν
    rw [getLagrangeBasisFnCoefficients_eq ν r h2, h1] at this
    simp only [Except.ok.injEq] at this
    exact this.symm
  have hb' : ∀ ν, ∃ lb : List Nat → ℝ, ν ∈ mis n r → b ν = tab n r lb := by
    intro ν
    by_cases hν : ν ∈ mis n r
    · have h1 := (hb ν hν).length_eq
      rw [hc' ν hν, length_tab] at h1
      obtain ⟨g, hg⟩ := exists_tab n r (b ν) h1.symm
      exact ⟨g, fun _ => hg⟩
    · exact ⟨fun _ => 0, fun h => absurd h hν⟩
  choose lb hlb using hb'
  obtain ⟨Y, h1, h2, h3⟩ := lagrangeUnit_near hε hε' r n b (lagCoeff ℝ n r) lb hlb (by
    intro ν hν τ hτ
    have := hb ν hν
    rw [hc' ν hν, hlb ν hν] at this
    unfold tab at this
    rw [List.forall₂_map_left_iff, List.forall₂_map_right_iff, List.forall₂_same] at this
    exact this τ hτ) f
  refine ⟨Y, h1, h2, fun y hy => ?_⟩
  have h4 : ∫ x in Spec.unitSimplex n, linComb (lagrange r (List.ofFn x)) (mis n r) (tab n r f) =
      ∑ ν ∈ S n r, f (List.ofFn ν) * ∑ τ ∈ S n r, Integration.mint ℝ τ * lagCoeff ℝ n r (List.ofFn ν) (List.ofFn τ) := by
    have := Verif.Props.C50_integrate_lagrange r n (tab n r f) (length_tab _ _ _)
    rw [Integration.lagrangePolynomialUnit_eq, MI.generateAll_eq_mis] at this
    simp only [Except.ok.injEq, smul_eq_mul] at this
    rw [← this]
    exact Finset.sum_congr rfl fun ν _ => mul_comm _ _
  have h5 : ∫ x in Spec.unitSimplex n, linComb (fun ν => linComb (monomial (List.ofFn x)) (mis n r) ((c ν).map (fun t => |t|)))
      (mis n r) ((tab n r f).map (fun t => |t|)) =
      ∑ ν ∈ S n r, |f (List.ofFn ν)| * ∑ τ ∈ S n r, Integration.mint ℝ τ * |lagCoeff ℝ n r (List.ofFn ν) (List.ofFn τ)| := by
    have h6 : ∀ x : Fin n → ℝ, linComb (fun ν => linComb (monomial (List.ofFn x)) (mis n r) ((c ν).map (fun t => |t|)))
        (mis n r) ((tab n r f).map (fun t => |t|)) =
        ∑ ν ∈ S n r, (∑ τ ∈ S n r, (∏ i, x i ^ τ i) • |lagCoeff ℝ n r (List.ofFn ν) (List.ofFn τ)|) • |f (List.ofFn ν)| := by
      intro x
      rw [show (tab n r f).map (fun t => |t|) = tab n r (fun ν => |f ν|) by unfold tab; rw [List.map_map]; rfl, linComb_tab]
      refine Finset.sum_congr rfl fun ν hν => ?_
      rw [hc' _ (by rw [mem_mis]; simpa [List.sum_ofFn] using mem_S.1 hν)]
      rw [show (tab n r (lagCoeff ℝ n r (List.ofFn ν))).map (fun t => |t|) = tab n r (fun τ => |lagCoeff ℝ n r (List.ofFn ν) τ|) by
        unfold tab; rw [List.map_map]; rfl, linComb_tab]
      simp only [monomial_ofFn]
    simp only [h6]
    rw [integral_finsetSum]
    · refine Finset.sum_congr rfl fun ν _ => ?_
      rw [integral_smul_const, Integration.integral_unit_poly n r (fun τ => |lagCoeff ℝ n r (List.ofFn ν) (List.ofFn τ)|), smul_eq_mul, mul_comm]
      rfl
    · intro ν _
      exact Integration.integrable_unit (by fun_prop)
  rw [h4, h5]
  exact (h3 y hy).2

/-- C97: for nonnegative coefficients the integrals have a small relative error. -/
theorem C97_relative (ε : ℝ) (hε : 0 ≤ ε) (hε' : ε ≤ 1 / 2) (r n : ℕ) (a : List ℝ) (ha : a.length = getDimension r n) (h0 : ∀ t ∈ a, 0 ≤ t) :
    (∃ Y : Set ℝ, integrateBernsteinUnit ε r a n = .ok Y ∧ ∀ y ∈ Y,
      |y - ∫ x in Spec.unitSimplex n, linComb (bernstein r (List.ofFn x)) (MI.generateAll n r) a| ≤
        ((1 + ε) ^ (getDimension r n + 2) - 1) * ∫ x in Spec.unitSimplex n, linComb (bernstein r (List.ofFn x)) (MI.generateAll n r) a) ∧
    ∃ Y : Set ℝ, integrateMonomialPolynomialUnit ε r n a = .ok Y ∧ ∀ y ∈ Y,
      |y - ∫ x in Spec.unitSimplex n, linComb (monomial (List.ofFn x)) (MI.generateAll n r) a| ≤
        ((1 + ε) ^ (getDimension r n + 6) - 1) * ∫ x in Spec.unitSimplex n, linComb (monomial (List.ofFn x)) (MI.generateAll n r) a := by
  have h : a.map (fun t => |t|) = a := by
    conv_rhs => rw [← List.map_id a]
    exact List.map_congr_left fun t ht => abs_of_nonneg (h0 t ht)
  obtain ⟨Y, h1, -, h3⟩ := C97_bernstein ε hε r n a ha
  obtain ⟨Z, h4, -, h5⟩ := C97_monomial ε hε hε' r n a ha
  rw [h] at h3 h5
  exact ⟨⟨Y, h1, h3⟩, ⟨Z, h4, h5⟩⟩

/-- C97: `integrate_bernstein_polynomial_simplex(r, a, vertices)`, if the determinant is computed with a relative error of at most `δ < 1`. The function
`g` is the polynomial with coefficients `a` on the simplex and `G` the polynomial with their absolute values. -/
theorem C97_bernstein_simplex (ε δ : ℝ) (hε : 0 ≤ ε) (hδ : 0 ≤ δ) (hδ' : δ < 1) (r n : ℕ) (a : List ℝ) (ha : a.length = getDimension r n)
    (v : Fin (n + 1) → Fin n → ℝ) (hv : 0 < Spec.edgeDet v) (det : ℝ) (hdet : Rounded δ (Spec.edgeDet v) det) (g G : (Fin n → ℝ) → ℝ)
    (hg : ∀ u, g (Spec.fromUnit v u) = linComb (bernstein r (List.ofFn u)) (MI.generateAll n r) a)
    (hG : ∀ u, G (Spec.fromUnit v u) = linComb (bernstein r (List.ofFn u)) (MI.generateAll n r) (a.map (fun t => |t|))) :
    ∃ Y : Set ℝ, integrateBernsteinSimplex ε det r a n = .ok Y ∧ Y.Nonempty ∧ ∀ y ∈ Y,
      |y - ∫ x in Spec.simplex v, g x| ≤ ((1 + δ) * (1 + ε) ^ (getDimension r n + 3) - 1) * ∫ x in Spec.simplex v, G x := by
  have key : ∀ (b : List ℝ) (f : (Fin n → ℝ) → ℝ), b.length = getDimension r n →
      (∀ u, f (Spec.fromUnit v u) = linComb (bernstein r (List.ofFn u)) (MI.generateAll n r) b) →
      ∫ x in Spec.simplex v, f x = Spec.edgeDet v * (Integration.integrateBernsteinBasisFnUnit ℝ r n * b.sum) := by
    intro b f hb hf
    have := Verif.Props.C50_integrate_bernstein r n b hb
    unfold Integration.integrateBernsteinUnit at this
    simp only [hb, decide_true, pyAssert_true, Py.bind_ok, Py.pure_eq, Except.ok.injEq] at this
    rw [Integration.integral_simplex v hv.ne', abs_of_pos (show 0 < (Integration.edges v).det from hv)]
    simp only [hf]
    rw [← this, Integration.pySum_eq, smul_eq_mul, smul_eq_mul]
    rfl
  have hd : 0 < det := by
    unfold Rounded at hdet
    rw [abs_of_pos hv, abs_le] at hdet
    have := mul_pos hv (sub_pos.2 hδ')
    linarith [hdet.1]
  unfold integrateBernsteinSimplex integrateBernsteinBasisFnSimplex
  simp only [ha, hd, decide_true, pyAssert_true, Py.bind_ok, Py.pure_eq]
  obtain ⟨⟨s, hs⟩, h2⟩ := pySum_near hε a
  refine ⟨_, rfl, ⟨_, _, ⟨_, bernsteinBasis_mem hε r n, rounded_self hε⟩, s, hs, rounded_self hε⟩, ?_⟩
  rintro y ⟨c, ⟨iu, hiu, hc⟩, s, hs, hy⟩
  rw [key a g ha hg, key _ G (by simpa using ha) hG]
  have h3 : |det - Spec.edgeDet v| ≤ ((1 + δ) - 1) * |Spec.edgeDet v| := by
    unfold Rounded at hdet
    linarith
  have h4 := bernsteinBasis_near (ε := ε) r n iu hiu
  have h5 := h2 s hs
  have h6 := near_mul (E := 1 + δ) (by linarith) (one_le_base hε 1) le_rfl h4.1 h3 h4.2
  have h7 : |Spec.edgeDet v * Integration.integrateBernsteinBasisFnUnit ℝ r n| ≤ |Spec.edgeDet v| * Integration.integrateBernsteinBasisFnUnit ℝ r n := by
    rw [abs_mul]
    exact mul_le_mul_of_nonneg_left h4.1 (abs_nonneg _)
  have h8 := near_round hε h7 h6 hc
  have h9 : (1 : ℝ) ≤ (1 + δ) * (1 + ε) ^ 1 * (1 + ε) := by
    have := one_le_mul_of_one_le_of_one_le (show (1 : ℝ) ≤ 1 + δ by linarith) (one_le_base hε 1)
    exact one_le_mul_of_one_le_of_one_le this (by linarith)
  have h10 := near_mul h9 (one_le_base hε _) h7 h5.1 h8 h5.2
  have h11 : |Spec.edgeDet v * Integration.integrateBernsteinBasisFnUnit ℝ r n * a.sum| ≤
      |Spec.edgeDet v| * Integration.integrateBernsteinBasisFnUnit ℝ r n * (a.map (fun t => |t|)).sum := by
    rw [abs_mul]
    exact mul_le_mul h7 h5.1 (abs_nonneg _) ((abs_nonneg _).trans h7)
  have h12 := near_round hε h11 h10 hy
  rw [abs_of_pos hv, ha] at h12
  rw [← mul_assoc, ← mul_assoc]
  refine h12.trans (le_of_eq ?_)
  ring

/-- C97: coefficient arrays of the wrong length are rejected, and so is a determinant that is not positive. -/
theorem C97_rejected (ε : ℝ) (r n : ℕ) (a : List ℝ) (b : List Nat → List ℝ) (det : ℝ) :
    (a.length ≠ getDimension r n → integrateBernsteinUnit ε r a n = .error .assertion ∧ integrateMonomialPolynomialUnit ε r n a = .error .assertion ∧
      integrateLagrangeUnit ε b r a n = .error .assertion ∧ integrateBernsteinSimplex ε det r a n = .error .assertion) ∧
    (det ≤ 0 → integrateBernsteinSimplex ε det r a n = .error .assertion) := by
  constructor
  · intro h
    simp [integrateBernsteinUnit, integrateMonomialPolynomialUnit, integrateLagrangeUnit, integrateBernsteinSimplex, h]
  · intro h
    unfold integrateBernsteinSimplex integrateBernsteinBasisFnSimplex
    by_cases ha : a.length = getDimension r n <;> simp [ha, not_lt.2 h]

/-- C97: without rounding errors the only result is the integral. -/
theorem C97_exact (r n : ℕ) (a : List ℝ) (ha : a.length = getDimension r n) :
    integrateBernsteinUnit 0 r a n = .ok {∫ x in Spec.unitSimplex n, linComb (bernstein r (List.ofFn x)) (MI.generateAll n r) a} ∧
    integrateMonomialPolynomialUnit 0 r n a = .ok {∫ x in Spec.unitSimplex n, linComb (monomial (List.ofFn x)) (MI.generateAll n r) a} := by
  have aux : ∀ {Y : Set ℝ} {I M : ℝ} {k : ℕ}, Y.Nonempty → (∀ y ∈ Y, |y - I| ≤ ((1 + 0) ^ k - 1) * M) → Y = {I} := by
    intro Y I M k h1 h2
    refine Set.eq_singleton_iff_nonempty_unique_mem.2 ⟨h1, fun y hy => ?_⟩
    have := h2 y hy
    rw [add_zero, one_pow, sub_self, zero_mul] at this
    linarith [abs_nonpos_iff.1 this]
  obtain ⟨Y, h1, h2, h3⟩ := C97_bernstein 0 le_rfl r n a ha
  obtain ⟨Z, h4, h5, h6⟩ := C97_monomial 0 le_rfl (by norm_num) r n a ha
  exact ⟨by rw [h1, aux h2 h3], by rw [h4, aux h5 h6]⟩

/-- C97: `barycentric_to_cartesian(barycentric, vertices)`: each coordinate. -/
theorem C97_barycentric_to_cartesian (ε : ℝ) (hε : 0 ≤ ε) (k n : ℕ) (bary : Fin (k + 1) → ℝ) (v : Fin (k + 1) → Fin n → ℝ) (j : Fin n) :
    (barycentricToCartesian ε bary v j).Nonempty ∧ ∀ y ∈ barycentricToCartesian ε bary v j,
      |y - ∑ i, bary i * v i j| ≤ ((1 + ε) ^ (k + 2) - 1) * ∑ i, |bary i| * |v i j| := by
  have h := sumTerms_map hε 1 (List.finRange (k + 1)) (fun i => {t | Rounded ε (bary i * v i j) t}) (fun i => bary i * v i j)
    (fun i => |bary i| * |v i j|) (fun i _ => ⟨_, rounded_self hε⟩) (by
      intro i _ t ht
      have := near_of_rounded (show Rounded ε _ t from ht)
      rwa [abs_mul] at this)
  refine ⟨h.1, fun y hy => ?_⟩
  have := (h.2 y hy).2
  rw [List.length_finRange, show 1 + (k + 1) = k + 2 by omega, ← List.ofFn_eq_map, ← List.ofFn_eq_map, List.sum_ofFn, List.sum_ofFn] at this
  exact this

/-- C97: for a point of the simplex the error of `barycentric_to_cartesian` is small compared to the size of the simplex. -/
theorem C97_point_of_simplex (ε : ℝ) (hε : 0 ≤ ε) (k n : ℕ) (bary : Fin (k + 1) → ℝ) (v : Fin (k + 1) → Fin n → ℝ) (j : Fin n)
    (h0 : ∀ i, 0 ≤ bary i) (h1 : ∑ i, bary i = 1) (R : ℝ) (hR : ∀ i, |v i j| ≤ R) :
    ∀ y ∈ barycentricToCartesian ε bary v j, |y - ∑ i, bary i * v i j| ≤ ((1 + ε) ^ (k + 2) - 1) * R := by
  intro y hy
  refine ((C97_barycentric_to_cartesian ε hε k n bary v j).2 y hy).trans (mul_le_mul_of_nonneg_left ?_ (by have := one_le_base hε (k + 2); linarith))
  calc ∑ i, |bary i| * |v i j| ≤ ∑ i, bary i * R :=
        Finset.sum_le_sum fun i _ => by rw [abs_of_nonneg (h0 i)]; exact mul_le_mul_of_nonneg_left (hR i) (h0 i)
    _ = R := by rw [← Finset.sum_mul, h1, one_mul]

/-- C97: `centroid(vertices)`: each coordinate, whatever the order of the summation. -/
theorem C97_centroid (ε : ℝ) (hε : 0 ≤ ε) (k n : ℕ) (v : Fin (k + 1) → Fin n → ℝ) (j : Fin n) :
    (centroid ε v j).Nonempty ∧ ∀ y ∈ centroid ε v j,
      |y - (∑ i, v i j) / (k + 1)| ≤ ((1 + ε) ^ (k + 1) - 1) * ((∑ i, |v i j|) / (k + 1)) := by
  have hk : (0 : ℝ) < k + 1 := by positivity
  refine ⟨⟨_, _, exists_anySum hε _ (by simp), rounded_self hε⟩, ?_⟩
  rintro y ⟨s, hs, hy⟩
  have h1 := hs.near hε
  have h2 : Near ε k ((∑ i, v i j) / (k + 1)) ((∑ i, |v i j|) / (k + 1)) (s / ((k + 1 : ℕ) : ℝ)) := by
    have h3 := h1.2
    rw [List.length_ofFn, List.sum_ofFn, List.map_ofFn, List.sum_ofFn] at h3
    refine ⟨?_, ?_⟩
    · rw [abs_div, abs_of_pos hk]
      exact div_le_div_of_nonneg_right h3.1 hk.le
    · push_cast
      rw [← sub_div, abs_div, abs_of_pos hk, ← mul_div_assoc]
      exact div_le_div_of_nonneg_right h3.2 hk.le
  exact (h2.round hε hy).2

/-- C97: `cartesian_to_barycentric_unit(point)`: the first coordinate. -/
theorem C97_first_barycentric_coordinate (ε : ℝ) (hε : 0 ≤ ε) (n : ℕ) (x : Fin n → ℝ) :
    (cartesianToBarycentricUnitFirst ε (List.ofFn x)).Nonempty ∧ ∀ y ∈ cartesianToBarycentricUnitFirst ε (List.ofFn x),
      |y - (1 - ∑ i, x i)| ≤ ((1 + ε) ^ (n + 1) - 1) * (1 + ∑ i, |x i|) := by
  obtain ⟨⟨s, hs⟩, h⟩ := pySum_near hε (List.ofFn x)
  refine ⟨⟨_, s, hs, rounded_self hε⟩, ?_⟩
  rintro y ⟨s, hs, hy⟩
  have h1 := h s hs
  rw [List.length_ofFn, List.sum_ofFn, List.map_ofFn, List.sum_ofFn] at h1
  have h2 : Near ε n (-∑ i, x i) (∑ i, |x i|) (-s) := ⟨by rw [abs_neg]; exact h1.1, by rw [neg_sub_neg, abs_sub_comm]; exact h1.2⟩
  have h3 := near_self hε n 1
  rw [abs_one] at h3
  have h4 := (h3.add h2).round hε (d := y) (by rwa [← sub_eq_add_neg])
  rw [← sub_eq_add_neg] at h4
  exact h4.2

/-- `∫₀¹ x + 3x² dx = 3/2` in double precision: the result of `integrate_polynomial_unit_simplex(2, 1, [0, 1, 3])` can be 1.5, and every possible result
differs from it by at most `2⁻⁴⁸`. -/
example : ∃ Y : Set ℝ, integrateMonomialPolynomialUnit (1 / 2 ^ 53) 2 1 [0, 1, 3] = .ok Y ∧ 3 / 2 ∈ Y ∧ ∀ y ∈ Y, |y - 3 / 2| ≤ 1 / 2 ^ 48 := by
  have ha : ([0, 1, 3] : List ℝ).length = getDimension 2 1 := by decide
  have hI : ∫ x in Spec.unitSimplex 1, linComb (monomial (List.ofFn x)) (MI.generateAll 1 2) ([0, 1, 3] : List ℝ) = 3 / 2 := by
    have := Verif.Props.C50_integrate_monomial 2 1 ([0, 1, 3] : List ℝ) ha
    unfold Integration.integrateMonomialPolynomialUnit at this
    rw [show Integration.monomialIntegralsCache.lookup (1, 2) = some [1, 2, 3] by decide] at this
    simp only [ha, decide_true, pyAssert_true, Py.bind_ok, Py.pure_eq, Except.ok.injEq] at this
    rw [← this]
    norm_num [Integration.pySum]
  obtain ⟨Y, h1, -, h3⟩ := C97_monomial (1 / 2 ^ 53) (by norm_num) (by norm_num) 2 1 [0, 1, 3] ha
  refine ⟨Y, h1, ?_, fun y hy => ?_⟩
  · unfold integrateMonomialPolynomialUnit at h1
    rw [show Integration.monomialIntegralsCache.lookup (1, 2) = some [1, 2, 3] by decide] at h1
    simp only [ha, decide_true, pyAssert_true, Py.bind_ok, Py.pure_eq, Except.ok.injEq] at h1
    rw [← h1]
    have hr : ∀ {v c : ℝ}, c = v → Rounded (1 / 2 ^ 53) v c := by
      rintro v c rfl
      exact rounded_self (by norm_num)
    exact ⟨0, ⟨1, hr (by norm_num), hr (by norm_num)⟩, 0, hr (by norm_num), 1 / 2, ⟨1 / 2, hr (by norm_num), hr (by norm_num)⟩, 1 / 2, hr (by norm_num),
      1, ⟨1 / 3, hr (by norm_num), hr (by norm_num)⟩, 3 / 2, hr (by norm_num), rfl⟩
  · have h4 := h3 y hy
    have h5 := Verif.CodeGen.C88_factor (1 / 2 ^ 53) (by norm_num) 9 (by norm_num)
    rw [hI, show ([0, 1, 3] : List ℝ).map (fun t => |t|) = [0, 1, 3] by norm_num, hI, show getDimension 2 1 + 6 = 9 by decide] at h4
    norm_num at h4 h5 ⊢
    linarith

/-- With large rounding errors the result can be wrong: the set of results is not just the integral. -/
example : ∃ Y : Set ℝ, integrateBernsteinUnit (1 / 8) 1 [2, 1] 1 = .ok Y ∧ 3 / 2 ∈ Y ∧ 27 / 16 ∈ Y ∧ (4 : ℝ) ∉ Y := by
  have ha : ([2, 1] : List ℝ).length = getDimension 1 1 := by decide
  obtain ⟨Y, h1, -, h3⟩ := bernsteinUnit_near (ε := 1 / 8) (by norm_num) 1 1 [2, 1] ha
  have h2 := h1
  unfold integrateBernsteinUnit at h2
  simp only [ha, decide_true, pyAssert_true, Py.bind_ok, Py.pure_eq, Except.ok.injEq] at h2
  refine ⟨Y, h1, ?_, ?_, ?_⟩
  · rw [← h2]
    refine ⟨1 / 2, ?_, 3, ⟨2, rfl, 2, ?_, 1, rfl, 3, ?_, rfl⟩, ?_⟩ <;>
      norm_num [Rounded, integrateBernsteinBasisFnUnit, List.range'_succ]
  · rw [← h2]
    refine ⟨1 / 2, ?_, 3, ⟨2, rfl, 2, ?_, 1, rfl, 3, ?_, rfl⟩, ?_⟩ <;>
      norm_num [Rounded, integrateBernsteinBasisFnUnit, List.range'_succ, abs_of_pos]
  · intro h
    have := (h3 4 h).2
    rw [show getDimension 1 1 + 2 = 4 by decide] at this
    norm_num [Integration.integrateBernsteinBasisFnUnit, List.range'_succ, abs_of_pos] at this

/-- The hypotheses of `C97_lagrange` hold for the exact coefficients, for every degree and dimension. -/
example (r n : ℕ) : ∃ b c : List Nat → List ℝ, (∀ ν ∈ MI.generateAll n r, getLagrangeBasisFnCoefficients ℝ ν r = .ok (c ν)) ∧
    ∀ ν ∈ MI.generateAll n r, List.Forall₂ (Rounded (1 / 2 ^ 53)) (c ν) (b ν) := by
  refine ⟨fun ν => tab n r (lagCoeff ℝ n r ν), fun ν => tab n r (lagCoeff ℝ n r ν), fun ν hν => ?_, fun ν _ => ?_⟩
  · rw [MI.generateAll_eq_mis] at hν
    obtain ⟨h1, h2⟩ := mem_mis.1 hν
    rw [getLagrangeBasisFnCoefficients_eq ν r h2, h1]
  · exact List.forall₂_same.2 fun t _ => rounded_self (by norm_num)

/-- The hypotheses of `C97_bernstein_simplex` hold for the triangle with vertices (0, 0), (2, 0), (0, 3). -/
example (a : List ℝ) : ∃ (v : Fin 3 → Fin 2 → ℝ) (det : ℝ) (g : (Fin 2 → ℝ) → ℝ), 0 < Spec.edgeDet v ∧ Rounded (1 / 2 ^ 50) (Spec.edgeDet v) det ∧
    ∀ u, g (Spec.fromUnit v u) = linComb (bernstein 2 (List.ofFn u)) (MI.generateAll 2 2) a := by
  have hd : Spec.edgeDet (![![0, 0], ![2, 0], ![0, 3]] : Fin 3 → Fin 2 → ℝ) = 6 := by
    norm_num [Spec.edgeDet, Matrix.det_fin_two]
  refine ⟨![![0, 0], ![2, 0], ![0, 3]], 6, fun x => linComb (bernstein 2 (List.ofFn ![x 0 / 2, x 1 / 3])) (MI.generateAll 2 2) a, by rw [hd]; norm_num, ?_,
    fun u => ?_⟩
  · rw [hd]
    exact rounded_self (by norm_num)
  · have : (![Spec.fromUnit ![![0, 0], ![2, 0], ![0, 3]] u 0 / 2, Spec.fromUnit ![![0, 0], ![2, 0], ![0, 3]] u 1 / 3] : Fin 2 → ℝ) = u := by
      funext i
      fin_cases i <;> simp [Spec.fromUnit, Fin.sum_univ_two]
    simp only [this]

/-- The centroid of a segment in double precision. -/
example : ∀ y ∈ centroid (1 / 2 ^ 53) (![![1], ![2]] : Fin 2 → Fin 1 → ℝ) 0, |y - 3 / 2| ≤ 1 / 2 ^ 51 := by
  intro y hy
  have := (C97_centroid (1 / 2 ^ 53) (by norm_num) 1 1 ![![1], ![2]] 0).2 y hy
  rw [Fin.sum_univ_two, Fin.sum_univ_two] at this
  norm_num at this ⊢
  linarith

end Verif.FloatIntegration
