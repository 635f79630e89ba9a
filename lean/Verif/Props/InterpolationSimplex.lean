import Verif.Props.Interpolation
import Verif.Props.QuadratureError
import Verif.Lemmas.SimplexPolynomialOps
import Mathlib.Analysis.Calculus.Taylor
import Mathlib.Analysis.Calculus.ContDiff.Operations
/-!
# C102: interpolation on simplices of any dimension

The constant of the error bound depends on the dimension and the degree only: not on the function, and neither on the shape nor on the position of the simplex.
-/

namespace Verif.Props
open Verif Verif.Poly Verif.Simplex Verif.Spec Verif.SPoly Set

/-- A polynomial of Mathlib as a polynomial function of bounded degree. -/
theorem isPoly_eval {m r : ℕ} (P : MvPolynomial (Fin m) ℝ) (hP : P.totalDegree ≤ r) : IsPoly (K := ℝ) m r (fun x => MvPolynomial.eval x P) := by
  simp only [MvPolynomial.eval_eq']
  refine isPoly_finset_sum _ _ (fun d hd => IsPoly.const_mul _ ?_)
  have h1 := isPoly_finset_prod (K := ℝ) (m := m) Finset.univ (fun i x => x i ^ d i) (fun i => 1 * d i) (fun i _ => (isPoly_coord i).pow (d i))
  refine h1.mono ?_
  simp only [one_mul]
  refine le_trans (le_of_eq ?_) ((MvPolynomial.le_totalDegree hd).trans hP)
  rw [Finsupp.sum_fintype _ _ (fun _ => rfl)]

/-- The basis functions are bounded on the unit simplex. -/
theorem lebesgue_bounded (m r : ℕ) : ∃ Λ : ℝ, 0 ≤ Λ ∧ ∀ u ∈ unitSimplex m, ∑ ν ∈ S m r, |Spec.lagrange r (List.ofFn u) (List.ofFn ν)| ≤ Λ := by
  have hc : ∀ ν ∈ S m r, Continuous fun u : Fin m → ℝ => Spec.lagrange r (List.ofFn u) (List.ofFn ν) := by
    intro ν hν
    have h1 := (val_isPoly (K := ℝ) .lagrange m r (fun l => if l = List.ofFn ν then (1 : ℝ) else 0)).continuous
    convert h1 using 2 with u
    rw [val, Finset.sum_eq_single ν]
    · simp [basisFn]
    · intro μ _ hne
      rw [if_neg (fun h => hne (List.ofFn_injective h)), smul_zero]
    · exact fun h => absurd hν h
  have h2 : ContinuousOn (fun u : Fin m → ℝ => ∑ ν ∈ S m r, |Spec.lagrange r (List.ofFn u) (List.ofFn ν)|) (unitSimplex m) :=
    (continuous_finsetSum _ (fun ν hν => (hc ν hν).abs)).continuousOn
  obtain ⟨Λ, hΛ⟩ := (Integration.isCompact_unit m).exists_bound_of_continuousOn h2
  refine ⟨max Λ 0, le_max_right _ _, fun u hu => ?_⟩
  exact ((le_abs_self _).trans (hΛ u hu)).trans (le_max_left _ _)

theorem simplex_core (m r : ℕ) (hf : Fits r m) : ∃ Λ : ℝ, 0 ≤ Λ ∧ ∀ (v : Vertices ℝ m m), edgeDet v ≠ 0 → ∀ g : (Fin m → ℝ) → ℝ,
    ∃ xs p f, lagrangePointsSimplex v r = .ok xs ∧ SObj.new .lagrange (xs.map g) v (some r) = .ok p ∧ RepresentsOn p v f ∧ (∀ x ∈ xs, f x = g x) ∧
      ∀ P : (Fin m → ℝ) → ℝ, IsPoly (K := ℝ) m r P → ∀ e : ℝ, (∀ x ∈ Spec.simplex v, |g x - P x| ≤ e) → ∀ x ∈ Spec.simplex v, |g x - f x| ≤ (1 + Λ) * e := by
  obtain ⟨Λ, hΛ0, hΛ⟩ := lebesgue_bounded m r
  refine ⟨Λ, hΛ0, fun v hd g => ?_⟩
  set G : List ℝ → ℝ := fun y => g (createAffineMap (up v) (fun i => y.getD i 0)) with hG
  obtain ⟨p, q, h1, hb, hr, hp, hq⟩ := C102_interpolates (K := ℝ) m r hf G
  have hrep := repOn_mk (K := ℝ) hd hp
  have hco : p.coeff = (generateLagrangePoints ℝ m r).map G :=
    congrArg Obj.coeff (Except.ok.inj (h1.symm.trans (new_ok _ _ _ _ (by rw [List.length_map, length_lagrangePoints, length_mis_eq]) hf)))
  have hGp : ∀ ν : Fin m → ℕ, G (List.ofFn fun i => (ν i : ℝ) / (r : ℝ)) = g (createAffineMap (up v) (fun i => (ν i : ℝ) / (r : ℝ))) := by
    intro ν
    simp only [hG]
    congr 2
    funext i
    simp
  refine ⟨_, _, _, by unfold lagrangePointsSimplex; rw [fromUnit_eq]; rfl, ?_, hrep, ?_, ?_⟩
  · have := hrep.made
    simp only [hb, hr, hco] at this
    rw [List.map_map]
    exact this
  · intro x hx
    obtain ⟨y, hy, rfl⟩ := List.mem_map.1 hx
    rw [lagrangePoints_eq] at hy
    obtain ⟨ν, hν, rfl⟩ := List.mem_map.1 hy
    obtain ⟨hl, hs⟩ := MI.mem_mis.1 hν
    obtain ⟨μ, rfl⟩ : ∃ μ : Fin m → ℕ, ν = List.ofFn μ := ⟨fun i => ν[i]'(by rw [hl]; exact i.2), by
      apply List.ext_getElem <;> simp [hl]⟩
    have e1 : (fun i : Fin m => ((List.ofFn μ).map (fun k : ℕ => (k : ℝ) / (r : ℝ))).getD i 0) = fun i => (μ i : ℝ) / (r : ℝ) := by
      funext i
      simp
    rw [e1, down_up v hd, hq μ (by rw [← List.sum_ofFn]; exact hs), hGp]
  · intro P hP e he x hx
    rw [Integration.simplex_eq_image] at hx
    obtain ⟨u, hu, rfl⟩ := hx
    have hup : ∀ u, Spec.fromUnit v u = createAffineMap (up v) u := fun u => by
      funext j
      simp only [Spec.fromUnit, createAffineMap, up, E, Matrix.mulVec, dotProduct, Pi.add_apply, Finset.sum_apply, Pi.smul_apply, Pi.sub_apply, smul_eq_mul,
        Matrix.of_apply]
      rw [add_comm]
      congr 1
      exact Finset.sum_congr rfl (fun i _ => mul_comm _ _)
    have hin : ∀ u ∈ unitSimplex m, createAffineMap (up v) u ∈ Spec.simplex v := fun u hu => by
      rw [Integration.simplex_eq_image]; exact ⟨u, hu, hup u⟩
    have hpt : ∀ ν ∈ S m r, (fun i => (ν i : ℝ) / (r : ℝ)) ∈ unitSimplex m := fun ν hν => by
      refine ⟨fun i => by positivity, ?_⟩
      rw [← Finset.sum_div]
      rcases Nat.eq_zero_or_pos r with h | h
      · simp [h]
      · rw [div_le_one (by exact_mod_cast h)]
        exact_mod_cast mem_S.1 hν
    have h3 := lagrange_value hp u
    rw [hr] at h3
    have h4 := interpolation (isPoly_comp hP (up v)) u
    have he0 : 0 ≤ e := (abs_nonneg _).trans (he _ (hin u hu))
    rw [hup, down_up v hd]
    have h5 : |q u - P (createAffineMap (up v) u)| ≤ Λ * e := by
      rw [h3, h4, ← Finset.sum_sub_distrib]
      refine (Finset.abs_sum_le_sum_abs _ _).trans (le_trans (Finset.sum_le_sum (fun ν hν => ?_))
        ((Finset.sum_mul _ _ _).symm.le.trans (mul_le_mul_of_nonneg_right (hΛ u hu) he0)))
      rw [smul_eq_mul, ← mul_sub, abs_mul, hq ν (mem_S.1 hν), hGp]
      exact mul_le_mul_of_nonneg_left (he _ (hin _ (hpt ν hν))) (abs_nonneg _)
    have h6 := he _ (hin u hu)
    have := abs_sub_le (g (createAffineMap (up v) u)) (P (createAffineMap (up v) u)) (q u)
    rw [abs_sub_comm (P _)] at this
    linarith

/-- **C102** Interpolation on simplices: for every dimension and degree there is a constant such that for every simplex that is not degenerate and every
function `g` the polynomial on the simplex whose coefficients are the values at the points of `generate_lagrange_points_simplex` has these values at these
points, and its error on the simplex is at most the constant times the error of any polynomial of the same degree. -/
theorem C102_simplex (m r : ℕ) (hf : Fits r m) : ∃ Λ : ℝ, 0 ≤ Λ ∧ ∀ (v : Vertices ℝ m m), edgeDet v ≠ 0 → ∀ g : (Fin m → ℝ) → ℝ,
    ∃ xs p f, lagrangePointsSimplex v r = .ok xs ∧ SObj.new .lagrange (xs.map g) v (some r) = .ok p ∧ RepresentsOn p v f ∧ (∀ x ∈ xs, f x = g x) ∧
      ∀ (P : MvPolynomial (Fin m) ℝ) (e : ℝ), P.totalDegree ≤ r → (∀ x ∈ Spec.simplex v, |g x - MvPolynomial.eval x P| ≤ e) →
        ∀ x ∈ Spec.simplex v, |g x - f x| ≤ (1 + Λ) * e := by
  obtain ⟨Λ, h0, h⟩ := simplex_core m r hf
  refine ⟨Λ, h0, fun v hd g => ?_⟩
  obtain ⟨xs, p, f, h1, h2, h3, h4, h5⟩ := h v hd g
  exact ⟨xs, p, f, h1, h2, h3, h4, fun P e hP he => h5 _ (isPoly_eval P hP) e he⟩

/-! ## Smooth functions -/

theorem isPoly_multilinear {m k : ℕ} (T : ContinuousMultilinearMap ℝ (fun _ : Fin k => Fin m → ℝ) ℝ) (z : Fin m → ℝ) :
    IsPoly (K := ℝ) m k (fun y => T (fun _ => y - z)) := by
  have h : ∀ y : Fin m → ℝ, T (fun _ => y - z) = ∑ s : Fin k → Fin m, T (fun i => Pi.single (s i) 1) * ∏ i, (y (s i) - z (s i)) := by
    intro y
    have e1 : (fun _ : Fin k => y - z) = fun _ => ∑ j, (y j - z j) • (Pi.single j (1 : ℝ) : Fin m → ℝ) := by
      funext _
      exact pi_eq_sum_univ' (y - z) |>.trans (Finset.sum_congr rfl fun j _ => by congr 1)
    rw [e1, T.map_sum]
    refine Finset.sum_congr rfl (fun s _ => ?_)
    rw [T.map_smul_univ (fun i => y (s i) - z (s i)), smul_eq_mul, mul_comm]
  simp only [h]
  refine isPoly_finset_sum _ _ (fun s _ => IsPoly.const_mul _ ?_)
  have h1 := isPoly_finset_prod (K := ℝ) (m := m) Finset.univ (fun (i : Fin k) y => y (s i) - z (s i)) (fun _ => 1)
    (fun i _ => (isPoly_coord (s i)).sub ((isPoly_const m (z (s i))).mono (Nat.zero_le 1)))
  simpa using h1

theorem line_deriv {m : ℕ} {N : ℕ} {g : (Fin m → ℝ) → ℝ} (hg : ContDiff ℝ N g) (z w : Fin m → ℝ) (k : ℕ) (hk : k ≤ N) (t : ℝ) :
    iteratedDeriv k (fun t : ℝ => g (z + t • w)) t = iteratedFDeriv ℝ k g (z + t • w) (fun _ => w) := by
  have hG : ContDiff ℝ N (fun y => g (z + y)) := hg.comp (contDiff_const.add contDiff_id)
  have h1 := ContinuousLinearMap.iteratedFDeriv_comp_right (ContinuousLinearMap.toSpanSingleton ℝ w) hG t (i := k) (by exact_mod_cast hk)
  rw [iteratedDeriv_eq_iteratedFDeriv]
  have h2 : (fun t : ℝ => g (z + t • w)) = (fun y => g (z + y)) ∘ (ContinuousLinearMap.toSpanSingleton ℝ w) := by
    funext t
    simp
  rw [h2, h1, iteratedFDeriv_comp_add_left]
  simp

/-- Taylor's formula on a segment: the distance of a smooth function from a polynomial of degree `r`. -/
theorem taylor_bound {m r : ℕ} {g : (Fin m → ℝ) → ℝ} (hg : ContDiff ℝ (r + 1 : ℕ) g) (z y : Fin m → ℝ) (M : ℝ)
    (hM : ∀ t ∈ Icc (0 : ℝ) 1, ‖iteratedFDeriv ℝ (r + 1) g (z + t • (y - z))‖ ≤ M) :
    |g y - ∑ k ∈ Finset.range (r + 1), ((k.factorial : ℝ)⁻¹) * iteratedFDeriv ℝ k g z (fun _ => y - z)| ≤ M * ‖y - z‖ ^ (r + 1) / ((r + 1).factorial : ℝ) := by
  set φ : ℝ → ℝ := fun t => g (z + t • (y - z)) with hφ
  have hφc : ContDiff ℝ (r + 1 : ℕ) φ := hg.comp (contDiff_const.add (contDiff_id.smul contDiff_const))
  obtain ⟨t, ht, e⟩ := taylor_mean_remainder_lagrange_iteratedDeriv (f := φ) (x₀ := 0) (x := 1) (n := r) zero_ne_one (by exact_mod_cast hφc.contDiffOn)
  have h1 : φ 1 = g y := by simp [hφ]
  have h2 : taylorWithinEval φ r (uIcc 0 1) 0 1 = ∑ k ∈ Finset.range (r + 1), ((k.factorial : ℝ)⁻¹) * iteratedFDeriv ℝ k g z (fun _ => y - z) := by
    rw [taylor_within_apply]
    refine Finset.sum_congr rfl (fun k hk => ?_)
    have hk' : k ≤ r + 1 := (Finset.mem_range.1 hk).le
    rw [iteratedDerivWithin_eq_iteratedDeriv (uniqueDiffOn_uIcc zero_ne_one) ((hφc.of_le (by exact_mod_cast hk')).contDiffAt) left_mem_uIcc,
      line_deriv hg z (y - z) k hk']
    simp
  rw [h1, h2] at e
  rw [e, line_deriv hg z (y - z) (r + 1) le_rfl]
  have h3 : |iteratedFDeriv ℝ (r + 1) g (z + t • (y - z)) (fun _ => y - z)| ≤ M * ‖y - z‖ ^ (r + 1) := by
    rw [← Real.norm_eq_abs]
    refine (ContinuousMultilinearMap.le_opNorm _ _).trans ?_
    rw [Finset.prod_const, Finset.card_univ, Fintype.card_fin]
    refine mul_le_mul_of_nonneg_right (hM t ?_) (by positivity)
    rw [uIoo_of_le zero_le_one] at ht
    exact Ioo_subset_Icc_self ht
  rw [abs_div, abs_mul, abs_of_pos (show (0 : ℝ) < ((r + 1).factorial : ℝ) by positivity)]
  refine div_le_div_of_nonneg_right ?_ (by positivity)
  simpa using h3

theorem exists_mvPolynomial {m r : ℕ} {f : (Fin m → ℝ) → ℝ} (h : IsPoly (K := ℝ) m r f) :
    ∃ P : MvPolynomial (Fin m) ℝ, P.totalDegree ≤ r ∧ ∀ x, MvPolynomial.eval x P = f x := by
  obtain ⟨c, hc⟩ := h
  refine ⟨∑ ν ∈ S m r, MvPolynomial.monomial (Finsupp.equivFunOnFinite.symm ν) (c (List.ofFn ν)), ?_, fun x => ?_⟩
  · refine MvPolynomial.totalDegree_finsetSum_le (fun ν hν => (MvPolynomial.totalDegree_monomial_le _ _).trans ?_)
    rw [Finsupp.sum_fintype _ _ (fun _ => rfl)]
    exact mem_S.1 hν
  · rw [hc, map_sum]
    refine Finset.sum_congr rfl (fun ν _ => ?_)
    rw [MvPolynomial.eval_monomial, Finsupp.prod_fintype _ _ (fun _ => pow_zero _), smul_eq_mul, mul_comm]
    rfl

/-- On a simplex a smooth function is close to a polynomial of degree `r`. -/
theorem taylor_simplex {m r l : ℕ} (v : Fin (l + 1) → Fin m → ℝ) {g : (Fin m → ℝ) → ℝ} (hg : ContDiff ℝ (r + 1 : ℕ) g) (M d : ℝ)
    (hM : ∀ x ∈ Spec.simplex v, ‖iteratedFDeriv ℝ (r + 1) g x‖ ≤ M) (hd' : ∀ i j, ‖v i - v j‖ ≤ d) :
    ∃ P : MvPolynomial (Fin m) ℝ, P.totalDegree ≤ r ∧ ∀ y ∈ Spec.simplex v, |g y - MvPolynomial.eval y P| ≤ M * d ^ (r + 1) / ((r + 1).factorial : ℝ) := by
  have hv0 : v 0 ∈ Spec.simplex v := ⟨Pi.single 0 1, fun i => by by_cases hi : i = 0 <;> simp [hi], by simp, by simp [Pi.single_apply, ite_smul]⟩
  have hM0 : 0 ≤ M := (norm_nonneg _).trans (hM _ hv0)
  have hseg : ∀ y ∈ Spec.simplex v, ∀ t ∈ Icc (0 : ℝ) 1, v 0 + t • (y - v 0) ∈ Spec.simplex v := by
    intro y hy t ht
    rw [Integration.simplex_eq_image] at hy ⊢
    obtain ⟨u, ⟨hu0, hu1⟩, rfl⟩ := hy
    refine ⟨t • u, ⟨fun i => mul_nonneg ht.1 (hu0 i), ?_⟩, ?_⟩
    · simp only [Pi.smul_apply, smul_eq_mul, ← Finset.mul_sum]
      exact mul_le_one₀ ht.2 (Finset.sum_nonneg fun i _ => hu0 i) hu1
    · simp only [Spec.fromUnit, add_sub_cancel_left, Finset.smul_sum, smul_smul, Pi.smul_apply, smul_eq_mul]
  have hdist : ∀ y ∈ Spec.simplex v, ‖y - v 0‖ ≤ d := by
    rintro y ⟨w, hw0, hw1, rfl⟩
    have e : ∑ i, w i • v i - v 0 = ∑ i, w i • (v i - v 0) := by
      simp only [smul_sub, Finset.sum_sub_distrib, ← Finset.sum_smul, hw1, one_smul]
    rw [e]
    refine (norm_sum_le _ _).trans ?_
    calc ∑ i, ‖w i • (v i - v 0)‖ ≤ ∑ i, w i * d := Finset.sum_le_sum (fun i _ => by
          rw [norm_smul, Real.norm_of_nonneg (hw0 i)]
          exact mul_le_mul_of_nonneg_left (hd' i 0) (hw0 i))
      _ = d := by rw [← Finset.sum_mul, hw1, one_mul]
  have hP : IsPoly (K := ℝ) m r (fun y => ∑ k ∈ Finset.range (r + 1), ((k.factorial : ℝ)⁻¹) * iteratedFDeriv ℝ k g (v 0) (fun _ => y - v 0)) :=
    isPoly_finset_sum _ _ (fun k hk => IsPoly.const_mul _ ((isPoly_multilinear _ _).mono (Nat.lt_succ_iff.1 (Finset.mem_range.1 hk))))
  obtain ⟨P, h1, h2⟩ := exists_mvPolynomial hP
  refine ⟨P, h1, fun y hy => ?_⟩
  rw [h2]
  refine (taylor_bound hg (v 0) y M (fun t ht => hM _ (hseg y hy t ht))).trans ?_
  refine div_le_div_of_nonneg_right (mul_le_mul_of_nonneg_left ?_ hM0) (by positivity)
  exact pow_le_pow_left₀ (norm_nonneg _) (hdist y hy) _

/-- **C102** Interpolation of smooth functions on simplices: the error is of order `r + 1` in the largest distance `h` of two vertices (in the maximum norm),
with a constant that does not depend on the function or on the simplex. -/
theorem C102_simplex_order (m r : ℕ) (hf : Fits r m) : ∃ Λ : ℝ, 0 ≤ Λ ∧ ∀ (v : Vertices ℝ m m), edgeDet v ≠ 0 → ∀ g : (Fin m → ℝ) → ℝ, ContDiff ℝ (r + 1 : ℕ) g →
    ∃ xs p f, lagrangePointsSimplex v r = .ok xs ∧ SObj.new .lagrange (xs.map g) v (some r) = .ok p ∧ RepresentsOn p v f ∧
      ∀ M h : ℝ, (∀ x ∈ Spec.simplex v, ‖iteratedFDeriv ℝ (r + 1) g x‖ ≤ M) → (∀ i j, ‖v i - v j‖ ≤ h) →
        ∀ x ∈ Spec.simplex v, |g x - f x| ≤ Λ * M * h ^ (r + 1) := by
  obtain ⟨Λ, h0, h⟩ := C102_simplex m r hf
  refine ⟨(1 + Λ) / ((r + 1).factorial : ℝ), by positivity, fun v hd g hg => ?_⟩
  obtain ⟨xs, p, f, h1, h2, h3, -, h5⟩ := h v hd g
  refine ⟨xs, p, f, h1, h2, h3, fun M d hM hd' x hx => ?_⟩
  obtain ⟨P, hP, hPe⟩ := taylor_simplex v hg M d hM hd'
  exact (h5 P _ hP hPe x hx).trans (le_of_eq (by ring))

/-- Cubic interpolation on tetrahedra, and a tetrahedron that is not degenerate; the function `x² y` is smooth. -/
example : Fits 3 3 ∧ edgeDet (![![0, 0, 0], ![2, 0, 0], ![0, 1, 0], ![1, 1, 3]] : Vertices ℝ 3 3) ≠ 0 ∧
    ContDiff ℝ (3 + 1 : ℕ) (fun x : Fin 3 → ℝ => x 0 ^ 2 * x 1) := by
  refine ⟨Or.inr (by norm_num), ?_, by fun_prop⟩
  unfold edgeDet
  simp [Matrix.det_fin_three]

end Verif.Props
