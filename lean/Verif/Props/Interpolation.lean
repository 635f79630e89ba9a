import Verif.Lemmas.Interpolation
import Verif.Props.PolynomialLagrange
import Verif.Props.DualBases
import Verif.Lemmas.SimplexPolynomial
import Mathlib.Analysis.SpecialFunctions.ExpDeriv
import Mathlib.Analysis.Complex.ExponentialBounds
/-!
# C102: interpolation of functions by polynomials in the Lagrange basis

The interpolant of a function `g` is the polynomial whose coefficients are the values of `g` at the points returned by `generate_lagrange_points`.
-/

namespace Verif.Props
open Verif Verif.Poly Verif.Simplex Verif.Spec Set

variable {K V : Type} [Field K] [DecidableEq K] [CharZero K] [AddCommGroup V] [Module K V]

/-- **C102** The constructor accepts the values of any function at the Lagrange points (degree at most 19), and the polynomial has these values there. -/
theorem C102_interpolates (n r : Nat) (hf : Fits r n) (g : List K → V) :
    ∃ p q, Obj.new .lagrange ((generateLagrangePoints K n r).map g) (some r) n = .ok p ∧ p.basis = .lagrange ∧ p.r = r ∧ Represents p n q ∧
      ∀ μ : Fin n → ℕ, ∑ i, μ i ≤ r → q (fun i => (μ i : K) / (r : K)) = g (List.ofFn fun i => (μ i : K) / (r : K)) := by
  set c : List Nat → V := fun ν => g (ν.map (fun (k : Nat) => (k : K) / (r : K))) with hc
  have h1 : (generateLagrangePoints K n r).map g = tab n r c := by
    rw [lagrangePoints_eq, List.map_map]; rfl
  refine ⟨mkObj .lagrange n r c, val .lagrange n r c, by rw [h1]; exact new_mk _ _ _ _ hf, rfl, rfl, rep_mk _ _ _ _ hf, fun μ hμ => ?_⟩
  have h2 := (C26_coefficients_are_values (rep_mk (K := K) .lagrange n r c hf) rfl).2
  have hm : List.ofFn μ ∈ MI.generateAll n r := by
    rw [MI.generateAll_eq_mis]; exact MI.mem_mis.2 ⟨by simp, by rw [List.sum_ofFn]; exact hμ⟩
  obtain ⟨i, hi⟩ := List.mem_iff_getElem?.1 hm
  have h3 := h2 i μ hi
  have h4 : (mkObj Basis.lagrange n r c).coeff[i]? = some (c (List.ofFn μ)) := by
    rw [show (mkObj Basis.lagrange n r c).coeff = (MI.mis n r).map c from rfl, List.getElem?_map, ← MI.generateAll_eq_mis, hi]; rfl
  have h5 := Option.some.inj (h3.symm.trans h4)
  rw [show (mkObj Basis.lagrange n r c).r = r from rfl] at h5
  rw [h5, hc]
  simp only [List.map_ofFn]
  rfl

/-- The value of a polynomial in terms of its values at the Lagrange points. -/
theorem lagrange_value {n : Nat} {p : Obj ℝ} {q : (Fin n → ℝ) → ℝ} (hp : Represents p n q) (x : Fin n → ℝ) :
    q x = ∑ ν ∈ S n p.r, Spec.lagrange p.r (List.ofFn x) (List.ofFn ν) * q (fun i => (ν i : ℝ) / (p.r : ℝ)) := by
  obtain ⟨s, -, hs, hb, hr⟩ := convertScalar_rep hp .lagrange (fun h => by cases h)
  obtain ⟨c, hsc, hqc, -⟩ := hs.exists_mk
  have h2 := (C26_coefficients_are_values hs hb).2
  rw [← hr]
  have hx := congrFun hqc x
  rw [hb] at hx
  rw [hx]
  simp only [val, basisFn, smul_eq_mul]
  refine Finset.sum_congr rfl (fun ν hν => ?_)
  congr 1
  have hm : List.ofFn ν ∈ MI.generateAll n s.r := by
    rw [MI.generateAll_eq_mis]; exact MI.mem_mis.2 ⟨by simp, by rw [List.sum_ofFn]; exact mem_S.1 hν⟩
  obtain ⟨i, hi⟩ := List.mem_iff_getElem?.1 hm
  have h3 := h2 i ν hi
  have h4 : s.coeff[i]? = some (c (List.ofFn ν)) := by
    have : s.coeff = (MI.mis n s.r).map c := congrArg Obj.coeff hsc
    rw [this, List.getElem?_map, ← MI.generateAll_eq_mis, hi]; rfl
  exact Option.some.inj (h4.symm.trans h3)

/-- **C102** Interpolation is as good as the best approximation up to the Lebesgue constant: if some polynomial `s` of the same degree, in any basis, differs
from `g` by at most `e` at `x` and at the Lagrange points, then the interpolant differs from `g` by at most `e (1 + Σ |ℓ_ν(x)|)` at `x`. -/
theorem C102_quasi_optimal {n : Nat} {p s : Obj ℝ} {q f : (Fin n → ℝ) → ℝ} (hp : Represents p n q) (hs : Represents s n f) (hr : s.r = p.r)
    (g : List ℝ → ℝ) (hg : ∀ μ : Fin n → ℕ, ∑ i, μ i ≤ p.r → q (fun i => (μ i : ℝ) / (p.r : ℝ)) = g (List.ofFn fun i => (μ i : ℝ) / (p.r : ℝ)))
    (x : Fin n → ℝ) (e : ℝ) (hx : |g (List.ofFn x) - f x| ≤ e)
    (he : ∀ μ : Fin n → ℕ, ∑ i, μ i ≤ p.r → |g (List.ofFn fun i => (μ i : ℝ) / (p.r : ℝ)) - f (fun i => (μ i : ℝ) / (p.r : ℝ))| ≤ e) :
    |g (List.ofFn x) - q x| ≤ e * (1 + ((MI.generateAll n p.r).map (fun ν => |Spec.lagrange p.r (List.ofFn x) ν|)).sum) := by
  have h1 : q x - f x = ∑ ν ∈ S n p.r, Spec.lagrange p.r (List.ofFn x) (List.ofFn ν) *
      (g (List.ofFn fun i => (ν i : ℝ) / (p.r : ℝ)) - f (fun i => (ν i : ℝ) / (p.r : ℝ))) := by
    rw [lagrange_value hp x, lagrange_value hs x, hr, ← Finset.sum_sub_distrib]
    exact Finset.sum_congr rfl (fun ν hν => by rw [hg ν (mem_S.1 hν)]; ring)
  have h2 : |q x - f x| ≤ ∑ ν ∈ S n p.r, |Spec.lagrange p.r (List.ofFn x) (List.ofFn ν)| * e := by
    rw [h1]
    refine (Finset.abs_sum_le_sum_abs _ _).trans (Finset.sum_le_sum (fun ν hν => ?_))
    rw [abs_mul]
    exact mul_le_mul_of_nonneg_left (he ν (mem_S.1 hν)) (abs_nonneg _)
  rw [MI.generateAll_eq_mis, sum_mis, mul_add, mul_one, mul_comm e, Finset.sum_mul]
  calc |g (List.ofFn x) - q x| = |(g (List.ofFn x) - f x) - (q x - f x)| := by congr 1; ring
    _ ≤ _ := (abs_sub _ _).trans (add_le_add hx h2)

/-- **C102** In particular interpolation reproduces polynomials. -/
theorem C102_reproduces {n : Nat} {p s : Obj ℝ} {q f : (Fin n → ℝ) → ℝ} (hp : Represents p n q) (hs : Represents s n f) (hr : s.r = p.r)
    (hg : ∀ μ : Fin n → ℕ, ∑ i, μ i ≤ p.r → q (fun i => (μ i : ℝ) / (p.r : ℝ)) = f (fun i => (μ i : ℝ) / (p.r : ℝ))) : q = f := by
  funext x
  rw [lagrange_value hp x, lagrange_value hs x, hr]
  exact Finset.sum_congr rfl (fun ν hν => by rw [hg ν (mem_S.1 hν)])

/-- A polynomial of one variable as a polynomial of Mathlib. -/
theorem exists_polynomial {p : Obj ℝ} {q : (Fin 1 → ℝ) → ℝ} (hp : Represents p 1 q) :
    ∃ Q : Polynomial ℝ, Q.natDegree ≤ p.r ∧ ∀ x : Fin 1 → ℝ, q x = Q.eval (x 0) := by
  obtain ⟨s, -, hs, hb, hr⟩ := toMonomialBasis_rep hp
  obtain ⟨c, -, hqc, -⟩ := hs.exists_mk
  refine ⟨∑ ν ∈ S 1 p.r, Polynomial.C (c (List.ofFn ν)) * Polynomial.X ^ (ν 0), ?_, fun x => ?_⟩
  · refine Polynomial.natDegree_sum_le_of_forall_le _ _ (fun ν hν => ?_)
    refine (Polynomial.natDegree_C_mul_X_pow_le _ _).trans ?_
    have := mem_S.1 hν
    simpa using this
  · rw [hqc, hb, hr, Polynomial.eval_finsetSum]
    simp only [val, basisFn, smul_eq_mul]
    refine Finset.sum_congr rfl (fun ν _ => ?_)
    rw [Polynomial.eval_mul, Polynomial.eval_C, Polynomial.eval_pow, Polynomial.eval_X, monomial_ofFn]
    simp [mul_comm]

/-- **C102** The error of the interpolation of a smooth function of one variable on the unit interval: `D k` is its derivative of order `k`. -/
theorem C102_error_formula {p : Obj ℝ} {q : (Fin 1 → ℝ) → ℝ} (hp : Represents p 1 q) (hr : 1 ≤ p.r) (D : ℕ → ℝ → ℝ)
    (hD : ∀ k ≤ p.r, ∀ t ∈ Icc (0 : ℝ) 1, HasDerivAt (D k) (D (k + 1) t) t) (hq : ∀ k ≤ p.r, q (fun _ => (k : ℝ) / (p.r : ℝ)) = D 0 ((k : ℝ) / (p.r : ℝ)))
    (x : ℝ) (h0 : 0 ≤ x) (h1 : x ≤ 1) :
    ∃ ξ ∈ Icc (0 : ℝ) 1, D 0 x - q (fun _ => x) = D (p.r + 1) ξ / ((p.r + 1).factorial : ℝ) * ∏ i : Fin (p.r + 1), (x - (i : ℕ) / (p.r : ℝ)) := by
  obtain ⟨Q, hQ, hqQ⟩ := exists_polynomial hp
  have hr0 : (0 : ℝ) < p.r := by exact_mod_cast hr
  rw [hqQ]
  refine Interpolation.error_formula p.r D 0 1 (fun i : Fin (p.r + 1) => (i : ℕ) / (p.r : ℝ)) (fun i j hij => ?_) (fun i => ?_) hD Q hQ (fun i => ?_) x ⟨h0, h1⟩
  · exact Fin.ext (by exact_mod_cast (div_left_inj' hr0.ne').1 hij)
  · exact ⟨by positivity, by rw [div_le_one hr0]; exact_mod_cast Nat.lt_succ_iff.1 i.2⟩
  · rw [← hqQ (fun _ => (i : ℕ) / (p.r : ℝ))]
    exact hq i (Nat.lt_succ_iff.1 i.2)

/-- **C102** A bound of the error: at most `M / (4 (r + 1) r^(r + 1))` if the derivative of order `r + 1` is bounded by `M`. -/
theorem C102_error_bound {p : Obj ℝ} {q : (Fin 1 → ℝ) → ℝ} (hp : Represents p 1 q) (hr : 1 ≤ p.r) (D : ℕ → ℝ → ℝ)
    (hD : ∀ k ≤ p.r, ∀ t ∈ Icc (0 : ℝ) 1, HasDerivAt (D k) (D (k + 1) t) t) (hq : ∀ k ≤ p.r, q (fun _ => (k : ℝ) / (p.r : ℝ)) = D 0 ((k : ℝ) / (p.r : ℝ)))
    (M : ℝ) (hM : ∀ t ∈ Icc (0 : ℝ) 1, |D (p.r + 1) t| ≤ M) (x : ℝ) (h0 : 0 ≤ x) (h1 : x ≤ 1) :
    |D 0 x - q (fun _ => x)| ≤ M / (4 * (p.r + 1) * (p.r : ℝ) ^ (p.r + 1)) := by
  obtain ⟨ξ, hξ, e⟩ := C102_error_formula hp hr D hD hq x h0 h1
  have hr0 : (0 : ℝ) < p.r := by exact_mod_cast hr
  have hM0 : 0 ≤ M := (abs_nonneg _).trans (hM ξ hξ)
  rw [e, abs_mul, abs_div, abs_of_pos (by positivity : (0 : ℝ) < ((p.r + 1).factorial : ℝ))]
  calc _ ≤ M / ((p.r + 1).factorial : ℝ) * ((p.r.factorial : ℝ) / (4 * (p.r : ℝ) ^ (p.r + 1))) :=
        mul_le_mul ((div_le_div_iff_of_pos_right (by positivity)).2 (hM ξ hξ)) (Interpolation.prod_lattice_le p.r hr x h0 h1) (abs_nonneg _) (by positivity)
    _ = _ := by
      rw [Nat.factorial_succ]
      push_cast
      field_simp

/-- **C102** Interpolation on any interval by a polynomial in the Lagrange basis of the interval with end points `a = v 0 0` and `b = v 1 0`, in any order: the
error is at most `M |b - a|^(r + 1) / (4 (r + 1) r^(r + 1))`. -/
theorem C102_error_interval {p : SPoly.SObj ℝ ℝ 1} {v : Vertices ℝ 1 1} {f : (Fin 1 → ℝ) → ℝ} (hp : SPoly.RepresentsOn p v f) (a b : ℝ) (ha : v 0 0 = a)
    (hb : v 1 0 = b) (hab : a ≠ b) (hr : 1 ≤ p.poly.r) (D : ℕ → ℝ → ℝ) (hD : ∀ k ≤ p.poly.r, ∀ t ∈ uIcc a b, HasDerivAt (D k) (D (k + 1) t) t)
    (hq : ∀ k ≤ p.poly.r, f (fun _ => a + (k : ℝ) / (p.poly.r : ℝ) * (b - a)) = D 0 (a + (k : ℝ) / (p.poly.r : ℝ) * (b - a)))
    (M : ℝ) (hM : ∀ t ∈ uIcc a b, |D (p.poly.r + 1) t| ≤ M) (x : ℝ) (hx : x ∈ uIcc a b) :
    |D 0 x - f (fun _ => x)| ≤ M * |b - a| ^ (p.poly.r + 1) / (4 * (p.poly.r + 1) * (p.poly.r : ℝ) ^ (p.poly.r + 1)) := by
  have hba : b - a ≠ 0 := sub_ne_zero.2 hab.symm
  have hd : edgeDet v ≠ 0 := by
    have : edgeDet v = b - a := by
      unfold edgeDet
      rw [Matrix.det_fin_one, Matrix.of_apply, ← ha, ← hb]
      rfl
    rw [this]; exact hba
  have hmap : ∀ u : Fin 1 → ℝ, createAffineMap (SPoly.up v) u = fun _ => a + u 0 * (b - a) := by
    intro u
    funext j
    obtain rfl : j = 0 := Subsingleton.elim _ _
    have : createAffineMap (SPoly.up v) u 0 = (v 1 0 - v 0 0) * u 0 + v 0 0 := by
      simp [createAffineMap, SPoly.up, E, Matrix.mulVec, dotProduct]
    rw [this, ha, hb]; ring
  have hrep := ((SPoly.repOn_iff hd).1 hp).2.2
  simp only [hmap] at hrep
  have hin : ∀ t ∈ Icc (0 : ℝ) 1, a + t * (b - a) ∈ uIcc a b := by
    intro t ht
    rcases le_total a b with h | h
    · rw [uIcc_of_le h]; exact ⟨by nlinarith [ht.1], by nlinarith [ht.2]⟩
    · rw [uIcc_of_ge h]; exact ⟨by nlinarith [ht.2], by nlinarith [ht.1]⟩
  have hτ : (x - a) / (b - a) ∈ Icc (0 : ℝ) 1 := by
    rcases lt_or_gt_of_ne hab with h | h
    · rw [uIcc_of_le h.le] at hx
      exact ⟨div_nonneg (by linarith [hx.1]) (by linarith), by rw [div_le_one (by linarith)]; linarith [hx.2]⟩
    · rw [uIcc_of_ge h.le] at hx
      exact ⟨div_nonneg_of_nonpos (by linarith [hx.2]) (by linarith), by rw [div_le_one_of_neg (by linarith)]; linarith [hx.1]⟩
  have key := C102_error_bound hrep hr (fun k t => (b - a) ^ k * D k (a + t * (b - a)))
    (fun k hk t ht => by
      have h1 : HasDerivAt (fun s => a + s * (b - a)) (b - a) t := FinDiff.hda (((hasDerivAt_id t).mul_const (b - a)).const_add a) (fun _ => rfl) (by simp)
      exact FinDiff.hda (((hD k hk _ (hin t ht)).comp t h1).const_mul ((b - a) ^ k)) (fun _ => rfl) (by rw [pow_succ]; ring))
    (fun k hk => by
      simp only [pow_zero, one_mul]
      exact hq k hk)
    (M * |b - a| ^ (p.poly.r + 1))
    (fun t ht => by
      rw [abs_mul, abs_pow, mul_comm]
      exact mul_le_mul_of_nonneg_right (hM _ (hin t ht)) (by positivity)) ((x - a) / (b - a)) hτ.1 hτ.2
  have hxe : a + (x - a) / (b - a) * (b - a) = x := by rw [div_mul_cancel₀ _ hba]; ring
  simpa only [pow_zero, one_mul, hxe] using key

/-- The cubic interpolant of the exponential function is accurate to one in a thousand and more. -/
example : ∃ p q, Obj.new .lagrange ((generateLagrangePoints ℝ 1 3).map (fun y => Real.exp (y.headD 0))) (some 3) 1 = .ok p ∧ Represents p 1 q ∧
    ∀ x : ℝ, 0 ≤ x → x ≤ 1 → |Real.exp x - q (fun _ => x)| ≤ 1 / 400 := by
  obtain ⟨p, q, h1, h2, h3, h4, h5⟩ := C102_interpolates (K := ℝ) 1 3 (Or.inr (by norm_num)) (fun y => Real.exp (y.headD 0))
  refine ⟨p, q, h1, h4, fun x h0 h1 => ?_⟩
  have hq : ∀ k ≤ p.r, q (fun _ => (k : ℝ) / (p.r : ℝ)) = Real.exp ((k : ℝ) / (p.r : ℝ)) := by
    intro k hk
    rw [h3] at hk ⊢
    have := h5 (fun _ => k) (by simpa using hk)
    simpa using this
  have := C102_error_bound h4 (by rw [h3]; norm_num) (fun _ => Real.exp) (fun _ _ t _ => Real.hasDerivAt_exp t) hq 3
    (fun t ht => by
      rw [abs_of_pos (Real.exp_pos t)]
      exact (Real.exp_le_exp.2 ht.2).trans (Real.exp_one_lt_d9.le.trans (by norm_num))) x h0 h1
  refine this.trans ?_
  rw [h3]
  norm_num

/-- The interval from 5 to 2 and the sine function: a quadratic interpolant that meets the hypotheses of `C102_error_interval` exists, and its error is at
most `27 / 96`. -/
example : ∃ (p : SPoly.SObj ℝ ℝ 1) (f : (Fin 1 → ℝ) → ℝ), SPoly.RepresentsOn p ![![5], ![2]] f ∧
    ∀ x ∈ uIcc (5 : ℝ) 2, |Real.sin x - f (fun _ => x)| ≤ 27 / 96 := by
  obtain ⟨p, q, -, h2, h3, h4, h5⟩ := C102_interpolates (K := ℝ) 1 2 (Or.inr (by norm_num)) (fun y => Real.sin (5 + y.headD 0 * (2 - 5)))
  have hd : edgeDet (![![5], ![2]] : Vertices ℝ 1 1) ≠ 0 := by
    unfold edgeDet
    rw [Matrix.det_fin_one, Matrix.of_apply]
    norm_num
  have hup : ∀ t : ℝ, createAffineMap (SPoly.up (![![5], ![2]] : Vertices ℝ 1 1)) (fun _ => t) = fun _ => 5 + t * (2 - 5) := by
    intro t
    funext j
    obtain rfl : j = 0 := Subsingleton.elim _ _
    simp [createAffineMap, SPoly.up, E, Matrix.mulVec, dotProduct]
    ring
  refine ⟨_, _, SPoly.repOn_mk hd h4, fun x hx => ?_⟩
  have := C102_error_interval (SPoly.repOn_mk hd h4) 5 2 rfl rfl (by norm_num) (by simp only; rw [h3]; norm_num)
    (fun k t => Real.sin (t + k * (Real.pi / 2)))
    (fun k _ t _ => by
      refine FinDiff.hda ((Real.hasDerivAt_sin _).comp t ((hasDerivAt_id t).add_const ((k : ℝ) * (Real.pi / 2)))) (fun _ => rfl) ?_
      push_cast
      rw [add_mul, one_mul, ← add_assoc, Real.sin_add_pi_div_two]
      simp)
    (fun k hk => by
      simp only [h3] at hk ⊢
      rw [← hup, SPoly.down_up _ hd]
      have := h5 (fun _ => k) (by simpa using hk)
      simpa [hup] using this) 1 (fun t _ => Real.abs_sin_le_one _) x hx
  simp only [h3] at this
  norm_num at this ⊢
  exact this

end Verif.Props
