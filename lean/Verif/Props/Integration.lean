import Verif.Lemmas.BaldoniModel
import Verif.Spec.Simplex
/-!
# C50: exact integration over simplices

Integrals are Lebesgue integrals over sets of points (`Verif.Spec.unitSimplex`, `Verif.Spec.simplex`). Floating point numbers are
real numbers here.
-/

namespace Verif.Props
open Verif Verif.Poly Verif.MI Verif.Integration MeasureTheory

variable {V : Type} [NormedAddCommGroup V] [NormedSpace ℝ V]

/-- C50: `integrate_unit_simplex(p)` returns the integral of the function `p` stands for, for every polynomial in any of the three
bases, of any degree, in any dimension, scalar or vector valued. -/
theorem C50_integrate_unit_simplex [CompleteSpace V] {n : ℕ} {p : Obj V} {f : (Fin n → ℝ) → V} (h : Represents p n f) :
    integrateUnitSimplex ℝ p = .ok (∫ x in Spec.unitSimplex n, f x) := by
  obtain ⟨c, hp, hf, _⟩ := h.exists_mk
  rw [hf]
  have := integrateUnitSimplex_mk p.basis n p.r c
  rw [← hp] at this
  exact this

/-- C50: `integrate_polynomial_unit_simplex(r, n, a)` for a plain coefficient array, also for degrees above 19. -/
theorem C50_integrate_monomial [CompleteSpace V] (r n : ℕ) (a : List V) (h : a.length = getDimension r n) :
    integrateMonomialPolynomialUnit ℝ r n a =
      .ok (∫ x in Spec.unitSimplex n, Spec.linComb (Spec.monomial (List.ofFn x)) (MI.generateAll n r) a) := by
  haveI : Inhabited V := ⟨0⟩
  obtain ⟨c, rfl⟩ := exists_tab n r a h
  have := integrateUnitSimplex_mk .monomial n r c
  simp only [integrateUnitSimplex, mkObj] at this
  rw [this]
  simp only [MI.generateAll_eq_mis, linComb_tab]
  rfl

/-- C50: `integrate_bernstein_polynomial_unit_simplex(r, a, n)`. -/
theorem C50_integrate_bernstein [CompleteSpace V] (r n : ℕ) (a : List V) (h : a.length = getDimension r n) :
    integrateBernsteinUnit ℝ r a n =
      .ok (∫ x in Spec.unitSimplex n, Spec.linComb (Spec.bernstein r (List.ofFn x)) (MI.generateAll n r) a) := by
  haveI : Inhabited V := ⟨0⟩
  obtain ⟨c, rfl⟩ := exists_tab n r a h
  have := integrateUnitSimplex_mk .bernstein n r c
  simp only [integrateUnitSimplex, mkObj] at this
  rw [this]
  simp only [MI.generateAll_eq_mis, linComb_tab]
  rfl

/-- C50: `integrate_lagrange_polynomial_unit_simplex(r, a, n)`. -/
theorem C50_integrate_lagrange [CompleteSpace V] (r n : ℕ) (a : List V) (h : a.length = getDimension r n) :
    integrateLagrangeUnit ℝ r a n =
      .ok (∫ x in Spec.unitSimplex n, Spec.linComb (Spec.lagrange r (List.ofFn x)) (MI.generateAll n r) a) := by
  haveI : Inhabited V := ⟨0⟩
  obtain ⟨c, rfl⟩ := exists_tab n r a h
  have := integrateUnitSimplex_mk .lagrange n r c
  simp only [integrateUnitSimplex, mkObj] at this
  rw [this]
  simp only [MI.generateAll_eq_mis, linComb_tab]
  rfl

/-- C50: a coefficient array of the wrong length is rejected by the three functions. -/
theorem C50_wrong_length (r n : ℕ) (a : List V) (h : a.length ≠ getDimension r n) :
    integrateMonomialPolynomialUnit ℝ r n a = .error .assertion ∧ integrateBernsteinUnit ℝ r a n = .error .assertion ∧
      integrateLagrangeUnit ℝ r a n = .error .assertion := by
  simp [integrateMonomialPolynomialUnit, integrateBernsteinUnit, integrateLagrangeUnit, h]

/-- C50: the cached table: every stored list has one entry for each multi-index, and the entries are the integrals of the
monomials. -/
theorem C50_cache (n r : ℕ) (ds : List ℕ) (h : monomialIntegralsCache.lookup (n, r) = some ds) :
    ds.length = (MI.generateAll n r).length ∧
    ∀ i (hi : i < ds.length) (ν : Fin n → ℕ), (MI.generateAll n r)[i]? = some (List.ofFn ν) →
      1 / (ds[i] : ℝ) = ∫ x in Spec.unitSimplex n, ∏ j, x j ^ ν j := by
  have hv := cache_values (K := ℝ) h
  have hl : ds.length = (mis n r).length := by
    have := congrArg List.length hv
    simpa [tab] using this
  refine ⟨by rw [MI.generateAll_eq_mis, hl], fun i hi ν hν => ?_⟩
  rw [MI.generateAll_eq_mis] at hν
  have h1 : (ds.map (fun (d : Nat) => 1 / (d : ℝ)))[i]? = some (1 / (ds[i] : ℝ)) := by
    rw [List.getElem?_map, List.getElem?_eq_getElem hi]; rfl
  rw [hv, tab, List.getElem?_map, hν] at h1
  simp only [Option.map_some, Option.some.injEq] at h1
  rw [← h1, monomialUnit_eq, integral_unit_monomial]
  rfl

/-- C50: `integrate_homogeneous_polynomial_unit_simplex(nu)`. -/
theorem C50_monomial {n : ℕ} (ν : Fin n → ℕ) :
    integrateMonomialUnit ℝ (List.ofFn ν) = ∫ x in Spec.unitSimplex n, ∏ i, x i ^ ν i := by
  rw [monomialUnit_eq, integral_unit_monomial]; rfl

/-- C50: `integrate_bernstein_basis_fn_unit_simplex(r, n)`: the integral does not depend on the multi-index. -/
theorem C50_bernstein_basis_fn {n : ℕ} (r : ℕ) (ν : Fin n → ℕ) (h : ∑ i, ν i ≤ r) :
    integrateBernsteinBasisFnUnit ℝ r n = ∫ x in Spec.unitSimplex n, Spec.bernstein r (List.ofFn x) (List.ofFn ν) := by
  rw [bernsteinUnit_eq, integral_unit_bernstein r ν h]

/-- C50: `l2_inner_product_unit(p1, p2)` is the integral of the product. -/
theorem C50_l2_inner_product {n : ℕ} {p q : Obj ℝ} {f g : (Fin n → ℝ) → ℝ} (hp : Represents p n f) (hq : Represents q n g)
    (hbp : p.basis = .monomial) (hbq : q.basis = .monomial) (hfit : Fits (p.r + q.r) n) :
    l2InnerProductUnit p q = .ok (∫ x in Spec.unitSimplex n, f x * g x) := by
  obtain ⟨s, hs, hr, hb, _⟩ := mul_rep hp hq (Or.inr (by rw [hbp, hbq])) hfit
  have := C50_integrate_unit_simplex hr
  simp only [integrateUnitSimplex, hb, hbp] at this
  unfold l2InnerProductUnit
  rw [hs]
  exact this

/-- C50: `l2_norm2_unit(p)` is the integral of the square. -/
theorem C50_l2_norm {n : ℕ} {p : Obj ℝ} {f : (Fin n → ℝ) → ℝ} (hp : Represents p n f) (hbp : p.basis = .monomial) (hfit : Fits (p.r + p.r) n) :
    l2Norm2Unit p = .ok (∫ x in Spec.unitSimplex n, f x ^ 2) := by
  unfold l2Norm2Unit
  rw [C50_l2_inner_product hp hp hbp hbp hfit]
  simp only [sq]

/-- C50: `integrate_homogeneous_polynomial_simplex(nu, vertices)` returns the integral of `x^ν` over the simplex, for every simplex
of full dimension, of either orientation, degenerate or not. -/
theorem C50_monomial_simplex {n : ℕ} (ν : Fin n → ℕ) (v : Fin (n + 1) → Fin n → ℝ) :
    integrateMonomialSimplex (List.ofFn ν) v = .ok (∫ x in Spec.simplex v, ∏ i, x i ^ ν i) :=
  integrateMonomialSimplex_eq ν v

/-- C50: `integrate_polynomial_simplex(r, a, vertices)`. -/
theorem C50_integrate_polynomial_simplex [CompleteSpace V] {n : ℕ} (r : ℕ) (a : List V) (h : a.length = getDimension r n)
    (v : Fin (n + 1) → Fin n → ℝ) :
    integrateMonomialPolynomialSimplex r a v =
      .ok (∫ x in Spec.simplex v, Spec.linComb (Spec.monomial (List.ofFn x)) (MI.generateAll n r) a) := by
  haveI : Inhabited V := ⟨0⟩
  obtain ⟨c, rfl⟩ := exists_tab n r a h
  rw [integrateMonomialPolynomialSimplex_tab]
  simp only [MI.generateAll_eq_mis, linComb_tab]
  rfl

/-- C50: `l2_inner_product_simplex(p1, p2, vertices)` is the integral of the product over the simplex. -/
theorem C50_l2_inner_product_simplex {n : ℕ} {p q : Obj ℝ} {f g : (Fin n → ℝ) → ℝ} (hp : Represents p n f)
    (hq : Represents q n g) (hbp : p.basis = .monomial) (hbq : q.basis = .monomial) (hfit : Fits (p.r + q.r) n)
    (v : Fin (n + 1) → Fin n → ℝ) : l2InnerProductSimplex p q v = .ok (∫ x in Spec.simplex v, f x * g x) := by
  obtain ⟨s, hs, hr, hb, _⟩ := mul_rep hp hq (Or.inr (by rw [hbp, hbq])) hfit
  obtain ⟨c, hc, hf, _⟩ := hr.exists_mk
  have := integrateMonomialPolynomialSimplex_tab s.r c v
  rw [hb, hbp] at hf
  unfold l2InnerProductSimplex
  rw [hs]
  simp only [Py.bind_ok]
  rw [congrArg Obj.coeff hc]
  simp only [mkObj]
  rw [this, ← hf]

/-- C50: `l2_norm2_simplex(p, vertices)` is the integral of the square over the simplex. -/
theorem C50_l2_norm_simplex {n : ℕ} {p : Obj ℝ} {f : (Fin n → ℝ) → ℝ} (hp : Represents p n f) (hbp : p.basis = .monomial) (hfit : Fits (p.r + p.r) n)
    (v : Fin (n + 1) → Fin n → ℝ) : l2Norm2Simplex p v = .ok (∫ x in Spec.simplex v, f x ^ 2) := by
  unfold l2Norm2Simplex
  rw [C50_l2_inner_product_simplex hp hp hbp hbp hfit]
  simp only [sq]

/-- C50: `integrate_simplex(p)` for a polynomial on a simplex given in the barycentric Bernstein or Lagrange basis of the simplex:
if `g(Φ(u)) = f(u)`, where `f` is the function of the coefficients on the unit simplex and `Φ` the affine map to the simplex, the
result is the integral of `g` over the simplex. This holds for positively oriented simplices. -/
theorem C50_integrate_simplex [CompleteSpace V] {n : ℕ} {p : Obj V} {f g : (Fin n → ℝ) → V} (h : Represents p n f)
    (hb : p.basis ≠ .monomial) (v : Fin (n + 1) → Fin n → ℝ) (hg : ∀ u, g (Spec.fromUnit v u) = f u) (hd : 0 < Spec.edgeDet v) :
    integrateSimplex p v = .ok (∫ x in Spec.simplex v, g x) := by
  obtain ⟨c, hp, hf, _⟩ := h.exists_mk
  have h1 := integrateSimplex_mk p.basis hb n p.r c v hd
  rw [← hp] at h1
  rw [h1, integral_simplex v hd.ne', abs_of_pos (show 0 < (edges v).det from hd)]
  simp only [hg, hf]

/-- C50: a negatively oriented (or degenerate) simplex is rejected. -/
theorem C50_negative_orientation {n : ℕ} {p : Obj V} {f : (Fin n → ℝ) → V} (h : Represents p n f) (hb : p.basis ≠ .monomial)
    (v : Fin (n + 1) → Fin n → ℝ) (hd : Spec.edgeDet v ≤ 0) : integrateSimplex p v = .error .assertion := by
  have hd' : ¬ 0 < (edges v).det := not_lt.2 hd
  obtain ⟨c, hp, hf, _⟩ := h.exists_mk
  rw [hp]
  cases hbb : p.basis with
  | monomial => exact absurd hbb hb
  | bernstein =>
    simp only [integrateSimplex, mkObj, integrateBernsteinSimplex, integrateBernsteinBasisFnSimplex, positiveDet_eq, if_neg hd']
    simp only [length_tab, decide_true, pyAssert_true, Py.bind_ok]
    rfl
  | lagrange =>
    simp only [integrateSimplex, mkObj, integrateLagrangeSimplex, integrateLagrangeBasisFnSimplex, positiveDet_eq, if_neg hd']
    simp only [length_tab, decide_true, pyAssert_true, Py.bind_ok, MI.generateAll_eq_mis]
    cases hm : (mis n p.r).zipIdx with
    | nil =>
      have := congrArg List.length hm
      rw [List.length_zipIdx, MI.count_mis] at this
      exact absurd this (Nat.choose_pos (by omega)).ne'
    | cons e l =>
      obtain ⟨h1, h2, h3⟩ := mem_zipIdx_mis (m := n) (r := p.r) (e := e) (by rw [hm]; simp)
      simp only [sumLoop]
      rw [getE_tab c h1, lagrangeBasisFnUnit_eq p.r n e.1 h2 h3]
      rfl

/-- C50: polynomials in the monomial basis are rejected by `integrate_simplex`. -/
theorem C50_integrate_simplex_monomial {n : ℕ} (p : Obj V) (hb : p.basis = .monomial) (v : Fin (n + 1) → Fin n → ℝ) :
    integrateSimplex p v = .error .type := by
  simp [integrateSimplex, hb]

/-- The integral of `x y` over the unit triangle is 1/24. -/
example : ∫ x in Spec.unitSimplex 2, x 0 * x 1 = 1 / 24 := by
  have := integral_unit_monomial ![1, 1]
  simp only [Fin.prod_univ_two, Fin.sum_univ_two] at this
  norm_num [Nat.factorial] at this ⊢
  exact this

/-- A polynomial and a positively oriented triangle that satisfy the hypotheses. -/
example : Represents (⟨.bernstein, [1, 2, 3], 1, 2⟩ : Obj ℝ) 2 (val (K := ℝ) .bernstein 2 1 (fun ν => if ν = [0, 0] then 1 else if ν = [1, 0] then 2 else 3)) ∧
    0 < Spec.edgeDet (![![0, 0], ![3, 1], ![1, 2]] : Fin 3 → Fin 2 → ℝ) := by
  constructor
  · exact rep_mk .bernstein 2 1 (fun ν => if ν = [0, 0] then (1 : ℝ) else if ν = [1, 0] then 2 else 3) (Or.inr (by norm_num))
  · simp [Spec.edgeDet, Matrix.det_fin_two]
    norm_num

end Verif.Props
