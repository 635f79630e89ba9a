import Verif.Lemmas.SimplexIntegral
import Verif.Lemmas.PolyRepPow
import Verif.Model.Integration
import Mathlib.MeasureTheory.Function.Jacobian
/-!
# The integration functions compute integrals
-/

namespace Verif.Integration
open Verif Verif.Poly Verif.MI MeasureTheory

section Algebra
variable {K V : Type} [Field K] [DecidableEq K] [CharZero K] [AddCommGroup V] [Module K V]

/-- The value of the integral of `x^ν`. -/
def mint (K : Type) [Field K] {n : ℕ} (ν : Fin n → ℕ) : K :=
  ((∏ i, (ν i).factorial : ℕ) : K) / ((∑ i, ν i + n).factorial : K)

omit [DecidableEq K] in
theorem bernsteinUnit_eq (r n : Nat) : integrateBernsteinBasisFnUnit K r n = (r.factorial : K) / ((r + n).factorial : K) := by
  unfold integrateBernsteinBasisFnUnit
  have h : r.factorial * (List.range' 1 n).foldl (fun denom i => denom * (r + i)) 1 = (r + n).factorial := by
    induction n with
    | zero => simp
    | succ n ih =>
      rw [List.range'_1_concat, List.foldl_append, List.foldl_cons, List.foldl_nil, ← mul_assoc, ih,
        show r + (n + 1) = (r + n) + 1 by omega, Nat.factorial_succ, Nat.mul_comm]
      congr 1; omega
  have h0 : (r.factorial : K) ≠ 0 := Nat.cast_ne_zero.2 (Nat.factorial_ne_zero r)
  rw [← h, Nat.cast_mul]
  rw [div_mul_eq_div_div, div_self h0]

omit [DecidableEq K] in
theorem monomialUnit_eq {n : ℕ} (ν : Fin n → ℕ) : integrateMonomialUnit K (List.ofFn ν) = mint K ν := by
  unfold integrateMonomialUnit mint
  rw [bernsteinUnit_eq, MI.multinom, factorial_eq_prod, show MI.norm (List.ofFn ν) = ∑ i, ν i by
    rw [MI.norm, List.sum_ofFn], List.map_ofFn, List.prod_ofFn, List.length_ofFn]
  have h0 : ((∑ i, ν i).factorial : K) ≠ 0 := Nat.cast_ne_zero.2 (Nat.factorial_ne_zero _)
  have h1 : ((∑ i, ν i + n).factorial : K) ≠ 0 := Nat.cast_ne_zero.2 (Nat.factorial_ne_zero _)
  simp only [Function.comp_apply]
  have h2 : ((∏ i, (ν i).factorial : ℕ) : K) ≠ 0 :=
    Nat.cast_ne_zero.2 (Finset.prod_ne_zero_iff.2 fun i _ => Nat.factorial_ne_zero _)
  rw [Rat.cast_div, Rat.cast_natCast, Rat.cast_natCast]
  field_simp

/-- Every entry of the cached table satisfies `d * ν! = (|ν| + n)!`. -/
def checkEntry (e : (Nat × Nat) × List Nat) : Bool :=
  (e.2.length == (mis e.1.1 e.1.2).length) &&
    ((mis e.1.1 e.1.2).zip e.2).all (fun x => x.2 * (x.1.map Nat.factorial).prod == (x.1.sum + e.1.1).factorial)

theorem cache_checked : monomialIntegralsCache.all checkEntry = true := by decide +kernel

theorem lookup_mem {α β : Type} [BEq α] [LawfulBEq α] {l : List (α × β)} {a : α} {b : β} (h : l.lookup a = some b) : (a, b) ∈ l := by
  induction l with
  | nil => simp at h
  | cons x l ih =>
    obtain ⟨y, c⟩ := x
    rw [List.lookup_cons] at h
    by_cases hy : a == y
    · simp only [hy] at h
      rw [eq_of_beq hy]; simp at h; simp [h]
    · simp only [hy] at h
      exact List.mem_cons_of_mem _ (ih h)

omit [DecidableEq K] in
theorem cache_values {n r : Nat} {ds : List Nat} (h : monomialIntegralsCache.lookup (n, r) = some ds) :
    ds.map (fun (d : Nat) => 1 / (d : K)) = tab n r (fun ν => integrateMonomialUnit K ν) := by
  have h1 := List.all_eq_true.1 cache_checked _ (lookup_mem h)
  simp only [checkEntry, Bool.and_eq_true, beq_iff_eq] at h1
  obtain ⟨hl, ha⟩ := h1
  unfold tab
  apply List.ext_getElem
  · simp [hl]
  · intro i hi1 hi2
    simp only [List.getElem_map]
    have hi3 : i < (mis n r).length := by simpa using hi2
    have hi4 : i < ds.length := by simpa using hi1
    have hmem : ((mis n r)[i], ds[i]) ∈ (mis n r).zip ds := by
      rw [List.mem_iff_getElem]
      exact ⟨i, by simp [hi3, hi4], by simp⟩
    have := List.all_eq_true.1 ha _ hmem
    simp only [beq_iff_eq] at this
    obtain ⟨hlen, hsum⟩ := mem_mis.1 (List.getElem_mem hi3)
    obtain ⟨ν, hν⟩ := eq_ofFn hlen
    rw [hν] at this ⊢
    rw [monomialUnit_eq, mint]
    rw [List.map_ofFn, List.prod_ofFn, List.sum_ofFn] at this
    have h2 : ((∏ i, (ν i).factorial : ℕ) : K) ≠ 0 :=
      Nat.cast_ne_zero.2 (Finset.prod_ne_zero_iff.2 fun i _ => Nat.factorial_ne_zero _)
    rw [← this, Nat.cast_mul]
    simp only [Function.comp_apply]
    rw [mul_comm, div_mul_eq_div_div, div_self h2]

theorem pySum_eq {W : Type} [AddCommGroup W] (a : List W) : pySum a = a.sum := by
  unfold pySum
  rw [List.sum_eq_foldl]

omit [DecidableEq K] in
theorem monomialPolynomialUnit_eq (r n : Nat) (c : List Nat → V) :
    integrateMonomialPolynomialUnit K r n (tab n r c) = .ok (∑ ν ∈ S n r, mint K ν • c (List.ofFn ν)) := by
  unfold integrateMonomialPolynomialUnit
  simp only [length_tab, decide_true, pyAssert_true, Py.bind_ok]
  have hsum : ∑ ν ∈ S n r, mint K ν • c (List.ofFn ν) = ((mis n r).map (fun ν => integrateMonomialUnit K ν • c ν)).sum := by
    rw [sum_mis]
    exact Finset.sum_congr rfl (fun ν _ => by rw [monomialUnit_eq])
  rw [hsum]
  cases hc : monomialIntegralsCache.lookup (n, r) with
  | some ds =>
    simp only [Py.pure_eq]
    have hv := cache_values (K := K) hc
    rw [pySum_eq]
    have : ((tab n r c).zip ds).map (fun e => (1 / (e.2 : K)) • e.1) =
        ((tab n r c).zip (ds.map (fun (d : Nat) => 1 / (d : K)))).map (fun e => e.2 • e.1) := by
      rw [List.zip_map_right, List.map_map]; rfl
    rw [this, hv]
    unfold tab
    rw [List.zip_map', List.map_map]
    rfl
  | none =>
    simp only [generateAll_eq_mis]
    rw [sumLoop_eq _ (fun e => integrateMonomialUnit K e.1 • c e.1)]
    · rw [sum_zipIdx_map (mis n r) (fun ν => integrateMonomialUnit K ν • c ν), zero_add]
    · intro e he
      obtain ⟨h1, _, _⟩ := mem_zipIdx_mis he
      right
      rw [getE_tab c h1]; rfl

omit [DecidableEq K] in
theorem bernsteinPolynomialUnit_eq (r n : Nat) (c : List Nat → V) :
    integrateBernsteinUnit K r (tab n r c) n =
      .ok (∑ ν ∈ S n r, ((r.factorial : K) / ((r + n).factorial : K)) • c (List.ofFn ν)) := by
  unfold integrateBernsteinUnit
  simp only [length_tab, decide_true, pyAssert_true, Py.bind_ok, Py.pure_eq]
  rw [pySum_eq, bernsteinUnit_eq]
  unfold tab
  rw [sum_mis, Finset.smul_sum]

theorem lagrangeBasisFnUnit_eq (r n : Nat) (ν : List Nat) (hl : ν.length = n) (hs : ν.sum ≤ r) :
    integrateLagrangeBasisFnUnit K ν r = .ok (∑ τ ∈ S n r, mint K τ * lagCoeff K n r ν (List.ofFn τ)) := by
  unfold integrateLagrangeBasisFnUnit
  rw [getLagrangeBasisFnCoefficients_eq ν r hs, hl]
  simp only [Py.bind_ok]
  rw [monomialPolynomialUnit_eq]
  rfl

theorem lagrangePolynomialUnit_eq (r n : Nat) (c : List Nat → V) :
    integrateLagrangeUnit K r (tab n r c) n =
      .ok (∑ ν ∈ S n r, (∑ τ ∈ S n r, mint K τ * lagCoeff K n r (List.ofFn ν) (List.ofFn τ)) • c (List.ofFn ν)) := by
  unfold integrateLagrangeUnit
  simp only [length_tab, decide_true, pyAssert_true, Py.bind_ok, generateAll_eq_mis]
  rw [sumLoop_eq _ (fun e => (∑ τ ∈ S n r, mint K τ * lagCoeff K n r e.1 (List.ofFn τ)) • c e.1)]
  · rw [sum_zipIdx_map (mis n r) (fun ν => (∑ τ ∈ S n r, mint K τ * lagCoeff K n r ν (List.ofFn τ)) • c ν), zero_add, sum_mis]
  · intro e he
    obtain ⟨h1, h2, h3⟩ := mem_zipIdx_mis he
    right
    rw [getE_tab c h1, lagrangeBasisFnUnit_eq r n e.1 h2 h3]; rfl

end Algebra

section Real
variable {V : Type} [NormedAddCommGroup V] [NormedSpace ℝ V]

theorem measurableSet_unit (n : ℕ) : MeasurableSet (Spec.unitSimplex n) := by
  rw [← T_one]; exact (isClosed_T n 1).measurableSet

theorem isCompact_unit (n : ℕ) : IsCompact (Spec.unitSimplex n) := by
  rw [← T_one]; exact isCompact_T n 1

theorem integral_unit_bernstein {n : ℕ} (r : ℕ) (ν : Fin n → ℕ) (h : ∑ i, ν i ≤ r) :
    ∫ x in Spec.unitSimplex n, Spec.bernstein r (List.ofFn x) (List.ofFn ν) = (r.factorial : ℝ) / ((r + n).factorial : ℝ) := by
  simp only [bernstein_ofFn]
  rw [integral_const_mul]
  have := integral_T_bary n (r - ∑ i, ν i) 1 zero_le_one ν
  rw [T_one] at this
  rw [this, one_pow, one_mul]
  have h1 := multinomial_mul r (List.ofFn ν) (by rw [List.sum_ofFn]; exact h)
  rw [List.sum_ofFn, List.map_ofFn, List.prod_ofFn] at h1
  rw [show ∑ i, ν i + (r - ∑ i, ν i) + n = r + n by omega, ← h1]
  simp only [Function.comp_apply]
  push_cast
  ring

omit [NormedSpace ℝ V] in
theorem _root_.Verif.Poly.IsPoly.continuous [NormedSpace ℝ V] {m r : ℕ} {g : (Fin m → ℝ) → V} (h : IsPoly (K := ℝ) m r g) : Continuous g := by
  obtain ⟨c, hc⟩ := h
  rw [show g = fun x => ∑ ν ∈ S m r, (∏ i, x i ^ ν i) • c (List.ofFn ν) from funext hc]
  exact continuous_finsetSum _ (fun ν _ => by fun_prop)

theorem integrable_unit {m : ℕ} {g : (Fin m → ℝ) → V} (h : Continuous g) : IntegrableOn g (Spec.unitSimplex m) :=
  h.continuousOn.integrableOn_compact (isCompact_unit m)

/-- The integral of a polynomial in terms of its monomial coefficients. -/
theorem integral_unit_poly [CompleteSpace V] (n r : ℕ) (c : (Fin n → ℕ) → V) :
    ∫ x in Spec.unitSimplex n, ∑ ν ∈ S n r, (∏ i, x i ^ ν i) • c ν = ∑ ν ∈ S n r, mint ℝ ν • c ν := by
  rw [integral_finset_sum]
  · refine Finset.sum_congr rfl (fun ν _ => ?_)
    rw [integral_smul_const, integral_unit_monomial]
    rfl
  · intro ν _
    exact integrable_unit (by fun_prop)

theorem integral_unit_lagrange {n : ℕ} (r : ℕ) (ν : Fin n → ℕ) (h : ∑ i, ν i ≤ r) :
    ∫ x in Spec.unitSimplex n, Spec.lagrange r (List.ofFn x) (List.ofFn ν) =
      ∑ τ ∈ S n r, mint ℝ τ * lagCoeff ℝ n r (List.ofFn ν) (List.ofFn τ) := by
  simp only [fun x : Fin n → ℝ => lagCoeff_spec (ν := List.ofFn ν) (r := r) (List.length_ofFn) (by rwa [List.sum_ofFn]) x]
  rw [integral_unit_poly n r (fun τ => lagCoeff ℝ n r (List.ofFn ν) (List.ofFn τ))]
  rfl

theorem integral_val [CompleteSpace V] (b : Basis) (n r : ℕ) (c : List Nat → V) :
    ∫ x in Spec.unitSimplex n, val b n r c x =
      ∑ ν ∈ S n r, (∫ x in Spec.unitSimplex n, basisFn b r (List.ofFn x) (List.ofFn ν)) • c (List.ofFn ν) := by
  unfold val
  rw [integral_finset_sum]
  · exact Finset.sum_congr rfl (fun ν _ => integral_smul_const _ _)
  · intro ν hν
    exact integrable_unit ((basisFn_isPoly b r ν hν).continuous.smul continuous_const)

/-- The three unit simplex integration functions compute the integral. -/
theorem integrateUnitSimplex_mk [CompleteSpace V] (b : Basis) (n r : ℕ) (c : List Nat → V) :
    integrateUnitSimplex ℝ (mkObj b n r c) = .ok (∫ x in Spec.unitSimplex n, val b n r c x) := by
  rw [integral_val]
  cases b
  · simp only [integrateUnitSimplex, mkObj]
    rw [monomialPolynomialUnit_eq]
    congr 1
    refine Finset.sum_congr rfl (fun ν _ => ?_)
    simp only [basisFn, monomial_ofFn, integral_unit_monomial]
    rfl
  · simp only [integrateUnitSimplex, mkObj]
    rw [bernsteinPolynomialUnit_eq]
    congr 1
    refine Finset.sum_congr rfl (fun ν hν => ?_)
    simp only [basisFn]
    rw [integral_unit_bernstein r ν (mem_S.1 hν)]
  · simp only [integrateUnitSimplex, mkObj]
    rw [lagrangePolynomialUnit_eq]
    congr 1
    refine Finset.sum_congr rfl (fun ν hν => ?_)
    simp only [basisFn]
    rw [integral_unit_lagrange r ν (mem_S.1 hν)]

/-! ## Change of variables -/

/-- The matrix of edge vectors. -/
def edges {n : ℕ} (v : Fin (n + 1) → Fin n → ℝ) : Matrix (Fin n) (Fin n) ℝ := Matrix.of fun j i => v i.succ j - v 0 j

theorem fromUnit_eq {n : ℕ} (v : Fin (n + 1) → Fin n → ℝ) (u : Fin n → ℝ) :
    Spec.fromUnit v u = (edges v).mulVec u + v 0 := by
  funext j
  simp only [Spec.fromUnit, Pi.add_apply, Finset.sum_apply, Pi.smul_apply, Pi.sub_apply, smul_eq_mul, Matrix.mulVec, dotProduct, edges,
    Matrix.of_apply]
  rw [add_comm]
  congr 1
  exact Finset.sum_congr rfl (fun i _ => mul_comm _ _)

theorem simplex_eq_image {k n : ℕ} (v : Fin (k + 1) → Fin n → ℝ) : Spec.simplex v = Spec.fromUnit v '' Spec.unitSimplex k := by
  ext x
  constructor
  · rintro ⟨w, h0, h1, rfl⟩
    rw [Fin.sum_univ_succ] at h1
    refine ⟨fun i => w i.succ, ⟨fun i => h0 _, by linarith [h0 0]⟩, ?_⟩
    rw [Spec.fromUnit, Fin.sum_univ_succ]
    simp only [smul_sub, Finset.sum_sub_distrib, ← Finset.sum_smul]
    rw [show w 0 = 1 - ∑ i : Fin k, w i.succ by linarith, sub_smul, one_smul]
    abel
  · rintro ⟨u, ⟨h0, h1⟩, rfl⟩
    refine ⟨Fin.cons (1 - ∑ i, u i) u, ?_, ?_, ?_⟩
    · intro i
      refine Fin.cases ?_ (fun i => ?_) i
      · simpa using h1
      · simpa using h0 i
    · rw [Fin.sum_univ_succ]; simp
    · rw [Spec.fromUnit, Fin.sum_univ_succ]
      simp only [Fin.cons_zero, Fin.cons_succ, smul_sub, Finset.sum_sub_distrib, ← Finset.sum_smul, sub_smul, one_smul]
      abel

/-- The integral over a simplex of full dimension. -/
theorem integral_simplex {n : ℕ} (v : Fin (n + 1) → Fin n → ℝ) (hd : (edges v).det ≠ 0) (g : (Fin n → ℝ) → V) :
    ∫ x in Spec.simplex v, g x = |(edges v).det| • ∫ u in Spec.unitSimplex n, g (Spec.fromUnit v u) := by
  rw [simplex_eq_image, integral_image_eq_integral_abs_det_fderiv_smul (f' := fun _ => (Matrix.toLin' (edges v)).toContinuousLinearMap)]
  · rw [← integral_smul]
    congr 1
    funext u
    congr 2
    rw [ContinuousLinearMap.det, LinearMap.coe_toContinuousLinearMap, LinearMap.det_toLin']
  · exact measurableSet_unit n
  · intro u _
    apply HasFDerivAt.hasFDerivWithinAt
    rw [show Spec.fromUnit v = fun u => (Matrix.toLin' (edges v)).toContinuousLinearMap u + v 0 from funext fun u => by
      rw [fromUnit_eq]; rfl]
    exact ((Matrix.toLin' (edges v)).toContinuousLinearMap.hasFDerivAt).add_const _
  · intro a _ b _ hab
    rw [fromUnit_eq, fromUnit_eq] at hab
    have := add_right_cancel hab
    exact Matrix.mulVec_injective_of_isUnit ((Matrix.isUnit_iff_isUnit_det _).2 (isUnit_iff_ne_zero.2 hd)) this

theorem positiveDet_eq {n : ℕ} (v : Fin (n + 1) → Fin n → ℝ) :
    positiveDet v = if 0 < (edges v).det then .ok (edges v).det else .error .assertion := by
  unfold positiveDet Simplex.affineFromUnit
  simp only [le_refl, decide_true, pyAssert_true, Py.bind_ok, Py.pure_eq]
  by_cases h : 0 < (edges v).det
  · rw [if_pos h]
    have h' : decide ((Matrix.of fun (j i : Fin n) => v i.succ j - v 0 j).det > 0) = true := decide_eq_true h
    simp only [h', pyAssert_true, Py.bind_ok]
    rfl
  · rw [if_neg h]
    have h' : decide ((Matrix.of fun (j i : Fin n) => v i.succ j - v 0 j).det > 0) = false := decide_eq_false h
    simp only [h']
    rfl

theorem integrateSimplex_mk [CompleteSpace V] (b : Basis) (hb : b ≠ .monomial) (n r : ℕ) (c : List Nat → V)
    (v : Fin (n + 1) → Fin n → ℝ) (hd : 0 < (edges v).det) :
    integrateSimplex (mkObj b n r c) v = .ok ((edges v).det • ∫ x in Spec.unitSimplex n, val b n r c x) := by
  rw [integral_val]
  cases b
  · exact absurd rfl hb
  · simp only [integrateSimplex, mkObj, integrateBernsteinSimplex, integrateBernsteinBasisFnSimplex, positiveDet_eq, if_pos hd]
    simp only [length_tab, decide_true, pyAssert_true, Py.bind_ok, Py.pure_eq]
    rw [pySum_eq, bernsteinUnit_eq]
    unfold tab
    rw [sum_mis, mul_smul, Finset.smul_sum]
    congr 2
    refine Finset.sum_congr rfl (fun ν hν => ?_)
    simp only [basisFn]
    rw [integral_unit_bernstein r ν (mem_S.1 hν)]
  · simp only [integrateSimplex, mkObj, integrateLagrangeSimplex]
    simp only [length_tab, decide_true, pyAssert_true, Py.bind_ok, generateAll_eq_mis]
    rw [sumLoop_eq _ (fun e => ((edges v).det * ∑ τ ∈ S n r, mint ℝ τ * lagCoeff ℝ n r e.1 (List.ofFn τ)) • c e.1)]
    · rw [sum_zipIdx_map (mis n r) (fun ν => ((edges v).det * ∑ τ ∈ S n r, mint ℝ τ * lagCoeff ℝ n r ν (List.ofFn τ)) • c ν),
        zero_add, sum_mis, Finset.smul_sum]
      congr 1
      refine Finset.sum_congr rfl (fun ν hν => ?_)
      simp only [basisFn]
      rw [integral_unit_lagrange r ν (mem_S.1 hν), mul_smul]
    · intro e he
      obtain ⟨h1, h2, h3⟩ := mem_zipIdx_mis he
      right
      simp only [integrateLagrangeBasisFnSimplex, positiveDet_eq, if_pos hd]
      rw [getE_tab c h1, lagrangeBasisFnUnit_eq r n e.1 h2 h3]; rfl

end Real

end Verif.Integration
