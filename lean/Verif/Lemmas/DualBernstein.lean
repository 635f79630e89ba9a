import Verif.Lemmas.DualBernstein1
import Verif.Lemmas.DualMonomial
import Verif.Lemmas.Integration
import Verif.Lemmas.SimplexPolynomialOps
import Mathlib.MeasureTheory.Measure.OpenPos
import Mathlib.LinearAlgebra.Matrix.ToLinearEquiv
/-!
# The dual Bernstein basis
-/

namespace Verif.Poly
open Verif Verif.MI Verif.Spec Verif.Integration MeasureTheory

/-! ## A polynomial with square integral zero vanishes -/

/-- The interior of the unit simplex. -/
def interior (m : Nat) : Set (Fin m → ℝ) := {x | (∀ i, 0 < x i) ∧ ∑ i, x i < 1}

theorem isOpen_interior (m : Nat) : IsOpen (interior m) := by
  have h1 : IsOpen {x : Fin m → ℝ | ∀ i, 0 < x i} := by
    rw [show {x : Fin m → ℝ | ∀ i, 0 < x i} = ⋂ i, {x | 0 < x i} by ext; simp]
    exact isOpen_iInter_of_finite (fun i => isOpen_lt continuous_const (continuous_apply i))
  have h2 : Continuous fun x : Fin m → ℝ => ∑ i, x i := by fun_prop
  exact h1.inter (isOpen_lt h2 continuous_const)

theorem interior_subset (m : Nat) : interior m ⊆ Spec.unitSimplex m := fun _ h => ⟨fun i => (h.1 i).le, h.2.le⟩

theorem poly_zero_of_interior {m r : Nat} {g : (Fin m → ℝ) → ℝ} (hg : IsPoly (K := ℝ) m r g) (h : ∀ x ∈ interior m, g x = 0) (y : Fin m → ℝ) :
    g y = 0 := by
  set a : ℝ := 1 / (2 * (m + 1)) with ha
  have hm : (0 : ℝ) < 2 * ((m : ℝ) + 1) := by positivity
  have ha0 : 0 < a := by positivity
  have hp := SPoly.isPoly_comp hg ((Matrix.diagonal fun _ => a, fun _ => a) : Simplex.Affine ℝ m m)
  have e : ∀ x : Fin m → ℝ, Simplex.createAffineMap ((Matrix.diagonal fun _ => a, fun _ => a) : Simplex.Affine ℝ m m) x =
      fun i => a * (x i + 1) := by
    intro x; funext i
    simp [Simplex.createAffineMap, Matrix.mulVec_diagonal]; ring
  simp only [e] at hp
  have hz : ∀ x : Fin m → ℝ, g (fun i => a * (x i + 1)) = 0 := by
    intro x
    rw [interpolation hp x]
    refine Finset.sum_eq_zero (fun μ hμ => ?_)
    rw [h, smul_zero]
    refine ⟨fun i => ?_, ?_⟩
    · have : 0 ≤ lpt ℝ r μ i := by unfold lpt; positivity
      positivity
    · have h1 : ∑ i, lpt ℝ r μ i ≤ 1 := by
        unfold lpt
        rw [← Finset.sum_div, ← Nat.cast_sum]
        rcases Nat.eq_zero_or_pos r with h0 | h0
        · subst h0; simp
        · rw [div_le_one (by positivity)]; exact_mod_cast mem_S.1 hμ
      rw [← Finset.mul_sum, Finset.sum_add_distrib]
      simp only [Finset.sum_const, Finset.card_univ, Fintype.card_fin, nsmul_eq_mul, mul_one]
      have h2 : a * (2 * (m + 1)) = 1 := by rw [ha]; field_simp
      nlinarith
  have := hz (fun i => y i / a - 1)
  have e2 : (fun i => a * (y i / a - 1 + 1)) = y := by funext i; field_simp; ring
  rwa [e2] at this

theorem poly_zero_of_integral {m r : Nat} {g : (Fin m → ℝ) → ℝ} (hg : IsPoly (K := ℝ) m r g)
    (h : ∫ x in Spec.unitSimplex m, g x * g x = 0) (y : Fin m → ℝ) : g y = 0 := by
  have hc := hg.continuous
  have h1 := (setIntegral_eq_zero_iff_of_nonneg_ae (Filter.Eventually.of_forall fun x => mul_self_nonneg (g x))
    (integrable_unit (hc.mul hc))).1 h
  have h2 : (fun x => g x * g x) =ᵐ[volume.restrict (interior m)] fun _ => 0 :=
    ae_mono (Measure.restrict_mono (interior_subset m) le_rfl) h1
  have h3 := Measure.eqOn_open_of_ae_eq h2 (isOpen_interior m) (hc.mul hc).continuousOn continuousOn_const
  exact poly_zero_of_interior hg (fun x hx => mul_self_eq_zero.1 (h3 hx)) y

/-! ## The Gram matrix -/

/-- `∫ B_ν B_μ`. -/
noncomputable def gramVal (r m : Nat) (ν μ : List Nat) : ℝ :=
  (multinomial r ν : ℝ) * (multinomial r μ : ℝ) / (multinomial (2 * r) (List.zipWith (· + ·) ν μ) : ℝ) *
    (((2 * r).factorial : ℝ) / ((2 * r + m).factorial : ℝ))

theorem gramVal_symm (r m : Nat) (ν μ : List Nat) : gramVal r m ν μ = gramVal r m μ ν := by
  unfold gramVal
  rw [List.zipWith_comm_of_comm (fun a b => Nat.add_comm a b), mul_comm (multinomial r ν : ℝ)]

theorem integral_bernstein_mul {m r : Nat} {ν μ : Fin m → ℕ} (hν : ν ∈ S m r) (hμ : μ ∈ S m r) :
    ∫ x in Spec.unitSimplex m, bernstein r (List.ofFn x) (List.ofFn ν) * bernstein r (List.ofFn x) (List.ofFn μ) =
      gramVal r m (List.ofFn ν) (List.ofFn μ) := by
  have h1 := mem_S.1 hν
  have h2 := mem_S.1 hμ
  have hs : ν + μ ∈ S m (r + r) := add_mem_S hν hμ
  have hs' := mem_S.1 hs
  have hp : ((multinomial (2 * r) (List.ofFn (ν + μ)) : ℕ) : ℝ) ≠ 0 := by
    have := multinomial_pos (2 * r) (List.ofFn (ν + μ)) (by rw [List.sum_ofFn]; omega)
    exact_mod_cast this.ne'
  have e : ∀ x : Fin m → ℝ, bernstein r (List.ofFn x) (List.ofFn ν) * bernstein r (List.ofFn x) (List.ofFn μ) =
      ((multinomial r (List.ofFn ν) : ℝ) * (multinomial r (List.ofFn μ) : ℝ) / (multinomial (2 * r) (List.ofFn (ν + μ)) : ℝ)) *
        bernstein (2 * r) (List.ofFn x) (List.ofFn (ν + μ)) := by
    intro x
    simp only [bernstein_ofFn]
    have e1 : 2 * r - ∑ i, (ν + μ) i = (r - ∑ i, ν i) + (r - ∑ i, μ i) := by
      simp only [Pi.add_apply, Finset.sum_add_distrib]; omega
    rw [e1, pow_add]
    simp only [Pi.add_apply, pow_add, Finset.prod_mul_distrib]
    field_simp
  simp only [e]
  rw [integral_const_mul, integral_unit_bernstein _ _ (by omega)]
  unfold gramVal
  rw [zipWith_add_ofFn]

theorem integral_val_mul {m r : Nat} (c : List Nat → ℝ) {μ : Fin m → ℕ} (hμ : μ ∈ S m r) :
    ∫ x in Spec.unitSimplex m, val .bernstein m r c x * bernstein r (List.ofFn x) (List.ofFn μ) =
      ∑ ν ∈ S m r, c (List.ofFn ν) * gramVal r m (List.ofFn ν) (List.ofFn μ) := by
  have e : ∀ x : Fin m → ℝ, val .bernstein m r c x * bernstein r (List.ofFn x) (List.ofFn μ) =
      ∑ ν ∈ S m r, c (List.ofFn ν) * (bernstein r (List.ofFn x) (List.ofFn ν) * bernstein r (List.ofFn x) (List.ofFn μ)) := by
    intro x
    unfold val
    rw [Finset.sum_mul]
    refine Finset.sum_congr rfl (fun ν _ => ?_)
    simp only [basisFn, smul_eq_mul]; ring
  simp only [e]
  rw [integral_finsetSum]
  · refine Finset.sum_congr rfl (fun ν hν => ?_)
    rw [integral_const_mul, integral_bernstein_mul hν hμ]
  · intro ν hν
    exact integrable_unit (continuous_const.mul ((basisFn_isPoly (K := ℝ) .bernstein r ν hν).continuous.mul
      (basisFn_isPoly (K := ℝ) .bernstein r μ hμ).continuous))

theorem integral_val_val {m r : Nat} (c d : List Nat → ℝ) :
    ∫ x in Spec.unitSimplex m, val .bernstein m r c x * val .bernstein m r d x =
      ∑ μ ∈ S m r, d (List.ofFn μ) * ∑ ν ∈ S m r, c (List.ofFn ν) * gramVal r m (List.ofFn ν) (List.ofFn μ) := by
  have e : ∀ x : Fin m → ℝ, val .bernstein m r c x * val .bernstein m r d x =
      ∑ μ ∈ S m r, d (List.ofFn μ) * (val .bernstein m r c x * bernstein r (List.ofFn x) (List.ofFn μ)) := by
    intro x
    rw [show val .bernstein m r d x = ∑ ν ∈ S m r, basisFn .bernstein r (List.ofFn x) (List.ofFn ν) • d (List.ofFn ν) from rfl,
      Finset.mul_sum]
    refine Finset.sum_congr rfl (fun ν _ => ?_)
    simp only [basisFn, smul_eq_mul]; ring
  simp only [e]
  rw [integral_finsetSum]
  · refine Finset.sum_congr rfl (fun μ hμ => ?_)
    rw [integral_const_mul, integral_val_mul c hμ]
  · intro μ hμ
    exact integrable_unit (continuous_const.mul ((val_isPoly (K := ℝ) .bernstein m r c).continuous.mul
      (basisFn_isPoly (K := ℝ) .bernstein r μ hμ).continuous))

/-- The multi-index with a given index. -/
def atIdx (m r : Nat) (i : Fin (getDimension r m)) : List Nat := (mis m r)[(i : Nat)]'(by rw [length_mis_eq]; exact i.2)

theorem sum_atIdx {W : Type} [AddCommMonoid W] (m r : Nat) (f : List Nat → W) :
    ∑ i, f (atIdx m r i) = ∑ ν ∈ S m r, f (List.ofFn ν) := by
  rw [← sum_mis, ← List.sum_ofFn]
  congr 1
  apply List.ext_getElem
  · simp [length_mis_eq]
  · intro i h1 h2; simp [atIdx]

theorem ofFn_tab (m r : Nat) {W : Type} (f : List Nat → W) : List.ofFn (fun i => f (atIdx m r i)) = tab m r f := by
  apply List.ext_getElem
  · simp
  · intro i h1 h2; simp [atIdx, tab]

theorem exists_atIdx {W : Type} [Inhabited W] (m r : Nat) (w : Fin (getDimension r m) → W) : ∃ f : List Nat → W, w = fun i => f (atIdx m r i) := by
  obtain ⟨f, hf⟩ := exists_tab m r (List.ofFn w) (by simp)
  rw [← ofFn_tab] at hf
  exact ⟨f, List.ofFn_injective hf⟩

/-- The Gram matrix. -/
noncomputable def gramMat (r m : Nat) : Matrix (Fin (getDimension r m)) (Fin (getDimension r m)) ℝ :=
  Matrix.of fun i j => gramVal r m (atIdx m r i) (atIdx m r j)

theorem gramMat_det (r m : Nat) : (gramMat r m).det ≠ 0 := by
  intro h
  obtain ⟨w, hw, h0⟩ := Matrix.exists_mulVec_eq_zero_iff.2 h
  obtain ⟨c, rfl⟩ := exists_atIdx m r w
  apply hw
  have hs : ∀ μ ∈ S m r, ∑ ν ∈ S m r, c (List.ofFn ν) * gramVal r m (List.ofFn ν) (List.ofFn μ) = 0 := by
    intro μ hμ
    have hm : List.ofFn μ ∈ mis m r := mem_mis.2 ⟨by simp, by rw [List.sum_ofFn]; exact mem_S.1 hμ⟩
    obtain ⟨i, hi, he⟩ := List.mem_iff_getElem.1 hm
    rw [length_mis_eq] at hi
    have h1 := congrFun h0 ⟨i, hi⟩
    simp only [Matrix.mulVec, dotProduct, gramMat, Matrix.of_apply, Pi.zero_apply] at h1
    have e : atIdx m r ⟨i, hi⟩ = List.ofFn μ := he
    rw [e] at h1
    rw [← h1, sum_atIdx m r (fun ν => gramVal r m (List.ofFn μ) ν * c ν)]
    exact Finset.sum_congr rfl (fun ν _ => by rw [gramVal_symm, mul_comm])
  have hz := poly_zero_of_integral (val_isPoly (K := ℝ) .bernstein m r c) (by
    rw [integral_val_val]
    exact Finset.sum_eq_zero (fun μ hμ => by rw [hs μ hμ, mul_zero]))
  have := tab_unique .bernstein m r c (fun _ => 0) (fun x => by rw [hz x, val_zero])
  rw [← ofFn_tab, ← ofFn_tab] at this
  exact List.ofFn_injective this

/-! ## The matrix assembled by the program -/

theorem gramEntry_eq (r m : Nat) (ν μ : Fin m → ℕ) (hν : ν ∈ S m r) (hμ : μ ∈ S m r) :
    gramEntry ℝ r m (List.ofFn ν) (List.ofFn μ) = .ok (gramVal r m (List.ofFn ν) (List.ofFn μ)) := by
  have h1 := mem_S.1 hν
  have h2 := mem_S.1 hμ
  have hs' := mem_S.1 (add_mem_S hν hμ)
  unfold gramEntry
  rw [multinomGeneral_eq _ _ (by rw [List.sum_ofFn]; exact h1), multinomGeneral_eq _ _ (by rw [List.sum_ofFn]; exact h2), Py.bind_ok, Py.bind_ok,
    add_natCast _ _, Py.bind_ok, zipWith_add_ofFn, multinomGeneral_eq _ _ (by rw [List.sum_ofFn]; omega), Py.bind_ok, bernsteinUnit_eq]
  unfold gramVal
  rw [zipWith_add_ofFn]
  simp

theorem gramRows_eq (r m : Nat) :
    gramRows ℝ r m = .ok (List.ofFn fun i => List.ofFn fun j => gramMat r m i j) := by
  unfold gramRows
  have key : ∀ i j : Fin (getDimension r m), (do
      let nu ← getE (MI.generateAll m r) (min (i : Nat) j)
      let tau ← getE (MI.generateAll m r) (max (i : Nat) j)
      gramEntry ℝ r m nu tau) = .ok (gramMat r m i j) := by
    intro i j
    rw [MI.generateAll_eq_mis]
    have hl := length_mis_eq m r
    have g : ∀ k (hk : k < getDimension r m), getE (mis m r) k = .ok (atIdx m r ⟨k, hk⟩) := by
      intro k hk
      have hk' : k < (mis m r).length := by omega
      exact getE_ok hk'
    have mem : ∀ k : Fin (getDimension r m), ∃ ν ∈ S m r, atIdx m r k = List.ofFn ν := by
      intro k
      have := mem_mis.1 (List.getElem_mem (l := mis m r) (n := (k : Nat)) (by omega))
      obtain ⟨ν, hν⟩ := eq_ofFn this.1
      refine ⟨ν, mem_S.2 ?_, hν⟩
      rw [← List.sum_ofFn, ← hν]; exact this.2
    have hmin : min (i : Nat) j < getDimension r m := by omega
    have hmax : max (i : Nat) j < getDimension r m := by omega
    rw [g _ hmin, Py.bind_ok, g _ hmax, Py.bind_ok]
    obtain ⟨ν, h1, e1⟩ := mem ⟨_, hmin⟩
    obtain ⟨μ, h2, e2⟩ := mem ⟨_, hmax⟩
    rw [e1, e2, gramEntry_eq r m ν μ h1 h2, ← e1, ← e2]
    congr 1
    unfold gramMat
    rw [Matrix.of_apply]
    rcases le_total (i : Nat) j with h | h
    · congr 2 <;> ext1 <;> simp [h]
    · rw [gramVal_symm]; congr 2 <;> ext1 <;> simp [h]
  have inner : ∀ i : Fin (getDimension r m), (List.range (getDimension r m)).mapM (fun (j : Nat) => do
      let nu ← getE (MI.generateAll m r) (min (i : Nat) j)
      let tau ← getE (MI.generateAll m r) (max (i : Nat) j)
      gramEntry ℝ r m nu tau) = .ok (List.ofFn fun j => gramMat r m i j) := by
    intro i
    rw [mapM_eq_ok (g := fun j => if h : j < getDimension r m then gramMat r m i ⟨j, h⟩ else 0)]
    · congr 1
      apply List.ext_getElem
      · simp
      · intro k h1 h2
        have hk : k < getDimension r m := by simpa using h2
        simp [hk]
    · intro j hj
      have hj' := List.mem_range.1 hj
      rw [dif_pos hj']
      exact key i ⟨j, hj'⟩
  rw [mapM_eq_ok (g := fun i => if h : i < getDimension r m then List.ofFn (fun j => gramMat r m ⟨i, h⟩ j) else [])]
  · congr 1
    apply List.ext_getElem
    · simp
    · intro k h1 h2
      have hk : k < getDimension r m := by simpa using h2
      simp [hk]
  · intro i hi
    have hi' := List.mem_range.1 hi
    rw [dif_pos hi']
    exact inner ⟨i, hi'⟩

theorem rowsMatrix_ofFn {K : Type} [Field K] [DecidableEq K] {n : Nat} (A : Matrix (Fin n) (Fin n) K) :
    rowsMatrix n (List.ofFn fun i => List.ofFn fun j => A i j) = A := by
  ext i j
  simp [rowsMatrix, List.getD_eq_getElem?_getD]

/-! ## The dual polynomials -/

/-- The coefficients `e` are those of the dual polynomial for `μ`. -/
def IsDual (r : Nat) {m : Nat} (μ : Fin m → ℕ) (e : List Nat → ℝ) : Prop :=
  ∀ ν ∈ S m r, ∑ τ ∈ S m r, e (List.ofFn τ) * gramVal r m (List.ofFn τ) (List.ofFn ν) = if ν = μ then 1 else 0

theorem dualPolynomial_general (r m : Nat) (hr : r ≠ 0) (hm : m ≠ 1) (hf : Fits r m) (μ : Fin m → ℕ) (hμ : μ ∈ S m r) :
    ∃ e, dualBernsteinPolynomial ℝ (List.ofFn μ) r = .ok (mkObj .bernstein m r e) ∧ IsDual r μ e := by
  have hs : (List.ofFn μ).sum ≤ r := by rw [List.sum_ofFn]; exact mem_S.1 hμ
  obtain ⟨i, hi, hi'⟩ := getIndex_ok hs
  rw [List.length_ofFn] at hi'
  have hilt : i < getDimension r m := by
    have := (List.getElem?_eq_some_iff.1 hi').1
    rwa [length_mis_eq] at this
  have hat : atIdx m r ⟨i, hilt⟩ = List.ofFn μ := (List.getElem?_eq_some_iff.1 hi').2
  obtain ⟨e, he⟩ := exists_atIdx m r ((gramMat r m)⁻¹.mulVec (fun j : Fin (getDimension r m) => ((zeros ℝ (getDimension r m)).set i 1).getD j 0))
  refine ⟨e, ?_, ?_⟩
  · unfold dualBernsteinPolynomial
    simp only [List.length_ofFn]
    rw [if_neg hr, if_neg hm]
    unfold dualBernsteinSolve
    rw [gramRows_eq, Py.bind_ok, rowsMatrix_ofFn, if_neg (gramMat_det r m), hi, Py.bind_ok,
      setE_ok (by simpa [zeros] using hilt), Py.bind_ok, he, ofFn_tab]
    exact new_mk _ _ _ _ hf
  · intro ν hν
    have hm : List.ofFn ν ∈ mis m r := mem_mis.2 ⟨by simp, by rw [List.sum_ofFn]; exact mem_S.1 hν⟩
    obtain ⟨j, hj, hje⟩ := List.mem_iff_getElem.1 hm
    rw [length_mis_eq] at hj
    have e2 : atIdx m r ⟨j, hj⟩ = List.ofFn ν := hje
    have h1 : (gramMat r m).mulVec (fun i => e (atIdx m r i)) ⟨j, hj⟩ = if ν = μ then 1 else 0 := by
      rw [← he, Matrix.mulVec_mulVec, Matrix.mul_nonsing_inv _ (isUnit_iff_ne_zero.2 (gramMat_det r m)), Matrix.one_mulVec]
      simp only [zeros, List.getD_eq_getElem?_getD, List.getElem?_set, List.length_replicate, hilt, if_true]
      by_cases hij : i = j
      · subst hij
        have : ν = μ := List.ofFn_injective (e2.symm.trans hat)
        simp [this]
      · have : ν ≠ μ := by
          rintro rfl
          have h3 := e2.trans hat.symm
          exact hij ((nodup_mis m r).getElem_inj_iff.1 h3).symm
        simp [hij, this, hj]
    rw [← h1]
    simp only [Matrix.mulVec, dotProduct, gramMat, Matrix.of_apply, e2]
    rw [sum_atIdx m r (fun τ => gramVal r m (List.ofFn ν) τ * e τ)]
    exact Finset.sum_congr rfl (fun τ _ => by rw [gramVal_symm, mul_comm])

theorem dualPolynomial_zero (m : Nat) (μ : Fin m → ℕ) (hμ : μ ∈ S m 0) :
    ∃ e, dualBernsteinPolynomial ℝ (List.ofFn μ) 0 = .ok (mkObj .bernstein m 0 e) ∧ IsDual 0 μ e := by
  refine ⟨fun _ => (m.factorial : ℝ), ?_, ?_⟩
  · unfold dualBernsteinPolynomial
    simp only [List.length_ofFn, if_true]
    unfold unitPolynomialOnes
    rw [replicate_tab, new_mk _ _ _ _ (fits_zero m), Py.bind_ok]
    unfold Obj.divConst mkObj
    simp only [tab, List.map_map]
    have := new_mk .bernstein m 0 (fun _ => (m.factorial : ℝ)) (fits_zero m)
    simp only [tab, mkObj] at this
    rw [← this]
    congr 1
    apply List.map_congr_left
    intro ν _
    simp [Simplex.volumeUnit]
  · intro ν hν
    rw [S_zero] at hν hμ ⊢
    rw [Finset.mem_singleton] at hν hμ
    subst hν hμ
    simp only [Finset.sum_singleton, if_true]
    unfold gramVal
    rw [zipWith_add_ofFn]
    have h1 : multinomial 0 (List.ofFn (0 : Fin m → ℕ)) = 1 := by
      have := multinomial_mul 0 (List.ofFn (0 : Fin m → ℕ)) (by simp [List.sum_ofFn])
      rw [map_factorial_ofFn] at this
      simpa [List.sum_ofFn] using this
    have h2 : (m.factorial : ℝ) ≠ 0 := by exact_mod_cast m.factorial_ne_zero
    simp only [add_zero, Nat.mul_zero, h1]
    simp [h2]

theorem sum_S_one {W : Type} [AddCommMonoid W] (r : Nat) (f : List Nat → W) :
    ∑ ν ∈ S 1 r, f (List.ofFn ν) = ∑ k ∈ Finset.range (r + 1), f [k] := by
  rw [← sum_mis, mis_one, List.map_map, sum_list_range]; rfl

theorem gramVal_one (r k j : Nat) (hk : k ≤ r) (hj : j ≤ r) :
    gramVal r 1 [k] [j] = (r.choose k : ℝ) * (r.choose j : ℝ) * Dual1.gram ℝ r k j := by
  unfold gramVal Dual1.gram Dual1.bet
  simp only [List.zipWith_cons_cons, List.zipWith_nil_left]
  rw [multinomial_one r k hk, multinomial_one r j hj, multinomial_one (2 * r) (k + j) (by omega),
    Nat.cast_choose ℝ (show k + j ≤ 2 * r by omega), show k + j + (2 * r - (k + j)) + 1 = 2 * r + 1 by omega]
  have a1 := Dual1.factorial_ne (K := ℝ) (k + j)
  have a2 := Dual1.factorial_ne (K := ℝ) (2 * r - (k + j))
  have a3 := Dual1.factorial_ne (K := ℝ) (2 * r)
  have a4 := Dual1.factorial_ne (K := ℝ) (2 * r + 1)
  field_simp

theorem dualCoeff_eq (r j k : Nat) (hj : j ≤ r) (hk : k ≤ r) :
    dualBernsteinCoeff ℝ r j k = (∑ l ∈ Finset.range (r + 1), ((2 * l + 1 : ℕ) : ℝ) * (Dual1.ac ℝ r l j * Dual1.ac ℝ r l k)) /
      ((r.choose j : ℝ) * (r.choose k : ℝ)) := by
  unfold dualBernsteinCoeff
  have e : ∀ (f : Nat → ℝ) (n : Nat), (List.range n).foldl (fun (c : ℝ) (l : Nat) => c + f l) 0 = ∑ l ∈ Finset.range n, f l := by
    intro f n
    induction n with
    | zero => simp
    | succ n ih => rw [List.range_succ, List.foldl_append, ih, Finset.sum_range_succ]; rfl
  simp only [e]
  rw [mul_div_assoc', div_left_inj' (mul_ne_zero (by exact_mod_cast (Nat.choose_pos hj).ne') (by exact_mod_cast (Nat.choose_pos hk).ne')),
    Finset.sum_mul]
  refine (Finset.sum_subset_zero_on_sdiff (Finset.range_subset_range.2 (by omega)) ?_ ?_)
  · intro l hl
    rw [Finset.mem_sdiff, Finset.mem_range, Finset.mem_range] at hl
    rcases lt_or_ge j l with h | h
    · rw [Dual1.ac_zero r l j h (by omega)]; ring
    · rw [Dual1.ac_zero r l k (by omega) (by omega)]; ring
  · intro l _
    unfold Dual1.ac
    push_cast
    rw [pow_add]; ring

theorem dualPolynomial_one (r : Nat) (hr : r ≠ 0) (hf : Fits r 1) (μ : Fin 1 → ℕ) (hμ : μ ∈ S 1 r) :
    ∃ e, dualBernsteinPolynomial ℝ (List.ofFn μ) r = .ok (mkObj .bernstein 1 r e) ∧ IsDual r μ e := by
  have hj : μ 0 ≤ r := by simpa using mem_S.1 hμ
  refine ⟨fun τ => dualBernsteinCoeff ℝ r (μ 0) (τ.getD 0 0), ?_, ?_⟩
  · unfold dualBernsteinPolynomial
    have h1 : List.ofFn μ = [μ 0] := by simp
    simp only [h1, List.length_singleton]
    rw [if_neg hr, if_pos trivial, show getE [μ 0] 0 = .ok (μ 0) from rfl, Py.bind_ok, if_pos hj, ← new_mk _ _ _ _ hf]
    congr 1
    unfold tab
    rw [mis_one, List.map_map, show getDimension r 1 = r + 1 by simp [getDimension]]
    rfl
  · intro ν hν
    have hn : ν 0 ≤ r := by simpa using mem_S.1 hν
    have h2 := sum_S_one r (fun τ => dualBernsteinCoeff ℝ r (μ 0) (τ.getD 0 0) * gramVal r 1 τ (List.ofFn ν))
    rw [h2, show List.ofFn ν = [ν 0] by simp]
    have hb : ∀ k ≤ r, (r.choose k : ℝ) ≠ 0 := fun k hk => by exact_mod_cast (Nat.choose_pos hk).ne'
    have e : ∀ k ∈ Finset.range (r + 1), dualBernsteinCoeff ℝ r (μ 0) (([k] : List Nat).getD 0 0) * gramVal r 1 [k] [ν 0] =
        ((r.choose (ν 0) : ℝ) / (r.choose (μ 0) : ℝ)) * ((∑ l ∈ Finset.range (r + 1), ((2 * l + 1 : ℕ) : ℝ) *
          (Dual1.ac ℝ r l (μ 0) * Dual1.ac ℝ r l k)) * Dual1.gram ℝ r k (ν 0)) := by
      intro k hk
      have hk' : k ≤ r := by have := Finset.mem_range.1 hk; omega
      rw [show ([k] : List Nat).getD 0 0 = k from rfl, dualCoeff_eq r _ k hj hk', gramVal_one r k _ hk' hn]
      have := hb k hk'
      have := hb _ hj
      field_simp
    rw [Finset.sum_congr rfl e, ← Finset.mul_sum, Dual1.dual_gram r _ _ hj hn]
    by_cases h : ν = μ
    · subst h; rw [if_pos rfl, if_pos rfl, mul_one, div_self (hb _ hn)]
    · rw [if_neg h, if_neg, mul_zero]
      intro hc; apply h; funext i; rw [Fin.fin_one_eq_zero i, hc]

/-- `dual_bernstein_basis_polynomial(mu, r)`. -/
theorem dualPolynomial_spec (r m : Nat) (hf : Fits r m) (μ : Fin m → ℕ) (hμ : μ ∈ S m r) :
    ∃ e, dualBernsteinPolynomial ℝ (List.ofFn μ) r = .ok (mkObj .bernstein m r e) ∧ IsDual r μ e := by
  rcases Nat.eq_zero_or_pos r with rfl | hr
  · exact dualPolynomial_zero m μ hμ
  · by_cases hm : m = 1
    · subst hm; exact dualPolynomial_one r hr.ne' hf μ hμ
    · exact dualPolynomial_general r m hr.ne' hm hf μ hμ

theorem integral_dual {r m : Nat} {μ : Fin m → ℕ} {e : List Nat → ℝ} (h : IsDual r μ e) (hμ : μ ∈ S m r) (c : List Nat → ℝ) :
    ∫ x in Spec.unitSimplex m, val .bernstein m r e x * val .bernstein m r c x = c (List.ofFn μ) := by
  rw [integral_val_val, Finset.sum_eq_single μ]
  · rw [h μ hμ, if_pos rfl, mul_one]
  · intro ν hν hne; rw [h ν hν, if_neg hne, mul_zero]
  · intro hc; exact absurd hμ hc

/-- A function of degree at most `r` is a combination of the Bernstein polynomials of degree `r`: every valid object can be written so. -/
theorem dualApply_spec {r m : Nat} (e : List Nat → ℝ) {p : Obj ℝ} {f : (Fin m → ℝ) → ℝ} (hp : Represents p m f) (hr : p.r = r)
    (hfit : Fits (2 * r) m) :
    dualBernsteinApply (mkObj .bernstein m r e) m r p = .ok (∫ x in Spec.unitSimplex m, val .bernstein m r e x * f x) := by
  have hd : Represents (mkObj .bernstein m r e) m (val (K := ℝ) .bernstein m r e) := rep_mk _ _ _ _ (hfit.mono (by omega))
  have other : p.basis ≠ .bernstein → (do
      let dm ← (mkObj .bernstein m r e).toMonomialBasis ℝ
      let pm ← p.toMonomialBasis ℝ
      let c ← dm.mul pm
      Integration.integrateMonomialPolynomialUnit ℝ (2 * r) m c.coeff) =
        .ok (∫ x in Spec.unitSimplex m, val .bernstein m r e x * f x) := by
    intro _
    obtain ⟨dm, a1, a2, a3, a4⟩ := toMonomialBasis_rep hd
    obtain ⟨pm, b1, b2, b3, b4⟩ := toMonomialBasis_rep hp
    have h4 : dm.r + pm.r = 2 * r := by rw [a4, b4, hr, show (mkObj .bernstein m r e).r = r from rfl]; omega
    obtain ⟨s, c1, c2, c3, c4⟩ := mul_rep a2 b2 (Or.inr (by rw [a3, b3])) (by rw [h4]; exact hfit)
    obtain ⟨c, hc, hcf, _⟩ := c2.exists_mk
    have := integrateUnitSimplex_mk s.basis m s.r c
    rw [← hc, ← hcf] at this
    simp only [integrateUnitSimplex, c3, a3, c2.dim, c4, h4] at this
    rw [a1, b1, Py.bind_ok, Py.bind_ok, c1, Py.bind_ok]
    exact this
  unfold dualBernsteinApply
  cases hb : p.basis with
  | bernstein =>
    obtain ⟨s, c1, c2, c3, c4⟩ := mul_rep hd hp (Or.inr (by rw [hb]; rfl)) (by
      rw [hr, show (mkObj .bernstein m r e).r = r from rfl, ← two_mul]; exact hfit)
    obtain ⟨c, hc, hcf, _⟩ := c2.exists_mk
    have := integrateUnitSimplex_mk s.basis m s.r c
    rw [← hc, ← hcf] at this
    have h4 : s.r = 2 * r := by rw [c4, hr, show (mkObj .bernstein m r e).r = r from rfl]; omega
    simp only [integrateUnitSimplex, c3, c2.dim, h4, show (mkObj Basis.bernstein m r e).basis = .bernstein from rfl] at this
    rw [c1, Py.bind_ok]
    exact this
  | monomial => exact other (by rw [hb]; simp)
  | lagrange => exact other (by rw [hb]; simp)

end Verif.Poly
