import Verif.Lemmas.Equality
import Verif.Lemmas.MultiIndex
import Mathlib.LinearAlgebra.Matrix.ToLinearEquiv
import Mathlib.RingTheory.MvPolynomial.Basic
import Mathlib.LinearAlgebra.FreeModule.Finite.Matrix
import Mathlib.Topology.Instances.Matrix
/-!
# Almost all tuples of points determine the polynomials of a given degree
-/

namespace Verif.Equality
open Verif Verif.Spec MeasureTheory MvPolynomial Module

/-- The tuples of points at which some nonzero polynomial of a space vanishes. -/
def Bad {m N : ℕ} (V : Submodule ℝ (MvPolynomial (Fin m) ℝ)) : Set (Fin N → Fin m → ℝ) :=
  {xs | ∃ P ∈ V, P ≠ 0 ∧ ∀ i, eval (xs i) P = 0}

theorem bad_eq_det {m N : ℕ} (V : Submodule ℝ (MvPolynomial (Fin m) ℝ)) (b : Basis (Fin N) ℝ V) :
    Bad V = {xs : Fin N → Fin m → ℝ | (Matrix.of fun i j => eval (xs i) (b j : MvPolynomial (Fin m) ℝ)).det = 0} := by
  ext xs
  rw [Set.mem_ofPred_eq, ← Matrix.exists_mulVec_eq_zero_iff]
  constructor
  · rintro ⟨P, hP, h0, h⟩
    refine ⟨fun j => b.repr ⟨P, hP⟩ j, ?_, ?_⟩
    · intro h1
      apply h0
      have h2 : (⟨P, hP⟩ : V) = 0 := b.repr.injective (by ext j; rw [map_zero]; exact congrFun h1 j)
      exact congrArg Subtype.val h2
    · funext i
      have e := congrArg Subtype.val (b.sum_repr ⟨P, hP⟩)
      rw [Submodule.coe_sum] at e
      have e2 := h i
      rw [show P = _ from e.symm, map_sum] at e2
      simp only [Submodule.coe_smul, smul_eval] at e2
      simp only [Matrix.mulVec, dotProduct, Matrix.of_apply, Pi.zero_apply]
      rw [← e2]
      exact Finset.sum_congr rfl fun j _ => mul_comm _ _
  · rintro ⟨v, hv, h⟩
    refine ⟨((∑ j, v j • b j : V) : MvPolynomial (Fin m) ℝ), Subtype.property _, ?_, ?_⟩
    · intro h0
      apply hv
      have h1 : (∑ j, v j • b j : V) = 0 := Subtype.ext h0
      exact funext fun j => Fintype.linearIndependent_iff.1 b.linearIndependent v h1 j
    · intro i
      have e := congrFun h i
      simp only [Matrix.mulVec, dotProduct, Matrix.of_apply, Pi.zero_apply] at e
      rw [Submodule.coe_sum, map_sum, ← e]
      refine Finset.sum_congr rfl fun j _ => ?_
      rw [Submodule.coe_smul, smul_eval, mul_comm]

theorem bad_measurable {m N : ℕ} (V : Submodule ℝ (MvPolynomial (Fin m) ℝ)) (b : Basis (Fin N) ℝ V) :
    MeasurableSet (Bad V : Set (Fin N → Fin m → ℝ)) := by
  rw [bad_eq_det V b]
  refine (isClosed_eq ?_ continuous_const).measurableSet
  refine Continuous.matrix_det ?_
  refine continuous_matrix fun i j => ?_
  exact (MvPolynomial.continuous_eval _).comp (continuous_apply i)

/-- For almost all tuples of as many points as the dimension of a space of polynomials, only zero vanishes at all the points. -/
theorem bad_null {m : ℕ} : ∀ (N : ℕ) (V : Submodule ℝ (MvPolynomial (Fin m) ℝ)), Module.Finite ℝ V → finrank ℝ V = N →
    volume (Bad V : Set (Fin N → Fin m → ℝ)) = 0 := by
  intro N
  induction N with
  | zero =>
    intro V hf hV
    have : (Bad V : Set (Fin 0 → Fin m → ℝ)) = ∅ := by
      refine Set.eq_empty_of_forall_notMem ?_
      rintro xs ⟨P, hP, h0, -⟩
      rw [finrank_zero_iff] at hV
      exact h0 (congrArg Subtype.val (Subsingleton.elim (⟨P, hP⟩ : V) 0))
    rw [this, measure_empty]
  | succ N ih =>
    intro V hf hV
    have b : Basis (Fin (N + 1)) ℝ V := finBasisOfFinrankEq ℝ V hV
    have hm := bad_measurable V b
    have hmp := (volume_preserving_piFinSuccAbove (fun _ : Fin (N + 1) => Fin m → ℝ) 0).symm
    rw [← hmp.measure_preimage hm.nullMeasurableSet]
    set S := (MeasurableEquiv.piFinSuccAbove (fun _ : Fin (N + 1) => Fin m → ℝ) 0).symm ⁻¹' (Bad V) with hS
    have hSm : MeasurableSet S := hm.preimage (MeasurableEquiv.measurable _)
    rw [Measure.volume_eq_prod, Measure.measure_prod_null hSm]
    have hb : (b 0 : MvPolynomial (Fin m) ℝ) ≠ 0 := fun h => b.ne_zero 0 (Subtype.ext h)
    have hae : ∀ᵐ x : Fin m → ℝ, eval x (b 0 : MvPolynomial (Fin m) ℝ) ≠ 0 := by
      rw [ae_iff]; simpa using zeros_null m _ hb
    filter_upwards [hae] with x hx
    let ev : MvPolynomial (Fin m) ℝ →ₗ[ℝ] ℝ := (MvPolynomial.aeval x : MvPolynomial (Fin m) ℝ →ₐ[ℝ] ℝ).toLinearMap
    have hev : ∀ P, ev P = eval x P := fun P => by simp [ev, MvPolynomial.aeval_eq_eval]
    let ev' : V →ₗ[ℝ] ℝ := ev.comp V.subtype
    have hsurj : LinearMap.range ev' = ⊤ := by
      rw [LinearMap.range_eq_top]
      refine LinearMap.surjective_of_ne_zero ?_
      intro h
      apply hx
      have := congrArg (fun f => f (b 0)) h
      simpa [ev', hev] using this
    have hk := ev'.finrank_range_add_finrank_ker
    rw [hsurj, finrank_top, finrank_self, hV] at hk
    let W : Submodule ℝ (MvPolynomial (Fin m) ℝ) := (LinearMap.ker ev').map V.subtype
    have hW : finrank ℝ W = N := by
      rw [show finrank ℝ W = finrank ℝ (LinearMap.ker ev') from
        (Submodule.equivMapOfInjective V.subtype V.injective_subtype (LinearMap.ker ev')).finrank_eq.symm]
      omega
    have hz := ih W inferInstance hW
    refine measure_mono_null ?_ hz
    rintro ys ⟨P, hP, h0, h⟩
    have e : (MeasurableEquiv.piFinSuccAbove (fun _ : Fin (N + 1) => Fin m → ℝ) 0).symm (x, ys) = Fin.cons x ys := by
      simp [MeasurableEquiv.piFinSuccAbove]
      rfl
    rw [e] at h
    refine ⟨P, ?_, h0, fun i => by simpa using h i.succ⟩
    refine ⟨⟨P, hP⟩, ?_, rfl⟩
    rw [SetLike.mem_coe, LinearMap.mem_ker]
    have := h 0
    simpa [ev', hev] using this

theorem finrank_degree (m r : ℕ) : finrank ℝ (restrictTotalDegree (Fin m) ℝ r) = (r + m).choose m := by
  have h1 := (Module.finrank_eq_nat_card_basis (basisRestrictSupport ℝ {n : Fin m →₀ ℕ | (n.sum fun _ e => e) ≤ r}))
  rw [show finrank ℝ (restrictTotalDegree (Fin m) ℝ r) = _ from h1]
  have e : {n : Fin m →₀ ℕ | (n.sum fun _ e => e) ≤ r} ≃ {a : List ℕ // a ∈ (MI.mis m r).toFinset} :=
    { toFun := fun a => ⟨List.ofFn a.1, by
        rw [List.mem_toFinset, MI.mem_mis, List.length_ofFn, List.sum_ofFn]
        refine ⟨rfl, ?_⟩
        have := a.2
        rw [Set.mem_ofPred_eq, Finsupp.sum_fintype _ _ (fun _ => rfl)] at this
        exact this⟩
      invFun := fun a => ⟨Finsupp.equivFunOnFinite.symm fun i => a.1.getD i 0, by
        have h := MI.mem_mis.1 (List.mem_toFinset.1 a.2)
        rw [Set.mem_ofPred_eq, Finsupp.sum_fintype _ _ (fun _ => rfl)]
        obtain ⟨l, hl⟩ := a
        obtain ⟨h1, h2⟩ := h
        simp only at h1 h2 ⊢
        subst h1
        refine le_trans (le_of_eq ?_) h2
        rw [← Fin.sum_univ_getElem]
        exact Finset.sum_congr rfl fun i _ => by simp⟩
      left_inv := fun a => by
        apply Subtype.ext
        ext i
        simp
      right_inv := fun a => by
        apply Subtype.ext
        have h := MI.mem_mis.1 (List.mem_toFinset.1 a.2)
        obtain ⟨l, hl⟩ := a
        obtain ⟨h0, h2⟩ := h
        simp only at h0 h2 ⊢
        refine List.ext_getElem (by simp [h0]) fun i h1 h2 => ?_
        simp [h2] }
  rw [Nat.card_congr e, Nat.card_eq_fintype_card, Fintype.card_coe, List.toFinset_card_of_nodup (MI.nodup_mis m r), MI.count_mis, Nat.add_comm m r,
    Nat.choose_symm_add]

/-- Almost all tuples of points determine the polynomials of degree at most `r`. -/
theorem unisolvent_ae (m r : ℕ) : ∀ᵐ xs : Fin ((r + m).choose m) → Fin m → ℝ, Unisolvent r (List.ofFn xs) := by
  rw [ae_iff]
  refine measure_mono_null ?_ (bad_null _ (restrictTotalDegree (Fin m) ℝ r) inferInstance (finrank_degree m r))
  intro xs hxs
  rw [Set.mem_ofPred_eq, Unisolvent] at hxs
  push Not at hxs
  obtain ⟨P, h1, h2, h3⟩ := hxs
  exact ⟨P, (mem_restrictTotalDegree _ _ _).2 h1, h3, fun i => h2 _ (List.mem_ofFn.2 ⟨i, rfl⟩)⟩

end Verif.Equality
