import Verif.Props.SamplingUniform
import Verif.Lemmas.GaussianSector
import Mathlib.LinearAlgebra.UnitaryGroup
import Mathlib.LinearAlgebra.Matrix.ToLin
/-!
# C84: the sampler of the sphere is uniform and independent

The points of `nsphere_surface_sampling` are independent, and all directions are equally probable: the probability of a set of directions is its share of the volume of the unit ball, and it
is invariant under rotations and reflections.
-/

namespace Verif.Sampling
open Verif Verif.Random MeasureTheory ProbabilityTheory Matrix

variable {Ω : Type} [MeasurableSpace Ω] {P : Measure Ω} [IsProbabilityMeasure P] {X : ℕ → Ω → ℝ} {n : ℕ}

theorem direction_measurable : Measurable (direction : (Fin n → ℝ) → Fin n → ℝ) := by
  unfold direction
  exact measurable_pi_lambda _ fun i => (measurable_pi_apply i).div (Finset.measurable_sum _ fun j _ => (measurable_pi_apply j).pow_const 2).sqrt

theorem direction_smul {c : ℝ} (hc : 0 < c) (x : Fin n → ℝ) : direction (c • x) = direction x := by
  funext i
  have : √(∑ j, (c • x) j ^ 2) = c * √(∑ j, x j ^ 2) := by
    simp only [Pi.smul_apply, smul_eq_mul, mul_pow, ← Finset.mul_sum]
    rw [Real.sqrt_mul (sq_nonneg c), Real.sqrt_sq hc.le]
  simp only [direction]
  rw [this, Pi.smul_apply, smul_eq_mul, mul_div_mul_left _ _ hc.ne']

theorem nsphereSurface_eq (k : ℕ) (x : ℕ → Fin n → ℝ) :
    nsphereSurfaceSampling ((List.range k).map fun i => List.ofFn (x i)) = ((List.range k).map fun i => direction (x i)).map List.ofFn := by
  rw [nsphereSurfaceSampling, List.map_map, List.map_map]
  refine List.map_congr_left fun i _ => ?_
  simp only [Function.comp, List.map_ofFn, dotSelf, List.sum_ofFn, ← pow_two]
  rfl

theorem reject_some {α β : Type} (f : α → β) (k : ℕ) (rs : List α) :
    reject (fun a => some (f a)) k rs = if k ≤ rs.length then some ((rs.take k).map f, rs.drop k) else none := by
  induction rs generalizing k with
  | nil => cases k <;> simp [reject]
  | cons r rs ih =>
    cases k with
    | zero => simp [reject]
    | succ k =>
      rw [reject]
      simp only [ih k, List.length_cons, Nat.add_le_add_iff_right, List.take_succ_cons, List.drop_succ_cons, List.map_cons]
      split <;> rfl

theorem returns_some {α β : Type} (f : α → β) (k : ℕ) (x : ℕ → α) (ys : List β) :
    Returns (reject (fun a => some (f a)) k) x ys ↔ ys = (List.range k).map fun i => f (x i) := by
  unfold Returns
  simp only [reject_some, List.length_map, List.length_range]
  constructor
  · rintro ⟨N, rest, h⟩
    split at h
    · rename_i hk
      simp only [Option.some.injEq, Prod.mk.injEq] at h
      rw [← h.1, ← List.map_take, List.take_range, Nat.min_eq_left hk, List.map_map]
      rfl
    · cases h
  · rintro rfl
    refine ⟨k, [], ?_⟩
    rw [if_pos le_rfl, ← List.map_take, List.take_range, Nat.min_self, List.map_map, List.drop_eq_nil_of_le (by simp)]
    rfl

/-- The points of any sampler that applies a function to independent values are independent. -/
theorem distributed_of {α β γ : Type} [MeasurableSpace α] [MeasurableSpace β] {X : ℕ → Ω → α} {μ : Measure α} (h : IsSource P X μ) {f : α → β} (hf : Measurable f)
    {code : β → γ} (hcode : Function.Injective code) {results : ℕ → Ω → List γ → Prop} (hr : ∀ k ω ys, results k ω ys ↔ ys = ((List.range k).map fun i => f (X i ω)).map code)
    {prob : Set β → ℝ} (hp : ∀ B, MeasurableSet B → μ.real (f ⁻¹' B) = prob B) : Distributed P prob code results := by
  have := h.isProb
  intro Bs hB
  have hacc : ∀ B, Accepted (fun a => some (f a)) B = f ⁻¹' B := fun B => by
    ext a
    simp [Accepted]
  have h1 := reject_law h (acc := fun a => some (f a)) (by rw [hacc]; exact hf MeasurableSet.univ) (by rw [hacc, Set.preimage_univ]; simp) Bs
    fun B hB' => by rw [hacc]; exact hf (hB B hB')
  have h2 : {ω | ∃ ys, results Bs.length ω ys ∧ List.Forall₂ (fun y C => ∃ x ∈ C, y = code x) ys Bs} =
      {ω | ∃ ys, Returns (reject (fun a => some (f a)) Bs.length) (X · ω) ys ∧ Hits ys Bs} := by
    ext ω
    simp only [Set.mem_ofPred_eq, hr, returns_some, exists_eq_left, Hits]
    rw [List.forall₂_map_left_iff]
    constructor
    · exact List.Forall₂.imp fun a b ⟨x, hx, he⟩ => by rwa [hcode he]
    · exact List.Forall₂.imp fun a b hab => ⟨a, hab, rfl⟩
  rw [h2, h1]
  congr 1
  refine List.map_congr_left fun B hB' => ?_
  rw [hacc, hacc, Set.preimage_univ, hp B (hB B hB')]
  simp

/-- **C84** `nsphere_surface_sampling(n)`, which is given the rows of `np.random.randn(num_points, n)`: independent points, and the probability of a set of directions is its share of the
volume of the unit ball. -/
theorem C84_sphere (h : IsSource P X randn) (n : ℕ) :
    Distributed P (sphereShare (n := n)) List.ofFn fun k ω ys => ys = nsphereSurfaceSampling ((List.range k).map fun i => List.ofFn (row n (X · ω) i)) :=
  distributed_of (h.rows n) direction_measurable List.ofFn_injective (fun k ω ys => by rw [nsphereSurface_eq]) fun B hB =>
    gaussian_cone_share (fun c hc x => by simp only [Set.mem_preimage, direction_smul hc]) (direction_measurable hB)

theorem ball_pos (n : ℕ) : 0 < volume.real {x : Fin n → ℝ | ∑ i, x i ^ 2 < 1} := by
  have := randn_prob
  have h := gaussian_cone_share (n := n) (C := Set.univ) (fun _ _ _ => by simp) MeasurableSet.univ
  refine lt_of_le_of_ne measureReal_nonneg fun h0 => ?_
  rw [share, ← h0, div_zero] at h
  simp at h

/-- **C84** The distribution of the points on the sphere is invariant under rotations and reflections. -/
theorem C84_sphere_invariant (M : Matrix (Fin n) (Fin n) ℝ) (hM : M ∈ orthogonalGroup (Fin n) ℝ) (B : Set (Fin n → ℝ)) :
    sphereShare {x | M *ᵥ x ∈ B} = sphereShare B := by
  have hsq : ∀ x : Fin n → ℝ, ∑ i, (M *ᵥ x) i ^ 2 = ∑ i, x i ^ 2 := fun x => by
    have h1 : ∀ y : Fin n → ℝ, ∑ i, y i ^ 2 = y ⬝ᵥ y := fun y => by simp [dotProduct, pow_two]
    rw [h1, h1, dotProduct_mulVec, vecMul_mulVec]
    have : Mᵀ * M = 1 := by simpa [star_eq_conjTranspose] using (mem_orthogonalGroup_iff' (Fin n) ℝ).1 hM
    rw [this, vecMul_one]
  have hdir : ∀ x : Fin n → ℝ, direction (M *ᵥ x) = M *ᵥ direction x := fun x => by
    have h1 : ∀ y : Fin n → ℝ, direction y = (√(∑ i, y i ^ 2))⁻¹ • y := fun y => by
      funext i
      simp [direction, div_eq_inv_mul]
    rw [h1, h1, hsq, mulVec_smul]
  have hdet : |M.det| = 1 := by
    have h1 : M.det * M.det = 1 := by
      have := congrArg Matrix.det ((mem_orthogonalGroup_iff' (Fin n) ℝ).1 hM)
      simpa [star_eq_conjTranspose] using this
    nlinarith [abs_mul_abs_self M.det, abs_nonneg M.det]
  have hdet0 : M.det ≠ 0 := fun h0 => by simp [h0] at hdet
  unfold sphereShare share
  congr 1
  have h2 : {x | direction x ∈ {x | M *ᵥ x ∈ B}} ∩ {x : Fin n → ℝ | ∑ i, x i ^ 2 < 1} =
      (Matrix.toLin' M) ⁻¹' ({x | direction x ∈ B} ∩ {x : Fin n → ℝ | ∑ i, x i ^ 2 < 1}) := by
    ext x
    simp only [Set.mem_inter_iff, Set.mem_ofPred_eq, Set.mem_preimage, toLin'_apply, hsq, hdir]
  rw [h2, measureReal_def, measureReal_def, Measure.addHaar_preimage_linearMap _ (by rw [LinearMap.det_toLin']; exact hdet0), LinearMap.det_toLin', abs_inv, hdet]
  simp

theorem sphereShare_sphere (hn : n ≠ 0) : sphereShare {x : Fin n → ℝ | ∑ i, x i ^ 2 = 1} = 1 := by
  have hd : ∀ x : Fin n → ℝ, ∑ i, direction x i ^ 2 = 1 ↔ x ≠ 0 := fun x => by
    simp only [direction, div_pow, ← Finset.sum_div]
    have h0 : 0 ≤ ∑ i, x i ^ 2 := Finset.sum_nonneg fun i _ => sq_nonneg _
    rw [Real.sq_sqrt h0]
    constructor
    · rintro h rfl
      simp at h
    · intro hx
      refine div_self fun h => hx ?_
      funext i
      have := (Finset.sum_eq_zero_iff_of_nonneg fun i _ => sq_nonneg (x i)).1 h i (Finset.mem_univ i)
      simpa using this
  have hne : Nonempty (Fin n) := ⟨⟨0, Nat.pos_of_ne_zero hn⟩⟩
  have h1 : {x : Fin n → ℝ | direction x ∈ {x : Fin n → ℝ | ∑ i, x i ^ 2 = 1}} =ᵐ[volume] Set.univ := by
    have : {x : Fin n → ℝ | direction x ∈ {x : Fin n → ℝ | ∑ i, x i ^ 2 = 1}} = {0}ᶜ := by
      ext x
      simp only [Set.mem_ofPred_eq, hd, Set.mem_compl_iff, Set.mem_singleton_iff, ne_eq]
    rw [this, ae_eq_univ, compl_compl]
    exact measure_singleton 0
  have h2 := measure_congr (h1.inter (ae_eq_refl {x : Fin n → ℝ | ∑ i, x i ^ 2 < 1}))
  rw [Set.univ_inter] at h2
  have h3 := congrArg ENNReal.toReal h2
  rw [sphereShare, share]
  exact (congrArg (· / _) h3).trans (div_self (ball_pos n).ne')

/-- **C84** In dimension at least one all points are on the sphere, with probability one. -/
theorem C84_sphere_almost_surely (h : IsSource P X randn) (hn : n ≠ 0) (k : ℕ) :
    P.real {ω | ∀ y ∈ nsphereSurfaceSampling ((List.range k).map fun i => List.ofFn (row n (X · ω) i)), ∃ x : Fin n → ℝ, y = List.ofFn x ∧ ∑ i, x i ^ 2 = 1} = 1 := by
  have h1 := C84_sphere h n (List.replicate k {x : Fin n → ℝ | ∑ i, x i ^ 2 = 1}) fun C hC => by
    rw [List.eq_of_mem_replicate hC]
    exact measurableSet_eq_fun (Finset.measurable_sum _ fun j _ => (measurable_pi_apply j).pow_const 2) measurable_const
  rw [List.map_replicate, List.prod_replicate, sphereShare_sphere hn, one_pow, List.length_replicate] at h1
  refine Eq.trans (congrArg P.real ?_) h1
  ext ω
  simp only [Set.mem_ofPred_eq, forall₂_replicate, exists_eq_left]
  have : (nsphereSurfaceSampling ((List.range k).map fun i => List.ofFn (row n (X · ω) i))).length = k := by simp [nsphereSurfaceSampling]
  simp only [this, true_and]
  exact forall₂_congr fun y _ => exists_congr fun x => and_comm

/-- A source of standard normal numbers exists; in dimension one the two points of the sphere are equally probable. -/
example : ∃ (Ω : Type) (_ : MeasurableSpace Ω) (P : Measure Ω) (_ : IsProbabilityMeasure P) (X : ℕ → Ω → ℝ), IsSource P X randn ∧
    P.real {ω | ∃ ys, ys = nsphereSurfaceSampling ((List.range 2).map fun i => List.ofFn (row 1 (X · ω) i)) ∧
      List.Forall₂ (fun y C => ∃ x ∈ C, y = List.ofFn x) ys [{x : Fin 1 → ℝ | 0 < x 0}, {x | x 0 < 0}]} =
      sphereShare {x : Fin 1 → ℝ | 0 < x 0} * sphereShare {x : Fin 1 → ℝ | x 0 < 0} := by
  have := randn_prob
  refine ⟨ℕ → ℝ, inferInstance, Measure.infinitePi fun _ => randn, inferInstance, fun i ω => ω i, exists_source randn, ?_⟩
  have h := C84_sphere (exists_source randn) 1 [{x : Fin 1 → ℝ | 0 < x 0}, {x | x 0 < 0}] (by
    simp only [List.mem_cons, List.not_mem_nil, or_false, forall_eq_or_imp, forall_eq]
    exact ⟨measurableSet_lt measurable_const (measurable_pi_apply 0), measurableSet_lt (measurable_pi_apply 0) measurable_const⟩)
  simpa using h

/-- A reflection: opposite half spaces are equally probable. -/
example : sphereShare {x : Fin 1 → ℝ | x 0 < 0} = sphereShare {x : Fin 1 → ℝ | 0 < x 0} := by
  have h := C84_sphere_invariant (n := 1) (-1) (by rw [mem_orthogonalGroup_iff]; simp) {x | 0 < x 0}
  rw [← h]
  congr 1
  ext x
  simp [Matrix.neg_mulVec]

end Verif.Sampling
