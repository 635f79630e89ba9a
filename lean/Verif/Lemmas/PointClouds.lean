import Verif.Model.PointClouds
import Verif.Spec.PointClouds
import Mathlib.Analysis.Matrix.Spectrum
import Mathlib.Data.Fin.Tuple.Sort
import Mathlib.Algebra.BigOperators.Group.List.Lemmas
import Mathlib.Tactic.Linarith
import Mathlib.Tactic.LinearCombination
/-!
# Lemmas for point clouds
-/

namespace Verif.PointCloud
open Verif Matrix

variable {m : Nat}

/-! ## Sums over points -/

theorem total_cons (p : Fin m → ℝ) (l : List (Fin m → ℝ)) (f) : total (p :: l) f = f p + total l f := by simp [total]

theorem total_nil (f : (Fin m → ℝ) → ℝ) : total [] f = 0 := rfl

theorem total_map (l : List (Fin m → ℝ)) (g : (Fin m → ℝ) → (Fin m → ℝ)) (f) : total (l.map g) f = total l (fun p => f (g p)) := by
  simp [total, Function.comp_def]

theorem total_add (l : List (Fin m → ℝ)) (f g : (Fin m → ℝ) → ℝ) : total l (fun p => f p + g p) = total l f + total l g := by
  induction l with
  | nil => simp [total]
  | cons p l ih => simp only [total_cons, ih]; ring

theorem total_mul (l : List (Fin m → ℝ)) (c : ℝ) (f : (Fin m → ℝ) → ℝ) : total l (fun p => c * f p) = c * total l f := by
  induction l with
  | nil => simp [total]
  | cons p l ih => simp only [total_cons, ih]; ring

theorem total_const (l : List (Fin m → ℝ)) (c : ℝ) : total l (fun _ => c) = l.length * c := by
  induction l with
  | nil => simp [total]
  | cons p l ih => simp only [total_cons, ih, List.length_cons]; push_cast; ring

theorem total_le (l : List (Fin m → ℝ)) (f g : (Fin m → ℝ) → ℝ) (h : ∀ p ∈ l, f p ≤ g p) : total l f ≤ total l g := by
  induction l with
  | nil => exact le_rfl
  | cons p l ih =>
    simp only [total_cons]
    exact add_le_add (h p (by simp)) (ih fun q hq => h q (by simp [hq]))

theorem total_congr (l : List (Fin m → ℝ)) (f g : (Fin m → ℝ) → ℝ) (h : ∀ p ∈ l, f p = g p) : total l f = total l g :=
  le_antisymm (total_le l f g fun p hp => (h p hp).le) (total_le l g f fun p hp => (h p hp).ge)

theorem total_sum (l : List (Fin m → ℝ)) (f : Fin m → (Fin m → ℝ) → ℝ) : total l (fun p => ∑ j, f j p) = ∑ j, total l (f j) := by
  induction l with
  | nil => simp [total]
  | cons p l ih => simp only [total_cons, ih, Finset.sum_add_distrib]

theorem total_sub (l : List (Fin m → ℝ)) (f g : (Fin m → ℝ) → ℝ) : total l (fun p => f p - g p) = total l f - total l g := by
  have := total_add l (fun p => f p - g p) g
  simp only [sub_add_cancel] at this
  linarith

/-! ## The mean -/

theorem mean_apply (l : List (Fin m → ℝ)) (j : Fin m) : mean l j = total l (fun p => p j) / l.length := rfl

theorem total_sub_mean (l : List (Fin m → ℝ)) (hl : l ≠ []) (j : Fin m) : total l (fun p => (p - mean l) j) = 0 := by
  have h : (l.length : ℝ) ≠ 0 := by simpa using hl
  simp only [Pi.sub_apply]
  rw [total_sub, total_const, mean_apply]
  field_simp
  ring

theorem total_inner_mean (l : List (Fin m → ℝ)) (hl : l ≠ []) (w : Fin m → ℝ) : total l (fun p => (p - mean l) ⬝ᵥ w) = 0 := by
  unfold dotProduct
  rw [total_sum]
  refine Finset.sum_eq_zero fun j _ => ?_
  have := total_mul l (w j) (fun p => (p - mean l) j)
  rw [total_sub_mean l hl, mul_zero] at this
  rw [← this]
  exact total_congr _ _ _ fun p _ => by ring

/-- Steiner: moments with respect to another point. -/
theorem total_inner_sq (l : List (Fin m → ℝ)) (hl : l ≠ []) (a w : Fin m → ℝ) :
    total l (fun p => ((p - a) ⬝ᵥ w) ^ 2) = total l (fun p => ((p - mean l) ⬝ᵥ w) ^ 2) + l.length * ((mean l - a) ⬝ᵥ w) ^ 2 := by
  have e : ∀ p, ((p - a) ⬝ᵥ w) ^ 2 = ((p - mean l) ⬝ᵥ w) ^ 2 + (2 * ((mean l - a) ⬝ᵥ w) * ((p - mean l) ⬝ᵥ w) + ((mean l - a) ⬝ᵥ w) ^ 2) := by
    intro p
    have : (p - a) ⬝ᵥ w = (p - mean l) ⬝ᵥ w + (mean l - a) ⬝ᵥ w := by rw [← add_dotProduct]; congr 1; abel
    rw [this]; ring
  rw [total_congr l _ _ fun p _ => e p, total_add, total_add, total_mul, total_inner_mean l hl, total_const]
  ring

theorem total_sqDist (l : List (Fin m → ℝ)) (hl : l ≠ []) (a : Fin m → ℝ) :
    total l (fun p => sqDist p a) = total l (fun p => sqDist p (mean l)) + l.length * sqDist (mean l) a := by
  have e : ∀ p, sqDist p a = sqDist p (mean l) + (2 * ((p - mean l) ⬝ᵥ (mean l - a)) + sqDist (mean l) a) := by
    intro p
    unfold sqDist
    have : p - a = (p - mean l) + (mean l - a) := by abel
    rw [this, add_dotProduct, dotProduct_add, dotProduct_add, dotProduct_comm (mean l - a) (p - mean l)]
    ring
  rw [total_congr l _ _ fun p _ => e p, total_add, total_add, total_mul, total_inner_mean l hl, total_const]
  ring

/-! ## The principal component axis -/

theorem gram_symm (x : List (Fin m → ℝ)) : (gramMatrix x).IsSymm := by
  ext i j
  simp only [gramMatrix, Matrix.transpose_apply, Matrix.of_apply]
  congr 1
  exact List.map_congr_left fun p _ => by ring

theorem gram_quad (x : List (Fin m → ℝ)) (w : Fin m → ℝ) : w ⬝ᵥ (gramMatrix x *ᵥ w) = total x (fun p => (p ⬝ᵥ w) ^ 2) := by
  induction x with
  | nil => simp [gramMatrix, total, Matrix.mulVec, dotProduct]
  | cons p l ih =>
    have e : gramMatrix (p :: l) = Matrix.vecMulVec p p + gramMatrix l := by
      ext i j
      simp [gramMatrix, Matrix.vecMulVec_apply]
    rw [e, Matrix.add_mulVec, dotProduct_add, ih, total_cons, Matrix.vecMulVec_mulVec]
    simp [dotProduct_comm w p]
    ring

theorem eigh_quad {eigh : Eigh m} (h : IsEigh eigh) {A : Matrix (Fin m) (Fin m) ℝ} (hA : A.IsSymm) (w : Fin m → ℝ) :
    w ⬝ᵥ (A *ᵥ w) = ∑ j, (eigh A).1 j * (((eigh A).2ᵀ *ᵥ w) j) ^ 2 ∧ ∑ j, (((eigh A).2ᵀ *ᵥ w) j) ^ 2 = w ⬝ᵥ w := by
  obtain ⟨h1, h2, h3⟩ := h A hA
  set V := (eigh A).2
  set d := (eigh A).1
  have h4 : V * Vᵀ = 1 := mul_eq_one_comm.1 h2
  set c := Vᵀ *ᵥ w with hc
  have hw : w = V *ᵥ c := by rw [hc, Matrix.mulVec_mulVec, h4, Matrix.one_mulVec]
  have hAw : A *ᵥ w = V *ᵥ (diagonal d *ᵥ c) := by rw [hw, Matrix.mulVec_mulVec, h3, ← Matrix.mulVec_mulVec]
  have dot : ∀ u, w ⬝ᵥ (V *ᵥ u) = c ⬝ᵥ u := by
    intro u
    rw [dotProduct_mulVec, hc, ← Matrix.vecMul_transpose, Matrix.transpose_transpose]
  constructor
  · rw [hAw, dot]
    unfold dotProduct
    refine Finset.sum_congr rfl fun j _ => ?_
    rw [Matrix.mulVec_diagonal]
    ring
  · have : w ⬝ᵥ w = c ⬝ᵥ c := by
      conv_lhs => rhs; rw [hw]
      exact dot c
    rw [this]
    unfold dotProduct
    exact Finset.sum_congr rfl fun j _ => by ring

theorem principal_ok {k : Nat} (eigh : Eigh (k + 1)) (l : List (Fin (k + 1) → ℝ)) :
    principalComponentAxis eigh l = .ok (fun i => (eigh (gramMatrix (l.map (fun p => p - mean l)))).2 i (Fin.last k)) := by
  have h : ∀ v : Matrix (Fin (k + 1)) (Fin (k + 1)) ℝ, (if h : k + 1 - 1 < k + 1 then .ok (fun i => v i ⟨k + 1 - 1, h⟩) else .error .index : Py (Fin (k + 1) → ℝ)) =
      .ok (fun i => v i (Fin.last k)) := fun v => dif_pos (by omega)
  exact h _

theorem principal_spec {k : Nat} {eigh : Eigh (k + 1)} (h : IsEigh eigh) (l : List (Fin (k + 1) → ℝ)) :
    ∃ w, principalComponentAxis eigh l = .ok w ∧ w ⬝ᵥ w = 1 ∧
      ∀ u : Fin (k + 1) → ℝ, u ⬝ᵥ u = 1 → total l (fun p => ((p - mean l) ⬝ᵥ u) ^ 2) ≤ total l (fun p => ((p - mean l) ⬝ᵥ w) ^ 2) := by
  refine ⟨_, principal_ok eigh l, ?_, ?_⟩
  · obtain ⟨-, h2, -⟩ := h _ (gram_symm (l.map (fun p => p - mean l)))
    have := congrFun (congrFun h2 (Fin.last k)) (Fin.last k)
    simpa [Matrix.mul_apply, dotProduct] using this
  · intro u hu
    set A := gramMatrix (l.map (fun p => p - mean l)) with hA
    have hs : A.IsSymm := gram_symm _
    obtain ⟨h1, h2, h3⟩ := h A hs
    obtain ⟨q1, q2⟩ := eigh_quad h hs u
    have e : ∀ u, u ⬝ᵥ (A *ᵥ u) = total l (fun p => ((p - mean l) ⬝ᵥ u) ^ 2) := by
      intro u
      rw [hA, gram_quad, total_map]
    rw [← e, ← e, q1]
    have h5 : (fun i => (eigh A).2 i (Fin.last k)) ⬝ᵥ (A *ᵥ fun i => (eigh A).2 i (Fin.last k)) = (eigh A).1 (Fin.last k) := by
      have h6 : (A *ᵥ fun i => (eigh A).2 i (Fin.last k)) = fun i => (eigh A).2 i (Fin.last k) * (eigh A).1 (Fin.last k) := by
        funext i
        have := congrFun (congrFun h3 i) (Fin.last k)
        rw [Matrix.mul_diagonal] at this
        exact this
      rw [h6]
      have h7 := congrFun (congrFun h2 (Fin.last k)) (Fin.last k)
      simp only [Matrix.mul_apply, Matrix.transpose_apply, Matrix.one_apply_eq] at h7
      unfold dotProduct
      rw [Finset.sum_congr rfl fun j _ => (mul_assoc _ _ _).symm, ← Finset.sum_mul, h7, one_mul]
    rw [h5]
    calc ∑ j, (eigh A).1 j * (((eigh A).2ᵀ *ᵥ u) j) ^ 2 ≤ ∑ j, (eigh A).1 (Fin.last k) * (((eigh A).2ᵀ *ᵥ u) j) ^ 2 :=
          Finset.sum_le_sum fun j _ => mul_le_mul_of_nonneg_right (h1 j _ (Fin.le_last j)) (sq_nonneg _)
      _ = (eigh A).1 (Fin.last k) := by rw [← Finset.mul_sum, q2, hu, mul_one]

/-- There are functions with the contract of `eigh`. -/
theorem exists_eigh (m : Nat) : ∃ eigh : Eigh m, IsEigh eigh := by
  classical
  have h : ∀ A : Matrix (Fin m) (Fin m) ℝ, ∃ r : (Fin m → ℝ) × Matrix (Fin m) (Fin m) ℝ, A.IsSymm →
      (∀ i j, i ≤ j → r.1 i ≤ r.1 j) ∧ r.2ᵀ * r.2 = 1 ∧ A * r.2 = r.2 * diagonal r.1 := by
    intro A
    by_cases hA : A.IsSymm
    · have hH : A.IsHermitian := by
        unfold Matrix.IsHermitian
        rw [Matrix.conjTranspose_eq_transpose_of_trivial]
        exact hA
      let σ := Tuple.sort hH.eigenvalues
      refine ⟨(hH.eigenvalues ∘ σ, Matrix.of fun i j => hH.eigenvectorBasis (σ j) i), fun _ => ⟨fun i j hij => Tuple.monotone_sort hH.eigenvalues hij, ?_, ?_⟩⟩
      · ext i j
        have h1 := orthonormal_iff_ite.1 hH.eigenvectorBasis.orthonormal (σ i) (σ j)
        rw [Matrix.mul_apply, Matrix.one_apply]
        simp only [σ.injective.eq_iff] at h1
        rw [← h1]
        simp [PiLp.inner_apply, mul_comm]
      · ext i j
        have h1 := congrFun (hH.mulVec_eigenvectorBasis (σ j)) i
        rw [Matrix.mul_diagonal]
        simp only [Matrix.of_apply, Function.comp_apply]
        rw [mul_comm]
        exact h1
    · exact ⟨(0, 0), fun h => absurd h hA⟩
  choose f hf using h
  exact ⟨f, hf⟩

end Verif.PointCloud
