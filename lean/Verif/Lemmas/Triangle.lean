import Verif.Model.Triangle
import Verif.Lemmas.SimplexGeometry4
import Verif.Props.Rotation
/-!
# Lemmas about triangles
-/

namespace Verif.Triangle
open Verif Matrix Verif.Simplex Verif.Linalg Verif.Spec Verif.SimplexGeometry Verif.Props

noncomputable section

variable {n : ℕ}

theorem f11 (i : Fin 3) : i + 1 + 1 = i + 2 := by revert i; decide
theorem f12 (i : Fin 3) : i + 1 + 2 = i := by revert i; decide
theorem f21 (i : Fin 3) : i + 2 + 1 = i := by revert i; decide
theorem f22 (i : Fin 3) : i + 2 + 2 = i + 1 := by revert i; decide

theorem sum3 {α : Type} [AddCommMonoid α] (f : Fin 3 → α) (i : Fin 3) : ∑ j, f j = f i + f (i + 1) + f (i + 2) := by
  have e : ∑ j, f j = f 0 + f 1 + f 2 := Fin.sum_univ_three f
  rw [e]
  fin_cases i
  · rfl
  · show f 0 + f 1 + f 2 = f 1 + f 2 + f 0
    abel
  · show f 0 + f 1 + f 2 = f 2 + f 0 + f 1
    abel

/-- The dot product of the two edges at a vertex. -/
def dd (v : Tri n) (i : Fin 3) : ℝ := (v (i + 1) - v i) ⬝ᵥ (v (i + 2) - v i)

theorem edges_self (v : Tri n) (i : Fin 3) : edges v i ⬝ᵥ edges v i = dd v (i + 1) + dd v (i + 2) := by
  simp only [edges, dd, f11, f12, f21, f22, sub_dotProduct, dotProduct_sub]
  rw [dotProduct_comm (v (i + 1)) (v i), dotProduct_comm (v (i + 2)) (v i), dotProduct_comm (v (i + 2)) (v (i + 1))]
  ring

theorem edges_next (v : Tri n) (i : Fin 3) : edges v (i + 1) ⬝ᵥ edges v (i + 2) = -dd v i := by
  simp only [edges, dd, f11, f12, f21, f22, sub_dotProduct, dotProduct_sub]
  rw [dotProduct_comm (v (i + 1)) (v i), dotProduct_comm (v (i + 2)) (v i), dotProduct_comm (v (i + 2)) (v (i + 1))]
  ring

theorem edges_succ (v : Tri n) (i : Fin 3) : edges v i ⬝ᵥ edges v (i + 1) = -dd v (i + 2) := by
  have := edges_next v (i + 2)
  rwa [f21, f22] at this

theorem gram_dd (v : Tri n) (i : Fin 3) : gram v = dd v i * dd v (i + 1) + dd v i * dd v (i + 2) + dd v (i + 1) * dd v (i + 2) := by
  have h0 : gram v = ((v 1 - v 0) ⬝ᵥ (v 1 - v 0)) * ((v 2 - v 0) ⬝ᵥ (v 2 - v 0)) - ((v 1 - v 0) ⬝ᵥ (v 2 - v 0)) * ((v 2 - v 0) ⬝ᵥ (v 1 - v 0)) := by
    unfold gram
    rw [Matrix.det_fin_two]
    rfl
  have h1 : gram v = dd v 0 * dd v 1 + dd v 0 * dd v 2 + dd v 1 * dd v 2 := by
    rw [h0]
    have e0 : dd v 0 = (v 1 - v 0) ⬝ᵥ (v 2 - v 0) := rfl
    have e1 : dd v 1 = (v 2 - v 1) ⬝ᵥ (v 0 - v 1) := rfl
    have e2 : dd v 2 = (v 0 - v 2) ⬝ᵥ (v 1 - v 2) := rfl
    rw [e0, e1, e2]
    simp only [sub_dotProduct, dotProduct_sub]
    rw [dotProduct_comm (v 1) (v 0), dotProduct_comm (v 2) (v 0), dotProduct_comm (v 2) (v 1)]
    ring
  rw [h1]
  fin_cases i
  · rfl
  · show dd v 0 * dd v 1 + dd v 0 * dd v 2 + dd v 1 * dd v 2 = dd v 1 * dd v 2 + dd v 1 * dd v 0 + dd v 2 * dd v 0
    ring
  · show dd v 0 * dd v 1 + dd v 0 * dd v 2 + dd v 1 * dd v 2 = dd v 2 * dd v 0 + dd v 2 * dd v 1 + dd v 0 * dd v 1
    ring

theorem gram_pos (v : Tri n) (h : NonDegenerate v) : 0 < gram v := (nonDegenerate_iff_gram v (nonDegenerate_le v h)).1 h

theorem edge_pos_of_gram (v : Tri n) (h : 0 < gram v) (i : Fin 3) : 0 < dd v (i + 1) + dd v (i + 2) := by
  rcases (edges_self v i ▸ dot_nonneg (edges v i) : 0 ≤ dd v (i + 1) + dd v (i + 2)).lt_or_eq with h1 | h1
  · exact h1
  · rw [gram_dd v i] at h
    have h2 : dd v (i + 2) = -dd v (i + 1) := by linarith
    rw [h2] at h
    nlinarith [sq_nonneg (dd v (i + 1))]

theorem edge_pos (v : Tri n) (h : NonDegenerate v) (i : Fin 3) : 0 < dd v (i + 1) + dd v (i + 2) := edge_pos_of_gram v (gram_pos v h) i

/-- The length of an edge. -/
theorem el_eq (v : Tri n) (i : Fin 3) : edgeLengths v i = √(dd v (i + 1) + dd v (i + 2)) := by
  unfold edgeLengths
  rw [norm_eq_len, len_eq_sqrt, edges_self]

theorem el_sq (v : Tri n) (i : Fin 3) : edgeLengths v i ^ 2 = dd v (i + 1) + dd v (i + 2) := by
  unfold edgeLengths
  rw [norm_eq_len, len_sq, edges_self]

theorem el_nonneg (v : Tri n) (i : Fin 3) : 0 ≤ edgeLengths v i := by unfold edgeLengths; rw [norm_eq_len]; exact len_nonneg _

theorem el_pos (v : Tri n) (h : NonDegenerate v) (i : Fin 3) : 0 < edgeLengths v i := by
  rw [el_eq]; exact Real.sqrt_pos.2 (edge_pos v h i)

theorem el_len (v : Tri n) (i : Fin 3) : edgeLengths v i = len (v (i + 2) - v (i + 1)) := norm_eq_len _

theorem len_neg (x : Fin n → ℝ) : len (-x) = len x := by simp [len]

theorem len_sub_comm (x y : Fin n → ℝ) : len (x - y) = len (y - x) := by rw [← len_neg, neg_sub]

theorem el_len' (v : Tri n) (i : Fin 3) : Linalg.norm (v (i + 1) - v (i + 2)) = edgeLengths v i := by
  rw [norm_eq_len, el_len, len_sub_comm]

/-- Barycentric coordinates in a triangle. -/
theorem bary3 (v : Tri n) (x : Fin n → ℝ) (w : Fin 3 → ℝ) (i : Fin 3) :
    IsBarycentric v x w ↔ w i + w (i + 1) + w (i + 2) = 1 ∧ x = w i • v i + w (i + 1) • v (i + 1) + w (i + 2) • v (i + 2) := by
  have e1 : ∑ j, w j = w i + w (i + 1) + w (i + 2) := sum3 w i
  have e2 : ∑ j, w j • v j = w i • v i + w (i + 1) • v (i + 1) + w (i + 2) • v (i + 2) := sum3 (fun j => w j • v j) i
  unfold IsBarycentric
  rw [e1, e2]

theorem bary_sub (v : Tri n) {x : Fin n → ℝ} {w : Fin 3 → ℝ} (h : IsBarycentric v x w) (i : Fin 3) :
    x - v i = w (i + 1) • (v (i + 1) - v i) + w (i + 2) • (v (i + 2) - v i) := by
  obtain ⟨h1, h2⟩ := (bary3 v x w i).1 h
  rw [h2]
  have : w i = 1 - w (i + 1) - w (i + 2) := by linarith
  rw [this]
  funext a
  simp only [Pi.add_apply, Pi.sub_apply, Pi.smul_apply, smul_eq_mul]
  ring

theorem dd_self1 (v : Tri n) (i : Fin 3) : (v (i + 1) - v i) ⬝ᵥ (v (i + 1) - v i) = dd v i + dd v (i + 1) := by
  have := edges_self v (i + 2)
  simp only [edges, f21, f22] at this
  rw [this]

theorem dd_self2 (v : Tri n) (i : Fin 3) : (v (i + 2) - v i) ⬝ᵥ (v (i + 2) - v i) = dd v i + dd v (i + 2) := by
  have := edges_self v (i + 1)
  simp only [edges, f11, f12] at this
  rw [← neg_sub, neg_dotProduct_neg, this]
  ring

theorem bary_dist (v : Tri n) {x : Fin n → ℝ} {w : Fin 3 → ℝ} (h : IsBarycentric v x w) (i : Fin 3) :
    (x - v i) ⬝ᵥ (x - v i) = w (i + 1) ^ 2 * (dd v i + dd v (i + 1)) + 2 * w (i + 1) * w (i + 2) * dd v i + w (i + 2) ^ 2 * (dd v i + dd v (i + 2)) := by
  rw [bary_sub v h i]
  simp only [add_dotProduct, dotProduct_add, smul_dotProduct, dotProduct_smul, smul_eq_mul]
  rw [dd_self1, dd_self2, dotProduct_comm (v (i + 2) - v i) (v (i + 1) - v i)]
  have : (v (i + 1) - v i) ⬝ᵥ (v (i + 2) - v i) = dd v i := rfl
  rw [this]
  ring

theorem bary_edge_dot (v : Tri n) {x : Fin n → ℝ} {w : Fin 3 → ℝ} (h : IsBarycentric v x w) (i : Fin 3) :
    (x - v i) ⬝ᵥ edges v i = w (i + 2) * dd v (i + 2) - w (i + 1) * dd v (i + 1) := by
  have e : edges v i = (v (i + 2) - v i) - (v (i + 1) - v i) := by unfold edges; abel
  rw [bary_sub v h i, e]
  rw [add_dotProduct, smul_dotProduct, smul_dotProduct, dotProduct_sub (v (i + 1) - v i), dotProduct_sub (v (i + 2) - v i), dd_self1, dd_self2, dotProduct_comm (v (i + 2) - v i) (v (i + 1) - v i)]
  have : (v (i + 1) - v i) ⬝ᵥ (v (i + 2) - v i) = dd v i := rfl
  rw [this]
  simp only [smul_eq_mul]
  ring

/-- Heights of a triangle. -/
theorem tri_height (v : Tri n) (h : NonDegenerate v) (i : Fin 3) {x : Fin n → ℝ} {w : Fin 3 → ℝ} (hw : IsBarycentric v x w) :
    IsDistance x (FacetHull v i) (|w i| * (√(gram v) / edgeLengths v i)) := by
  have hinj : Function.Injective (![i + 1, i + 2] : Fin 2 → Fin 3) := by revert i; decide
  have hne : ∀ j : Fin 2, (![i + 1, i + 2] : Fin 2 → Fin 3) j ≠ i := by revert i; decide
  obtain ⟨_, t, ht, hg, hd⟩ := height v h i (![i + 1, i + 2] : Fin 2 → Fin 3) hinj hne
  have hgr : gram (v ∘ (![i + 1, i + 2] : Fin 2 → Fin 3)) = edgeLengths v i ^ 2 := by
    unfold gram
    rw [Matrix.det_fin_one, el_len, len_sq]
    rfl
  have : √(gram v) / edgeLengths v i = t := by
    rw [hg, hgr, ← mul_pow, Real.sqrt_sq (mul_nonneg (el_nonneg v i) ht.le), mul_div_cancel_left₀ _ (el_pos v h i).ne']
  rw [this]
  exact hd x w hw

end

end Verif.Triangle
