import Verif.Model.Simplex
import Verif.Spec.Simplex
import Mathlib.LinearAlgebra.Matrix.SchurComplement
import Mathlib.Algebra.Order.BigOperators.Group.Finset
import Mathlib.Algebra.Order.Field.Basic
import Mathlib.Tactic.Linarith
import Mathlib.Tactic.FieldSimp
/-!
# Barycentric coordinates by Cramer's rule
-/

namespace Verif.Simplex
open Verif Verif.Spec

variable {K : Type} [Field K]

/-- The edge matrix. -/
def E {n : ℕ} (v : Vertices K n n) : Matrix (Fin n) (Fin n) K := Matrix.of fun j i => v i.succ j - v 0 j

/-- The barycentric coordinates. -/
noncomputable def lam {n : ℕ} (v : Vertices K n n) (x : Fin n → K) : Fin (n + 1) → K :=
  Fin.cons (1 - ∑ i, (E v)⁻¹.mulVec (x - v 0) i) ((E v)⁻¹.mulVec (x - v 0))

theorem E_mulVec {n : ℕ} (v : Vertices K n n) (u : Fin n → K) : (E v).mulVec u = ∑ i, u i • (v i.succ - v 0) := by
  funext j
  simp only [Matrix.mulVec, dotProduct, E, Matrix.of_apply, Finset.sum_apply, Pi.smul_apply, Pi.sub_apply, smul_eq_mul]
  exact Finset.sum_congr rfl (fun i _ => mul_comm _ _)

theorem isBarycentric_iff {n : ℕ} (v : Vertices K n n) (hd : edgeDet v ≠ 0) (x : Fin n → K) (w : Fin (n + 1) → K) :
    IsBarycentric v x w ↔ w = lam v x := by
  have hu : IsUnit (E v).det := isUnit_iff_ne_zero.2 hd
  unfold IsBarycentric lam
  rw [Fin.sum_univ_succ, Fin.sum_univ_succ]
  constructor
  · rintro ⟨h1, h2⟩
    have h3 : (E v).mulVec (fun i => w i.succ) = x - v 0 := by
      rw [E_mulVec, h2]
      simp only [smul_sub, Finset.sum_sub_distrib, ← Finset.sum_smul]
      rw [show w 0 = 1 - ∑ i : Fin n, w i.succ by rw [← h1]; ring, sub_smul, one_smul]
      abel
    have h4 : (E v)⁻¹.mulVec (x - v 0) = fun i => w i.succ := by
      rw [← h3, Matrix.mulVec_mulVec, Matrix.nonsing_inv_mul _ hu, Matrix.one_mulVec]
    rw [h4]
    funext i
    refine Fin.cases ?_ (fun i => ?_) i
    · rw [Fin.cons_zero, ← h1]; ring
    · rw [Fin.cons_succ]
  · intro h
    have h3 : (E v).mulVec (fun i => w i.succ) = x - v 0 := by
      rw [h]
      simp only [Fin.cons_succ]
      rw [Matrix.mulVec_mulVec, Matrix.mul_nonsing_inv _ hu, Matrix.one_mulVec]
    have h0 : w 0 + ∑ i : Fin n, w i.succ = 1 := by rw [h]; simp
    refine ⟨h0, ?_⟩
    rw [E_mulVec] at h3
    simp only [smul_sub, Finset.sum_sub_distrib, ← Finset.sum_smul] at h3
    rw [show w 0 = 1 - ∑ i : Fin n, w i.succ by rw [← h0]; ring, sub_smul, one_smul]
    have := congrArg (· + v 0) h3
    simp only [sub_add_cancel] at this
    rw [← this]; abel

/-- Replacing a vertex by the point. -/
theorem edgeDet_update {n : ℕ} (v : Vertices K n n) (hd : edgeDet v ≠ 0) (x : Fin n → K) (i : Fin (n + 1)) :
    edgeDet (Function.update v i x) = edgeDet v * lam v x i := by
  have hu : IsUnit (E v).det := isUnit_iff_ne_zero.2 hd
  refine Fin.cases ?_ (fun i => ?_) i
  · have h1 : (Matrix.of fun (j i : Fin n) => Function.update v 0 x i.succ j - Function.update v 0 x 0 j) =
        E v + Matrix.replicateCol Unit (-(x - v 0)) * Matrix.replicateRow Unit (fun _ => (1 : K)) := by
      ext j i
      simp [E, Matrix.mul_apply]
    rw [edgeDet, h1]
    rw [Matrix.det_add_replicateCol_mul_replicateRow hu]
    congr 1
    rw [lam, Fin.cons_zero, Matrix.det_unique]
    simp only [Matrix.add_apply, Matrix.one_apply_eq, Matrix.mul_apply, Matrix.replicateRow_apply, Matrix.replicateCol_apply]
    simp only [Matrix.mulVec, dotProduct, one_mul, Pi.neg_apply, mul_neg, Finset.sum_neg_distrib, Finset.sum_mul]
    rw [Finset.sum_comm, ← sub_eq_add_neg]
  · have h1 : (Matrix.of fun (j k : Fin n) => Function.update v i.succ x k.succ j - Function.update v i.succ x 0 j) =
        (E v).updateCol i (x - v 0) := by
      ext j k
      rw [Matrix.of_apply, Function.update_of_ne (Fin.succ_ne_zero i).symm]
      by_cases h : k = i
      · subst h; simp [Matrix.updateCol_self]
      · rw [Function.update_of_ne (fun e => h (Fin.succ_injective _ e)), Matrix.updateCol_ne h]; rfl
    rw [edgeDet, h1, ← Matrix.cramer_apply, lam, Fin.cons_succ, Matrix.inv_def, Matrix.smul_mulVec,
      Matrix.cramer_eq_adjugate_mulVec, Pi.smul_apply, smul_eq_mul, Ring.inverse_eq_inv']
    rw [show edgeDet v = (E v).det from rfl, ← mul_assoc, mul_inv_cancel₀ (show (E v).det ≠ 0 from hd), one_mul]

theorem signedVolume_eq {n : ℕ} (v : Vertices K n n) : signedVolume v = edgeDet v / (n.factorial : K) := rfl

/-- The matrix with rows `(1, vᵢ)`. -/
def rows {n : ℕ} (v : Vertices K n n) : Matrix (Fin (n + 1)) (Fin (n + 1)) K := Matrix.of fun i => Fin.cons 1 (v i)

theorem det_rows {n : ℕ} (v : Vertices K n n) : (rows v).det = edgeDet v := by
  have h1 : (rows v).det = (Matrix.of fun (i : Fin (n + 1)) => if i = 0 then rows v 0 else (rows v i - rows v 0)).det := by
    refine Matrix.det_eq_of_forall_row_eq_smul_add_const (fun i => if i = 0 then 0 else 1) 0 (by simp) (fun i j => ?_)
    by_cases h : i = 0
    · subst h; simp
    · simp [h]
  rw [h1, Matrix.det_succ_column_zero, Fin.sum_univ_succ, Finset.sum_eq_zero]
  · simp only [Fin.val_zero, pow_zero, one_mul, Matrix.of_apply, if_true, add_zero]
    rw [show rows v 0 0 = 1 from rfl, one_mul, edgeDet, ← Matrix.det_transpose]
    congr 1
  · intro i _
    simp [rows]

/-- Permuting the vertices. -/
theorem edgeDet_perm {n : ℕ} (v : Vertices K n n) (σ : Equiv.Perm (Fin (n + 1))) :
    edgeDet (v ∘ σ) = (Equiv.Perm.sign σ : ℤ) * edgeDet v := by
  rw [← det_rows, ← det_rows, ← Matrix.det_permute]
  rfl

section Ordered
variable [LinearOrder K] [IsStrictOrderedRing K]

omit [IsStrictOrderedRing K] in
theorem foldl_barycentricStep {n : ℕ} (x : Fin n → K) (vol : K) (v : Vertices K n n) (l : List (Fin (n + 1))) (b : Fin (n + 1) → K) :
    l.foldl (barycentricStep x vol) (v, b) =
      (v, fun i => if i ∈ l then signedVolume (Function.update v i x) / vol else b i) := by
  induction l generalizing b with
  | nil => simp
  | cons a l ih =>
    rw [List.foldl_cons, barycentricStep]
    simp only [Function.update_idem, Function.update_eq_self]
    rw [ih]
    congr 1
    funext i
    by_cases h : i ∈ l
    · simp [h]
    · by_cases h2 : i = a
      · subst h2; simp
      · simp [h, h2, Function.update_of_ne]

omit [IsStrictOrderedRing K] in
theorem cartesianToBarycentricState_eq {n : ℕ} (x : Fin n → K) (v : Vertices K n n) :
    cartesianToBarycentricState x v = (v, fun i => signedVolume (Function.update v i x) / volume v) := by
  unfold cartesianToBarycentricState
  rw [foldl_barycentricStep]
  simp

theorem cartesianToBarycentric_eq {n : ℕ} (x : Fin n → K) (v : Vertices K n n) (hd : edgeDet v ≠ 0) :
    cartesianToBarycentric x v = fun i => (if 0 < edgeDet v then 1 else -1) * lam v x i := by
  unfold cartesianToBarycentric
  rw [cartesianToBarycentricState_eq]
  funext i
  simp only [volume, signedVolume_eq, edgeDet_update v hd, abs_div, Nat.abs_cast]
  have hf : (n.factorial : K) ≠ 0 := Nat.cast_ne_zero.2 (Nat.factorial_ne_zero _)
  rw [div_div_div_cancel_right₀ hf]
  split
  · rename_i h; rw [abs_of_pos h, mul_comm, mul_div_assoc, div_self hd, one_mul, mul_one]
  · rename_i h
    rw [abs_of_neg (lt_of_le_of_ne (not_lt.1 h) hd)]
    field_simp

end Ordered

end Verif.Simplex
