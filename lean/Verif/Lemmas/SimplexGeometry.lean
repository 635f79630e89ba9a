import Verif.Model.SimplexGeometry
import Verif.Spec.SimplexGeometry
import Verif.Lemmas.Simplex
import Verif.Props.Projection
import Mathlib.Analysis.InnerProductSpace.GramSchmidtOrtho
/-!
# Geometry of simplices: edges, Gram determinant, QR decomposition, distances
-/

namespace Verif.SimplexGeometry
open Verif Matrix Verif.Spec Verif.Simplex Verif.Linalg

variable {k n : ℕ}

/-! ## Lengths -/

theorem norm_eq_len (x : Fin n → ℝ) : Linalg.norm x = len x := by
  unfold Linalg.norm len dotProduct
  congr 1
  exact Finset.sum_congr rfl fun _ _ => (sq _).symm

theorem len_sq (x : Fin n → ℝ) : len x ^ 2 = x ⬝ᵥ x := by
  rw [← norm_eq_len]
  unfold Linalg.norm
  rw [Real.sq_sqrt]
  unfold dotProduct
  exact Finset.sum_nonneg fun _ _ => mul_self_nonneg _

theorem len_nonneg (x : Fin n → ℝ) : 0 ≤ len x := Real.sqrt_nonneg _

theorem dot_nonneg (x : Fin n → ℝ) : 0 ≤ x ⬝ᵥ x := by rw [← len_sq]; positivity

theorem len_eq_sqrt (x : Fin n → ℝ) : len x = √(x ⬝ᵥ x) := by rw [← len_sq, Real.sqrt_sq (len_nonneg x)]

theorem len_le_iff (x : Fin n → ℝ) {d : ℝ} (hd : 0 ≤ d) : d ≤ len x ↔ d ^ 2 ≤ x ⬝ᵥ x := by
  rw [← len_sq]
  exact (pow_le_pow_iff_left₀ hd (len_nonneg x) (by norm_num)).symm

theorem len_eq_iff (x : Fin n → ℝ) {d : ℝ} (hd : 0 ≤ d) : len x = d ↔ x ⬝ᵥ x = d ^ 2 := by
  rw [← len_sq]
  exact (pow_left_inj₀ (len_nonneg x) hd (by norm_num)).symm

/-- The distance is determined. -/
theorem IsDistance.unique {x : Fin n → ℝ} {S : Set (Fin n → ℝ)} {d e : ℝ} (h : IsDistance x S d) (h' : IsDistance x S e) : d = e := by
  obtain ⟨⟨y, hy, rfl⟩, h2⟩ := h
  obtain ⟨⟨z, hz, rfl⟩, h3⟩ := h'
  exact le_antisymm (h2 z hz) (h3 y hy)

/-! ## The edge matrix -/

/-- The edges from vertex 0 as columns. -/
def edgeM (v : Vertices ℝ k n) : Matrix (Fin n) (Fin k) ℝ := Matrix.of fun j i => v i.succ j - v 0 j

theorem edgeM_mulVec (v : Vertices ℝ k n) (u : Fin k → ℝ) : edgeM v *ᵥ u = ∑ i, u i • (v i.succ - v 0) := by
  funext j
  simp only [edgeM, mulVec, dotProduct, Matrix.of_apply, Finset.sum_apply, Pi.smul_apply, smul_eq_mul, Pi.sub_apply]
  exact Finset.sum_congr rfl fun _ _ => mul_comm _ _

theorem gram_eq (v : Vertices ℝ k n) : gram v = ((edgeM v)ᵀ * edgeM v).det := rfl

/-- Barycentric coordinates and coordinates with respect to the edges. -/
theorem bary_edge (v : Vertices ℝ k n) (w : Fin (k + 1) → ℝ) (h : ∑ i, w i = 1) :
    ∑ i, w i • v i = v 0 + edgeM v *ᵥ (fun i => w i.succ) := by
  rw [edgeM_mulVec, Fin.sum_univ_succ] at *
  have h0 : w 0 = 1 - ∑ i : Fin k, w i.succ := by linarith
  simp only [smul_sub, Finset.sum_sub_distrib, ← Finset.sum_smul]
  rw [h0, sub_smul, one_smul]
  abel

theorem zero_edge (v : Vertices ℝ k n) (w : Fin (k + 1) → ℝ) (h : ∑ i, w i = 0) :
    ∑ i, w i • v i = edgeM v *ᵥ (fun i => w i.succ) := by
  rw [edgeM_mulVec, Fin.sum_univ_succ] at *
  have h0 : w 0 = - ∑ i : Fin k, w i.succ := by linarith
  simp only [smul_sub, Finset.sum_sub_distrib, ← Finset.sum_smul]
  rw [h0, neg_smul]
  abel

/-- The weights belonging to coordinates with respect to the edges. -/
def weights (u : Fin k → ℝ) : Fin (k + 1) → ℝ := Fin.cons (1 - ∑ i, u i) u

theorem weights_bary (v : Vertices ℝ k n) (u : Fin k → ℝ) : IsBarycentric v (v 0 + edgeM v *ᵥ u) (weights u) := by
  have h : ∑ i, weights u i = 1 := by simp [weights, Fin.sum_univ_succ]
  refine ⟨h, ?_⟩
  rw [bary_edge v _ h]
  simp [weights]

theorem mem_hull (v : Vertices ℝ k n) (x : Fin n → ℝ) : x ∈ Hull v ↔ ∃ u, x = v 0 + edgeM v *ᵥ u := by
  constructor
  · rintro ⟨w, h1, h2⟩
    exact ⟨_, h2.trans (bary_edge v w h1)⟩
  · rintro ⟨u, rfl⟩
    exact ⟨_, weights_bary v u⟩

theorem nonDegenerate_iff (v : Vertices ℝ k n) : NonDegenerate v ↔ IndepColumns (edgeM v) := by
  constructor
  · intro h u hu
    have hs : ∑ i, (Fin.cons (-∑ i, u i) u : Fin (k + 1) → ℝ) i = 0 := by simp [Fin.sum_univ_succ]
    have := h _ hs (by rw [zero_edge v _ hs]; simpa using hu)
    funext i
    simpa using congrFun this i.succ
  · intro h w hs hw
    have h1 := h (fun i => w i.succ) (by rw [← zero_edge v w hs, hw])
    rw [Fin.sum_univ_succ] at hs
    have h2 : ∀ i : Fin k, w i.succ = 0 := fun i => congrFun h1 i
    simp only [h2, Finset.sum_const_zero, add_zero] at hs
    funext i
    refine Fin.cases hs h2 i

/-- Barycentric coordinates are unique for non-degenerate simplices. -/
theorem bary_unique (v : Vertices ℝ k n) (h : NonDegenerate v) {x : Fin n → ℝ} {w w' : Fin (k + 1) → ℝ} (h1 : IsBarycentric v x w)
    (h2 : IsBarycentric v x w') : w = w' := by
  have := h (w - w') (by simp [Finset.sum_sub_distrib, h1.1, h2.1]) (by
    simp only [Pi.sub_apply, sub_smul, Finset.sum_sub_distrib]
    rw [← h1.2, ← h2.2, sub_self])
  exact sub_eq_zero.1 this

/-! ## Reordering of the vertices -/

theorem hull_perm (v : Vertices ℝ k n) (σ : Equiv.Perm (Fin (k + 1))) {x : Fin n → ℝ} {w : Fin (k + 1) → ℝ} (h : IsBarycentric v x w) :
    IsBarycentric (v ∘ σ) x (w ∘ σ) := by
  refine ⟨?_, ?_⟩
  · rw [← h.1]; exact Equiv.sum_comp σ w
  · rw [h.2]; exact (Equiv.sum_comp σ (fun i => w i • v i)).symm

theorem hull_perm_iff (v : Vertices ℝ k n) (σ : Equiv.Perm (Fin (k + 1))) (x : Fin n → ℝ) (w : Fin (k + 1) → ℝ) :
    IsBarycentric (v ∘ σ) x (w ∘ σ) ↔ IsBarycentric v x w := by
  refine ⟨fun h => ?_, hull_perm v σ⟩
  have := hull_perm _ σ.symm h
  have e1 : (v ∘ σ) ∘ σ.symm = v := by funext i; simp
  have e2 : (w ∘ σ) ∘ σ.symm = w := by funext i; simp
  rwa [e1, e2] at this

theorem facetHull_perm (v : Vertices ℝ k n) (σ : Equiv.Perm (Fin (k + 1))) (i : Fin (k + 1)) : FacetHull (v ∘ σ) i = FacetHull v (σ i) := by
  ext x
  constructor
  · rintro ⟨w, h1, h2⟩
    refine ⟨w ∘ σ.symm, (hull_perm_iff v σ x _).1 ?_, by simpa using h2⟩
    have e2 : (w ∘ σ.symm) ∘ σ = w := by funext i; simp
    rwa [e2]
  · rintro ⟨w, h1, h2⟩
    exact ⟨w ∘ σ, hull_perm v σ h1, h2⟩

theorem nonDegenerate_perm (v : Vertices ℝ k n) (σ : Equiv.Perm (Fin (k + 1))) (h : NonDegenerate v) : NonDegenerate (v ∘ σ) := by
  intro w hs hw
  have e1 : ∑ i, (w ∘ σ.symm) i = 0 := by rw [← hs]; exact Equiv.sum_comp σ.symm w
  have e2 : ∑ i, (w ∘ σ.symm) i • v i = 0 := by
    rw [← hw, ← Equiv.sum_comp σ]
    exact Finset.sum_congr rfl fun i _ => by simp
  have := h _ e1 e2
  funext i
  simpa using congrFun this (σ i)

/-- The edges of the reordered unit simplex: the change of coordinates. -/
theorem edgeM_perm (v : Vertices ℝ k n) (σ : Equiv.Perm (Fin (k + 1))) : edgeM (v ∘ σ) = edgeM v * edgeM (Simplex.unit ℝ k ∘ σ) := by
  have key : ∀ i : Fin (k + 1), ∀ j, v i j - v 0 j = ∑ a : Fin k, (v a.succ j - v 0 j) * Simplex.unit ℝ k i a := by
    intro i j
    unfold Simplex.unit
    refine Fin.cases ?_ (fun i => ?_) i
    · have : ∀ x : Fin k, (0 : Fin (k + 1)) ≠ x.succ := fun x => (Fin.succ_ne_zero x).symm
      simp [this]
    · simp [Fin.succ_inj]
  ext j i
  simp only [edgeM, Matrix.of_apply, Matrix.mul_apply, Function.comp]
  have e : v (σ i.succ) j - v (σ 0) j = (v (σ i.succ) j - v 0 j) - (v (σ 0) j - v 0 j) := by ring
  rw [e, key, key, ← Finset.sum_sub_distrib]
  exact Finset.sum_congr rfl fun _ _ => by ring

theorem edgeDet_unit : edgeDet (Simplex.unit ℝ k) = 1 := by
  have : (Matrix.of fun (j i : Fin k) => Simplex.unit ℝ k i.succ j - Simplex.unit ℝ k 0 j) = 1 := by
    ext j i
    have h0 : (0 : Fin (k + 1)) ≠ j.succ := (Fin.succ_ne_zero j).symm
    simp [Simplex.unit, Fin.succ_inj, Matrix.one_apply, h0, eq_comm]
  unfold edgeDet
  rw [this, Matrix.det_one]

/-- The Gram determinant does not depend on the order of the vertices. -/
theorem gram_perm (v : Vertices ℝ k n) (σ : Equiv.Perm (Fin (k + 1))) : gram (v ∘ σ) = gram v := by
  have hs : (edgeM (Simplex.unit ℝ k ∘ σ)).det ^ 2 = 1 := by
    have : (edgeM (Simplex.unit ℝ k ∘ σ)).det = ((Equiv.Perm.sign σ : ℤ) : ℝ) := by
      have := edgeDet_perm (Simplex.unit ℝ k) σ
      rw [edgeDet_unit, mul_one] at this
      exact this
    rw [this]
    rcases Int.units_eq_one_or (Equiv.Perm.sign σ) with h | h <;> rw [h] <;> simp
  rw [gram_eq, gram_eq, edgeM_perm, transpose_mul, Matrix.mul_assoc, ← Matrix.mul_assoc (edgeM v)ᵀ, det_mul, det_mul, det_transpose]
  linear_combination ((edgeM v)ᵀ * edgeM v).det * hs

/-! ## QR decompositions -/

/-- Every matrix with at least as many rows as columns has a QR decomposition, so that the contract of `np.linalg.qr` can be met. -/
theorem exists_qr {m : ℕ} (b : Matrix (Fin n) (Fin m) ℝ) (h : m ≤ n) : ∃ q r, IsQR b q r := by
  classical
  let f : Fin n → EuclideanSpace ℝ (Fin n) := fun i => if hi : i.val < m then WithLp.toLp 2 (fun a => b a ⟨i, hi⟩) else 0
  have hf : Module.finrank ℝ (EuclideanSpace ℝ (Fin n)) = Fintype.card (Fin n) := by simp
  let B := InnerProductSpace.gramSchmidtOrthonormalBasis hf f
  let emb : Fin m → Fin n := fun i => Fin.castLE h i
  have htri : ∀ i j : Fin n, i < j → inner ℝ (B j) (f i) = 0 := fun i j hij =>
    InnerProductSpace.gramSchmidtOrthonormalBasis_inv_triangular hf f hij
  have hfe : ∀ (i : Fin m) a, f (emb i) a = b a i := by
    intro i a
    have : (emb i).val < m := i.2
    simp only [f, dif_pos this]
    rfl
  refine ⟨Matrix.of fun a i => B (emb i) a, Matrix.of fun i j => inner ℝ (B (emb i)) (f (emb j)), ⟨?_, ?_, ?_⟩⟩
  · ext i j
    have h1 := orthonormal_iff_ite.1 B.orthonormal (emb j) (emb i)
    rw [PiLp.inner_apply] at h1
    simp only [Matrix.mul_apply, Matrix.transpose_apply, Matrix.of_apply, Matrix.one_apply]
    refine Eq.trans ?_ (h1.trans ?_)
    · exact Finset.sum_congr rfl fun a _ => by simp
    · have : emb j = emb i ↔ i = j := by
        constructor
        · intro e; exact (Fin.castLE_injective h e).symm
        · intro e; rw [e]
      simp only [this]
  · ext a i
    have h1 : (∑ j, inner ℝ (B j) (f (emb i)) • B j) = f (emb i) := B.sum_repr' (f (emb i))
    have h2 := congrArg (fun x => x a) h1
    simp only [hfe] at h2
    rw [← h2]
    simp only [Matrix.mul_apply, Matrix.of_apply, WithLp.ofLp_sum, Finset.sum_apply, PiLp.smul_apply, smul_eq_mul]
    symm
    refine Finset.sum_of_injOn emb (fun x _ y _ e => Fin.castLE_injective h e) (by simp) ?_ (fun j _ => mul_comm _ _)
    intro j _ hj
    have : emb i < j := by
      by_contra hc
      apply hj
      refine ⟨⟨j.val, lt_of_le_of_lt (Fin.le_def.1 (not_lt.1 hc)) i.2⟩, by simp, ?_⟩
      rfl
    rw [htri _ _ this, zero_mul]
  · intro i j hij
    exact htri _ _ hij

/-- The contract of `np.linalg.qr`: for every matrix with at least as many rows as columns the first result is the orthonormal factor of a QR
decomposition. -/
def QRContract (qr : QR) : Prop := ∀ (n m : ℕ) (b : Matrix (Fin n) (Fin m) ℝ), m ≤ n → ∃ r, IsQR b (qr n m b) r

/-- There is a function with this contract. -/
theorem exists_qrContract : ∃ qr : QR, QRContract qr := by
  classical
  refine ⟨fun n m b => if h : m ≤ n then (exists_qr b h).choose else 0, fun n m b h => ?_⟩
  simp only [dif_pos h]
  exact (exists_qr b h).choose_spec

theorem qr_det_gram {m : ℕ} {b q : Matrix (Fin n) (Fin m) ℝ} {r : Matrix (Fin m) (Fin m) ℝ} (h : IsQR b q r) :
    (bᵀ * b).det = (∏ i, r i i) ^ 2 := by
  rw [h.prod, transpose_mul, Matrix.mul_assoc, ← Matrix.mul_assoc qᵀ, h.orth, Matrix.one_mul, det_mul, det_transpose,
    det_of_isUpperTriangular (fun a b hab => h.tri a b hab), sq]

theorem qr_diag_ne {m : ℕ} {b q : Matrix (Fin n) (Fin m) ℝ} {r : Matrix (Fin m) (Fin m) ℝ} (h : IsQR b q r) (hb : IndepColumns b) (i : Fin m) :
    r i i ≠ 0 := by
  intro h0
  have := gram_det hb
  rw [qr_det_gram h, Finset.prod_eq_zero (f := fun i => r i i) (Finset.mem_univ i) h0] at this
  norm_num at this

theorem indepColumns_iff_gram {m : ℕ} (b : Matrix (Fin n) (Fin m) ℝ) : IndepColumns b ↔ (bᵀ * b).det ≠ 0 := by
  refine ⟨gram_det, fun h x hx => ?_⟩
  by_contra hne
  exact h (exists_mulVec_eq_zero_iff.1 ⟨x, hne, by rw [← mulVec_mulVec, hx, mulVec_zero]⟩)

theorem gram_nonneg (v : Vertices ℝ k n) (h : k ≤ n) : 0 ≤ gram v := by
  obtain ⟨q, r, hq⟩ := exists_qr (edgeM v) h
  rw [gram_eq, qr_det_gram hq]
  positivity

theorem nonDegenerate_iff_gram (v : Vertices ℝ k n) (h : k ≤ n) : NonDegenerate v ↔ 0 < gram v := by
  rw [nonDegenerate_iff, indepColumns_iff_gram, ← gram_eq]
  exact ⟨fun hne => lt_of_le_of_ne (gram_nonneg v h) (Ne.symm hne), fun hp => hp.ne'⟩

/-- A non-degenerate simplex fits in its space. -/
theorem nonDegenerate_le (v : Vertices ℝ k n) (h : NonDegenerate v) : k ≤ n := by
  have hi := (nonDegenerate_iff v).1 h
  have hinj : Function.Injective (edgeM v).mulVec := by
    intro x y hxy
    have : edgeM v *ᵥ (x - y) = 0 := by rw [mulVec_sub]; exact sub_eq_zero.2 hxy
    exact sub_eq_zero.1 (hi _ this)
  have := LinearMap.finrank_le_finrank_of_injective (f := (edgeM v).mulVecLin) hinj
  simpa using this

/-- `gram_schmidt_orthonormalization_rn` without the assumption of linear independence. -/
theorem gs_general {m : ℕ} {b q : Matrix (Fin n) (Fin m) ℝ} {r : Matrix (Fin m) (Fin m) ℝ} (h : IsQR b q r) :
    ∃ u, IsQR b (gramSchmidtRn b q) u ∧ ∀ i, 0 ≤ u i i := by
  have hdiag : ∀ i, r i i = (fun k => q k i) ⬝ᵥ (fun k => b k i) := by
    intro i
    have h1 : qᵀ * b = r := by rw [h.prod, ← Matrix.mul_assoc, h.orth, Matrix.one_mul]
    rw [← h1]
    rfl
  rw [gramSchmidtRn_eq]
  refine ⟨diagonal (gsSign b q) * r, ⟨?_, ?_, ?_⟩, ?_⟩
  · rw [transpose_mul, diagonal_transpose, Matrix.mul_assoc, ← Matrix.mul_assoc qᵀ, h.orth, Matrix.one_mul, gsSign_sq]
  · rw [Matrix.mul_assoc, ← Matrix.mul_assoc (diagonal _), gsSign_sq, Matrix.one_mul, h.prod]
  · intro i j hij
    rw [diagonal_mul, h.tri i j hij, mul_zero]
  · intro i
    rw [diagonal_mul]
    unfold gsSign
    rw [← hdiag]
    split
    · rename_i hlt; linarith
    · rename_i hge; rw [one_mul]; exact not_lt.1 hge

/-! ## The basis of a simplex -/

/-- Renumbering the vertices so that `base` comes first. -/
def rot (base : Fin (k + 1)) : Equiv.Perm (Fin (k + 1)) := Equiv.addLeft base

theorem basis_eq (v : Vertices ℝ k n) (base : Fin (k + 1)) (hk : k ≠ 0) : basis v base = .ok (edgeM (v ∘ rot base)) := by
  unfold basis
  rw [if_neg hk]
  congr 1
  ext j i
  simp only [edgeM, rot, Matrix.of_apply, Function.comp, Equiv.coe_addLeft, add_zero]
  congr 2

theorem rot_zero : (rot (0 : Fin (k + 1))) = 1 := by
  ext i
  simp [rot]

theorem basis_zero (v : Vertices ℝ k n) (hk : k ≠ 0) : basis v 0 = .ok (edgeM v) := by
  rw [basis_eq v 0 hk, rot_zero]
  rfl

theorem orthonormalBasis_eq (qr : QR) (v : Vertices ℝ k n) (base : Fin (k + 1)) (hk : k ≠ 0) :
    orthonormalBasis qr v base = .ok (gramSchmidtRn (edgeM (v ∘ rot base)) (qr n k (edgeM (v ∘ rot base)))) := by
  unfold orthonormalBasis
  rw [basis_eq v base hk]
  rfl

/-- The orthonormal basis of a simplex and the triangular matrix that expresses the edges in it. -/
theorem orthonormalBasis_spec (qr : QR) (hqr : QRContract qr) (v : Vertices ℝ k n) (base : Fin (k + 1)) (hk : k ≠ 0) (hkn : k ≤ n) :
    ∃ b u, orthonormalBasis qr v base = .ok b ∧ IsQR (edgeM (v ∘ rot base)) b u ∧ ∀ i, 0 ≤ u i i := by
  obtain ⟨r, hr⟩ := hqr n k (edgeM (v ∘ rot base)) hkn
  obtain ⟨u, hu, hp⟩ := gs_general hr
  exact ⟨_, u, orthonormalBasis_eq qr v base hk, hu, hp⟩

theorem pinv_orth {m : ℕ} {b : Matrix (Fin n) (Fin m) ℝ} (h : bᵀ * b = 1) : pinv b = bᵀ := by
  unfold pinv
  rw [h, inv_one, Matrix.one_mul]

theorem edgeM_translate (v : Vertices ℝ k n) (x : Fin n → ℝ) : edgeM (fun i => v i - x) = edgeM v := by
  ext j i
  simp [edgeM]

/-- The local coordinates: vertex 0 is the origin, the others are the columns of the triangular factor. -/
theorem localCoordinates_spec (qr : QR) (hqr : QRContract qr) (v : Vertices ℝ k n) (hk : k ≠ 0) (hkn : k ≤ n) :
    ∃ b u w, orthonormalBasis qr v 0 = .ok b ∧ IsQR (edgeM v) b u ∧ (∀ i, 0 ≤ u i i) ∧ localCoordinates qr v = .ok w ∧
      (∀ i, w i = bᵀ *ᵥ (v i - v 0)) ∧ edgeM w = u := by
  obtain ⟨b, u, h1, h2, h3⟩ := orthonormalBasis_spec qr hqr v 0 hk hkn
  rw [rot_zero] at h2
  change IsQR (edgeM v) b u at h2
  have hw : orthonormalBasis qr (fun i => v i - v 0) 0 = .ok b := by
    rw [← h1, orthonormalBasis_eq qr _ 0 hk, orthonormalBasis_eq qr _ 0 hk, rot_zero]
    change Except.ok (gramSchmidtRn (edgeM fun i => v i - v 0) (qr n k (edgeM fun i => v i - v 0))) = _
    rw [edgeM_translate]
    rfl
  refine ⟨b, u, fun i => bᵀ *ᵥ (v i - v 0), h1, h2, h3, ?_, fun _ => rfl, ?_⟩
  · unfold localCoordinates
    rw [if_neg hk]
    simp only [hw, Py.bind_ok, Py.pure_eq, transformToBasis, pinv_orth h2.orth]
  · have hu : bᵀ * edgeM v = u := by rw [h2.prod, ← Matrix.mul_assoc, h2.orth, Matrix.one_mul]
    rw [← hu]
    ext j i
    simp only [edgeM, Matrix.of_apply, Matrix.mul_apply, mulVec, dotProduct, Pi.sub_apply, sub_self, mul_zero, Finset.sum_const_zero, sub_zero]

/-- The volume computed by the program. -/
theorem volume_eq (qr : QR) (hqr : QRContract qr) (v : Vertices ℝ k n) (hkn : k ≤ n) : volume qr v = .ok (√(gram v) / (k.factorial : ℝ)) := by
  have hf : (0 : ℝ) ≤ (k.factorial : ℝ) := Nat.cast_nonneg _
  unfold volume
  by_cases hk : k = 0
  · subst hk
    rw [if_pos rfl]
    simp [gram]
  · rw [if_neg hk]
    by_cases hn : n > k
    · rw [if_pos hn]
      obtain ⟨b, u, w, h1, h2, h3, h4, h5, h6⟩ := localCoordinates_spec qr hqr v hk hkn
      rw [h4]
      simp only [Py.bind_ok]
      unfold signedVolumeE
      rw [if_neg hk, if_neg (by omega), dif_pos rfl]
      have : full rfl w = w := rfl
      rw [this, signedVolume_eq]
      have hd : edgeDet w = ∏ i, u i i := by
        have : edgeDet w = (edgeM w).det := rfl
        rw [this, h6, det_of_isUpperTriangular (fun a b hab => h2.tri a b hab)]
      rw [hd, gram_eq, qr_det_gram h2, Real.sqrt_sq (Finset.prod_nonneg fun i _ => h3 i)]
    · rw [if_neg hn]
      obtain rfl : n = k := by omega
      unfold signedVolumeE
      rw [if_neg hk, if_neg (by omega), dif_pos rfl]
      have : full rfl v = v := rfl
      simp only [Py.bind_ok, Py.pure_eq]
      rw [this, signedVolume_eq, abs_div, abs_of_nonneg hf, gram_eq, det_mul, det_transpose, Real.sqrt_mul_self_eq_abs]
      rfl

end Verif.SimplexGeometry
