import Verif.Model.Linalg
import Mathlib.LinearAlgebra.Matrix.DotProduct
import Mathlib.LinearAlgebra.Matrix.Rank
import Mathlib.Analysis.InnerProductSpace.PiL2
import Mathlib.Tactic.LinearCombination
import Mathlib.Tactic.Linarith
import Mathlib.Tactic.FieldSimp
import Mathlib.Tactic.Ring
import Mathlib.Tactic.NormNum
import Mathlib.Tactic.FinCases
/-!
# C54 (projections, Gram-Schmidt) and C60 (bases and projections on subspaces)
-/

namespace Verif.Linalg
open Verif Matrix

/-! ## C54: projections -/

/-- **C54** `interval_projection` returns the point of the interval nearest to `p`. -/
theorem C54_interval_projection (p a b : ℝ) (h : a ≤ b) :
    a ≤ intervalProjection p a b ∧ intervalProjection p a b ≤ b ∧ ∀ x, a ≤ x → x ≤ b → |p - intervalProjection p a b| ≤ |p - x| := by
  unfold intervalProjection Angle.inClosedRange
  simp only [Bool.and_eq_true, decide_eq_true_eq]
  split
  · rename_i hp
    exact ⟨hp.1, hp.2, fun x _ _ => by simp⟩
  · rename_i hp
    split
    · rename_i hb
      refine ⟨h, le_refl _, fun x h1 h2 => ?_⟩
      rw [abs_of_pos (by linarith), abs_of_pos (by linarith)]
      linarith
    · rename_i hb
      have : p < a := by
        by_contra hc
        exact hp ⟨not_lt.1 hc, not_lt.1 hb⟩
      refine ⟨le_refl _, h, fun x h1 h2 => ?_⟩
      rw [abs_of_neg (by linarith), abs_of_neg (by linarith)]
      linarith

/-- **C54** `vector_projection(a, b)` for `b ≠ 0`: the multiple of `b` nearest to `a`; together with `vector_rejection(a, b)`, which is
orthogonal to `b`, it gives `a` back. -/
theorem C54_vector_projection {n : Nat} (a b : Fin n → ℝ) (hb : b ≠ 0) :
    (∃ t : ℝ, vectorProjection a b = t • b) ∧ vectorRejection a b ⬝ᵥ b = 0 ∧ vectorProjection a b + vectorRejection a b = a ∧
      ∀ t : ℝ, vectorRejection a b ⬝ᵥ vectorRejection a b ≤ (a - t • b) ⬝ᵥ (a - t • b) := by
  have hbb : b ⬝ᵥ b ≠ 0 := fun h => hb (dotProduct_self_eq_zero.1 h)
  have horth : vectorRejection a b ⬝ᵥ b = 0 := by
    unfold vectorRejection vectorProjection
    rw [sub_dotProduct, smul_dotProduct, smul_eq_mul, div_mul_cancel₀ _ hbb, sub_self]
  refine ⟨⟨_, rfl⟩, horth, by unfold vectorRejection; simp, fun t => ?_⟩
  have e1 : a - t • b = vectorRejection a b + ((a ⬝ᵥ b) / (b ⬝ᵥ b) - t) • b := by
    unfold vectorRejection vectorProjection
    rw [sub_smul]
    abel
  rw [e1]
  set r := vectorRejection a b
  set s := (a ⬝ᵥ b) / (b ⬝ᵥ b) - t
  rw [add_dotProduct, dotProduct_add, dotProduct_add, smul_dotProduct, dotProduct_smul, smul_dotProduct, dotProduct_smul, horth,
    dotProduct_comm b r, horth]
  have : 0 ≤ b ⬝ᵥ b := by
    unfold dotProduct
    exact Finset.sum_nonneg (fun i _ => mul_self_nonneg _)
  simp only [smul_eq_mul]
  nlinarith [mul_nonneg (mul_self_nonneg s) this]

/-- **C54** `vector_plane_projection(v, n)` is the orthogonal projection on the plane with normal `n`: it lies in the plane, differs from `v` by
a multiple of `n`, and vectors in the plane are not changed. -/
theorem C54_vector_plane_projection {n : Nat} (v nrm : Fin n → ℝ) (h : nrm ≠ 0) :
    vectorPlaneProjection v nrm ⬝ᵥ nrm = 0 ∧ (∃ t : ℝ, v - vectorPlaneProjection v nrm = t • nrm) ∧
      (v ⬝ᵥ nrm = 0 → vectorPlaneProjection v nrm = v) := by
  obtain ⟨⟨t, h1⟩, h2, h3, -⟩ := C54_vector_projection v nrm h
  refine ⟨h2, ⟨t, ?_⟩, fun h0 => ?_⟩
  · unfold vectorPlaneProjection
    rw [← h1, sub_eq_iff_eq_add, h3]
  · unfold vectorPlaneProjection vectorRejection vectorProjection
    rw [h0]
    simp

/-- **C54** `vector_oblique_projection_2(a, b, c)` is the projection on the line along `b` in the direction of `c`, for linearly independent
`b` and `c`. -/
theorem C54_vector_oblique_projection (a b c : Fin 2 → ℝ) (h : b 0 * c 1 - b 1 * c 0 ≠ 0) :
    (∃ t : ℝ, vectorObliqueProjection2 a b c = t • b) ∧ ∃ s : ℝ, a - vectorObliqueProjection2 a b c = s • c := by
  have hi : (b 0 * c 1 - b 1 * c 0)⁻¹ * (b 0 * c 1 - b 1 * c 0) = 1 := inv_mul_cancel₀ h
  have e : vectorObliqueProjection2 a b c = ((a 0 * c 1 - a 1 * c 0) / (b 0 * c 1 - b 1 * c 0)) • b := by
    have h' : (-(b 0 * c 1) + b 1 * c 0)⁻¹ = -(b 0 * c 1 - b 1 * c 0)⁻¹ := by
      rw [← inv_neg]
      congr 1
      ring
    unfold vectorObliqueProjection2
    funext i
    fin_cases i <;> simp [mulVec, dotProduct, Fin.sum_univ_two, h'] <;> ring
  refine ⟨⟨_, e⟩, (a 1 * b 0 - a 0 * b 1) / (b 0 * c 1 - b 1 * c 0), ?_⟩
  rw [e]
  funext i
  rw [div_eq_mul_inv, div_eq_mul_inv]
  generalize (b 0 * c 1 - b 1 * c 0)⁻¹ = d at hi
  fin_cases i <;> simp
  · linear_combination -a 0 * hi
  · linear_combination -a 1 * hi

example : (![1, 2] : Fin 2 → ℝ) 0 * (![3, 4] : Fin 2 → ℝ) 1 - (![1, 2] : Fin 2 → ℝ) 1 * (![3, 4] : Fin 2 → ℝ) 0 ≠ 0 := by simp; norm_num

/-! ## C54: Gram-Schmidt -/

section GramSchmidt
variable {E : Type} [NormedAddCommGroup E] [InnerProductSpace ℝ E]

/-- A list of vectors is orthonormal. -/
def OrthonormalList (l : List E) : Prop := (∀ v ∈ l, (inner ℝ v v : ℝ) = 1) ∧ l.Pairwise (fun v w => (inner ℝ v w : ℝ) = 0)

/-- The span of the vectors of a list. -/
def spanL (l : List E) : Submodule ℝ E := Submodule.span ℝ {v | v ∈ l}

/-- No vector of the list is a linear combination of the ones before it, i.e. the vectors are linearly independent. -/
def Independent (done : List E) : List E → Prop
  | [] => True
  | v :: vs => v ∉ spanL done ∧ Independent (done ++ [v]) vs

theorem mem_spanL {l : List E} {v : E} (h : v ∈ l) : v ∈ spanL l := Submodule.subset_span h

theorem spanL_mono {l l' : List E} (h : ∀ v ∈ l, v ∈ spanL l') : spanL l ≤ spanL l' := Submodule.span_le.2 h

theorem gsReduce_spec (done : List E) (v : E) (ho : OrthonormalList done) :
    (∀ q ∈ done, (inner ℝ (gsReduce v done) q : ℝ) = 0) ∧ v - gsReduce v done ∈ spanL done ∧
      ∀ p, (∀ q ∈ done, (inner ℝ p q : ℝ) = 0) → (inner ℝ (gsReduce v done) p : ℝ) = inner ℝ v p := by
  induction done generalizing v with
  | nil => exact ⟨by simp, by simp [gsReduce], fun p _ => rfl⟩
  | cons q qs ih =>
    have hqs : OrthonormalList qs := ⟨fun x hx => ho.1 x (List.mem_cons_of_mem _ hx), (List.pairwise_cons.1 ho.2).2⟩
    have hq := (List.pairwise_cons.1 ho.2).1
    have hqq := ho.1 q List.mem_cons_self
    obtain ⟨h1, h2, h3⟩ := ih (v - (inner ℝ v q : ℝ) • q) hqs
    simp only [gsReduce]
    refine ⟨?_, ?_, ?_⟩
    · intro p hp
      rcases List.mem_cons.1 hp with rfl | hp
      · rw [h3 p hq, inner_sub_left, real_inner_smul_left, hqq]
        ring
      · exact h1 p hp
    · have e : v - gsReduce (v - (inner ℝ v q : ℝ) • q) qs =
          (inner ℝ v q : ℝ) • q + (v - (inner ℝ v q : ℝ) • q - gsReduce (v - (inner ℝ v q : ℝ) • q) qs) := by abel
      rw [e]
      refine Submodule.add_mem _ (Submodule.smul_mem _ _ (mem_spanL List.mem_cons_self)) (spanL_mono ?_ h2)
      exact fun x hx => mem_spanL (List.mem_cons_of_mem _ hx)
    · intro p hp
      rw [h3 p (fun x hx => hp x (List.mem_cons_of_mem _ hx)), inner_sub_left, real_inner_smul_left,
        real_inner_comm p q, hp q List.mem_cons_self]
      ring

/-- The invariant of the outer loop: the vectors found so far are orthonormal and span the same space as the vectors processed. -/
theorem gsLoop_spec (vs : List E) (seen done : List E) (ho : OrthonormalList done) (hs : spanL done = spanL seen) (hi : Independent seen vs) :
    ∃ new, gsLoop done vs = done ++ new ∧ new.length = vs.length ∧ OrthonormalList (done ++ new) ∧
      (∀ k ≤ vs.length, spanL (done ++ new.take k) = spanL (seen ++ vs.take k)) ∧
      List.Forall₂ (fun q v => 0 < (inner ℝ q v : ℝ)) new vs := by
  induction vs generalizing seen done with
  | nil =>
    refine ⟨[], by simp [gsLoop], rfl, by simpa using ho, ?_, .nil⟩
    intro k _
    simpa using hs
  | cons v vs ih =>
    obtain ⟨hv, hi'⟩ := hi
    obtain ⟨h1, h2, h3⟩ := gsReduce_spec done v ho
    simp only [gsLoop]
    set w := gsReduce v done with hw
    have hw0 : w ≠ 0 := by
      intro h0
      rw [h0, sub_zero, hs] at h2
      exact hv h2
    have hpos : 0 < (inner ℝ w w : ℝ) := real_inner_self_pos.2 hw0
    set c := 1 / √(inner ℝ w w : ℝ) with hc
    have hcpos : 0 < c := by rw [hc]; exact one_div_pos.2 (Real.sqrt_pos.2 hpos)
    have hcc : c * (c * (inner ℝ w w : ℝ)) = 1 := by
      have hsq := Real.mul_self_sqrt hpos.le
      have hsp := Real.sqrt_pos.2 hpos
      rw [hc]
      generalize √(inner ℝ w w : ℝ) = r at hsq hsp
      rw [← hsq]
      field_simp
    have ho' : OrthonormalList (done ++ [c • w]) := by
      constructor
      · intro x hx
        rcases List.mem_append.1 hx with hx | hx
        · exact ho.1 x hx
        · rw [List.mem_singleton.1 hx, real_inner_smul_left, real_inner_smul_right, hcc]
      · rw [List.pairwise_append]
        refine ⟨ho.2, by simp, ?_⟩
        intro x hx y hy
        rw [List.mem_singleton.1 hy, real_inner_smul_right, real_inner_comm, h1 x hx, mul_zero]
    have hs' : spanL (done ++ [c • w]) = spanL (seen ++ [v]) := by
      apply le_antisymm
      · apply spanL_mono
        intro x hx
        rcases List.mem_append.1 hx with hx | hx
        · exact spanL_mono (fun y hy => mem_spanL (List.mem_append_left _ hy)) (hs ▸ mem_spanL hx)
        · rw [List.mem_singleton.1 hx]
          apply Submodule.smul_mem
          have : w = v - (v - w) := by abel
          rw [this]
          refine Submodule.sub_mem _ (mem_spanL (by simp)) ?_
          rw [hs] at h2
          exact spanL_mono (fun y hy => mem_spanL (List.mem_append_left _ hy)) h2
      · apply spanL_mono
        intro x hx
        rcases List.mem_append.1 hx with hx | hx
        · exact spanL_mono (fun y hy => mem_spanL (List.mem_append_left _ hy)) (hs.symm ▸ mem_spanL hx)
        · rw [List.mem_singleton.1 hx]
          have e : v = (v - w) + (1 / c) • (c • w) := by
            rw [smul_smul, one_div_mul_cancel hcpos.ne', one_smul]
            abel
          rw [e]
          refine Submodule.add_mem _ (spanL_mono (fun y hy => mem_spanL (List.mem_append_left _ hy)) h2) ?_
          exact Submodule.smul_mem _ _ (mem_spanL (by simp))
    obtain ⟨new, g1, g2, g3, g4, g5⟩ := ih (seen ++ [v]) (done ++ [c • w]) ho' hs' hi'
    refine ⟨(c • w) :: new, by rw [g1]; simp, by simp [g2], by simpa using g3, ?_, .cons ?_ g5⟩
    · intro k hk
      cases k with
      | zero => simpa using hs
      | succ k =>
        have := g4 k (by simpa using hk)
        simpa using this
    · rw [real_inner_smul_left, ← real_inner_comm]
      have e : (inner ℝ v w : ℝ) = inner ℝ w w := (h3 w (fun q hq => h1 q hq)).symm
      rw [e]
      exact mul_pos hcpos hpos

/-- **C54** `gram_schmidt_orthonormalization` of linearly independent vectors: an orthonormal family of the same length; for every `k` its first
`k` vectors span the same space as the first `k` input vectors, and the `k`-th vector has a positive component along the `k`-th input vector. -/
theorem C54_gram_schmidt (basis : List E) (hne : basis ≠ []) (hi : Independent [] basis) :
    ∃ q, gramSchmidt basis = .ok q ∧ q.length = basis.length ∧ OrthonormalList q ∧
      (∀ k ≤ basis.length, spanL (q.take k) = spanL (basis.take k)) ∧ List.Forall₂ (fun q v => 0 < (inner ℝ q v : ℝ)) q basis := by
  obtain ⟨new, h1, h2, h3, h4, h5⟩ := gsLoop_spec basis [] [] ⟨by simp, .nil⟩ rfl hi
  refine ⟨new, ?_, h2, by simpa using h3, by simpa using h4, h5⟩
  unfold gramSchmidt
  rw [h1]
  have : basis.length > 0 := List.length_pos_iff.2 hne
  simp [pyAssert, this, Py.bind_ok, Py.pure_eq]

/-- **C54** The empty family is rejected. -/
theorem C54_gram_schmidt_empty : gramSchmidt ([] : List E) = .error .assertion := rfl

example : Independent [] [!₂[(1 : ℝ), 1], !₂[(0 : ℝ), 2]] := by
  refine ⟨?_, ?_, trivial⟩
  · simp only [spanL, List.not_mem_nil, Set.setOf_false, Submodule.span_empty, Submodule.mem_bot]
    intro h
    have := congrArg (fun v => v 0) h
    simp at this
  · simp only [spanL, List.nil_append, List.mem_singleton, Set.setOf_eq_eq_singleton, Submodule.mem_span_singleton]
    rintro ⟨t, ht⟩
    have h0 := congrArg (fun v => v 0) ht
    have h1 := congrArg (fun v => v 1) ht
    simp at h0 h1
    rw [h0] at h1
    norm_num at h1

end GramSchmidt

/-! ## C60: subspace projections and coordinate transformations -/

/-- The contract of `np.linalg.qr` for a matrix with at least as many rows as columns: the columns of `q` are orthonormal and `basis = q r` with
`r` upper triangular. -/
structure IsQR {n m : Nat} (basis q : Matrix (Fin n) (Fin m) ℝ) (r : Matrix (Fin m) (Fin m) ℝ) : Prop where
  orth : qᵀ * q = 1
  prod : basis = q * r
  tri : ∀ i j, j < i → r i j = 0

/-- The columns of a matrix are linearly independent. -/
def IndepColumns {n m : Nat} (b : Matrix (Fin n) (Fin m) ℝ) : Prop := ∀ x : Fin m → ℝ, b *ᵥ x = 0 → x = 0

/-- The signs applied by `gram_schmidt_orthonormalization_rn`. -/
noncomputable def gsSign {n m : Nat} (basis q : Matrix (Fin n) (Fin m) ℝ) (i : Fin m) : ℝ :=
  open Classical in if (fun k => q k i) ⬝ᵥ (fun k => basis k i) < 0 then -1 else 1

theorem gramSchmidtRn_eq {n m : Nat} (basis q : Matrix (Fin n) (Fin m) ℝ) : gramSchmidtRn basis q = q * diagonal (gsSign basis q) := by
  ext a i
  rw [mul_diagonal]
  unfold gramSchmidtRn gsSign
  simp only [of_apply]
  split <;> ring

theorem gsSign_sq {n m : Nat} (basis q : Matrix (Fin n) (Fin m) ℝ) : diagonal (gsSign basis q) * diagonal (gsSign basis q) = 1 := by
  rw [diagonal_mul_diagonal]
  convert diagonal_one with i
  unfold gsSign
  split <;> simp

/-- **C60** `gram_schmidt_orthonormalization_rn` for linearly independent columns: orthonormal columns, the basis is the product of the result
with an upper triangular matrix with positive diagonal (which determines the result), given the contract of `np.linalg.qr`. -/
theorem C60_gram_schmidt_rn {n m : Nat} (basis q : Matrix (Fin n) (Fin m) ℝ) (r : Matrix (Fin m) (Fin m) ℝ) (h : IsQR basis q r)
    (hb : IndepColumns basis) :
    (gramSchmidtRn basis q)ᵀ * gramSchmidtRn basis q = 1 ∧
      ∃ u : Matrix (Fin m) (Fin m) ℝ, basis = gramSchmidtRn basis q * u ∧ (∀ i j, j < i → u i j = 0) ∧ ∀ i, 0 < u i i := by
  have hdiag : ∀ i, r i i = (fun k => q k i) ⬝ᵥ (fun k => basis k i) := by
    intro i
    have h1 : qᵀ * basis = r := by rw [h.prod, ← Matrix.mul_assoc, h.orth, Matrix.one_mul]
    rw [← h1]
    rfl
  rw [gramSchmidtRn_eq]
  refine ⟨?_, diagonal (gsSign basis q) * r, ?_, ?_, ?_⟩
  · rw [transpose_mul, diagonal_transpose, Matrix.mul_assoc, ← Matrix.mul_assoc qᵀ, h.orth, Matrix.one_mul, gsSign_sq]
  · rw [Matrix.mul_assoc, ← Matrix.mul_assoc (diagonal _), gsSign_sq, Matrix.one_mul, h.prod]
  · intro i j hij
    rw [diagonal_mul, h.tri i j hij, mul_zero]
  · intro i
    rw [diagonal_mul]
    have hne : r i i ≠ 0 := by
      intro h0
      -- a triangular matrix with a zero on the diagonal is singular
      have hdet : r.det = 0 := by
        rw [det_of_isUpperTriangular (fun a b hab => h.tri a b hab)]
        exact Finset.prod_eq_zero (Finset.mem_univ i) h0
      obtain ⟨x, hx0, hx⟩ := exists_mulVec_eq_zero_iff.2 hdet
      apply hx0
      apply hb
      rw [h.prod, ← mulVec_mulVec, hx, mulVec_zero]
    unfold gsSign
    rw [← hdiag]
    split
    · rename_i hlt
      linarith
    · rename_i hge
      rw [one_mul]
      exact lt_of_le_of_ne (not_lt.1 hge) (Ne.symm hne)

/-- **C60** `subspace_projection_transformation(basis, origin)` is the orthogonal projection on the affine subspace through the origin spanned by
the basis: the image of `x` differs from the origin by a combination of the basis vectors, and `x` minus its image is orthogonal to all of
them. -/
theorem C60_subspace_projection {n m : Nat} (basis q : Matrix (Fin n) (Fin m) ℝ) (r : Matrix (Fin m) (Fin m) ℝ) (h : IsQR basis q r)
    (hb : IndepColumns basis) (hmn : m ≤ n) (origin : Option (Fin n → ℝ)) :
    ∃ a b, subspaceProjectionTransformation basis q origin = .ok (a, b) ∧
      ∀ x, (∃ c, a *ᵥ x + b = origin.getD 0 + basis *ᵥ c) ∧ basisᵀ *ᵥ (x - (a *ᵥ x + b)) = 0 := by
  set o : Fin n → ℝ := origin.getD 0 with ho
  have hgs : gramSchmidtRn basis q * (gramSchmidtRn basis q)ᵀ = q * qᵀ := by
    rw [gramSchmidtRn_eq, transpose_mul, diagonal_transpose, Matrix.mul_assoc, ← Matrix.mul_assoc (diagonal _), gsSign_sq, Matrix.one_mul]
  have hdet : r.det ≠ 0 := by
    intro h0
    obtain ⟨x, hx0, hx⟩ := exists_mulVec_eq_zero_iff.2 h0
    apply hx0
    apply hb
    rw [h.prod, ← mulVec_mulVec, hx, mulVec_zero]
  refine ⟨q * qᵀ, (1 - q * qᵀ) *ᵥ o, ?_, ?_⟩
  · unfold subspaceProjectionTransformation
    simp only [pyAssert, decide_eq_true_eq]
    rw [if_pos hmn, hgs]
    rfl
  · intro x
    have hxo : (q * qᵀ) *ᵥ x + (1 - q * qᵀ) *ᵥ o = o + (q * qᵀ) *ᵥ (x - o) := by
      rw [sub_mulVec, one_mulVec, mulVec_sub]
      abel
    refine ⟨⟨r⁻¹ *ᵥ (qᵀ *ᵥ (x - o)), ?_⟩, ?_⟩
    · rw [hxo, h.prod, mulVec_mulVec, mulVec_mulVec, Matrix.mul_assoc q r, mul_nonsing_inv _ (Ne.isUnit hdet), Matrix.mul_one]
    · rw [hxo]
      have e : x - (o + (q * qᵀ) *ᵥ (x - o)) = (1 - q * qᵀ) *ᵥ (x - o) := by
        rw [sub_mulVec, one_mulVec]
        abel
      rw [e, mulVec_mulVec]
      have : basisᵀ * (1 - q * qᵀ) = 0 := by
        rw [Matrix.mul_sub, Matrix.mul_one, h.prod, transpose_mul, ← Matrix.mul_assoc, Matrix.mul_assoc rᵀ, h.orth, Matrix.mul_one, sub_self]
      rw [this, zero_mulVec]

/-- **C60** More basis vectors than the dimension of the space are rejected. -/
theorem C60_subspace_projection_error {n m : Nat} (basis q : Matrix (Fin n) (Fin m) ℝ) (hmn : n < m) (origin : Option (Fin n → ℝ)) :
    subspaceProjectionTransformation basis q origin = .error .assertion := by
  unfold subspaceProjectionTransformation
  simp only [pyAssert, decide_eq_true_eq]
  rw [if_neg (not_le.2 hmn)]
  rfl

theorem gram_det {n m : Nat} {b : Matrix (Fin n) (Fin m) ℝ} (h : IndepColumns b) : (bᵀ * b).det ≠ 0 := by
  intro h0
  obtain ⟨x, hx0, hx⟩ := exists_mulVec_eq_zero_iff.2 h0
  apply hx0
  apply h
  have h1 : x ⬝ᵥ ((bᵀ * b) *ᵥ x) = (b *ᵥ x) ⬝ᵥ (b *ᵥ x) := by
    rw [← mulVec_mulVec, dotProduct_mulVec, vecMul_transpose]
  rw [hx, dotProduct_zero] at h1
  exact dotProduct_self_eq_zero.1 h1.symm

/-- **C60** Coordinates: transforming to a basis (linearly independent columns) and back recovers coordinates, and recovers the vector if it
lies in the span; `transform` between two bases of the same space keeps the vector. -/
theorem C60_transform {n m : Nat} (basis : Matrix (Fin n) (Fin m) ℝ) (hb : IndepColumns basis) :
    (∀ u, transformToBasis (transformFromBasis u basis) basis = u) ∧
      (∀ v, (∃ u, v = basis *ᵥ u) → transformFromBasis (transformToBasis v basis) basis = v) ∧
      ∀ {k : Nat} (basis0 : Matrix (Fin n) (Fin k) ℝ) (u : Fin k → ℝ), (∃ w, basis0 *ᵥ u = basis *ᵥ w) →
        transformFromBasis (transform u basis0 basis) basis = transformFromBasis u basis0 := by
  have hp : pinv basis * basis = 1 := by
    unfold pinv
    rw [Matrix.mul_assoc, nonsing_inv_mul _ (Ne.isUnit (gram_det hb))]
  have h1 : ∀ u, transformToBasis (transformFromBasis u basis) basis = u := by
    intro u
    unfold transformToBasis transformFromBasis
    rw [mulVec_mulVec, hp, one_mulVec]
  refine ⟨h1, ?_, ?_⟩
  · rintro v ⟨u, rfl⟩
    have := h1 u
    unfold transformFromBasis at this ⊢
    rw [this]
  · rintro k basis0 u ⟨w, hw⟩
    unfold transform transformFromBasis
    rw [hw, mulVec_mulVec, mulVec_mulVec, Matrix.mul_assoc, hp, Matrix.mul_one]

/-- **C60** `dual_basis` returns the basis with inner products 1 and 0 with the given one, `inverse_metric_tensor` the inverse of the metric
tensor, which is its metric tensor; singular bases are rejected. -/
theorem C60_dual_basis {n : Nat} (basis : Matrix (Fin n) (Fin n) ℝ) :
    (basis.det ≠ 0 → ∃ d g, dualBasis basis = .ok d ∧ inverseMetricTensor basis = .ok g ∧ basisᵀ * d = 1 ∧ dᵀ * basis = 1 ∧
      metricTensor basis * g = 1 ∧ metricTensor d = g) ∧
    (basis.det = 0 → dualBasis basis = .error .value ∧ inverseMetricTensor basis = .error .value) := by
  constructor
  · intro h
    have hu : IsUnit basis.det := Ne.isUnit h
    have hg : (metricTensor basis).det ≠ 0 := by
      unfold metricTensor
      rw [det_mul, det_transpose]
      exact mul_ne_zero h h
    refine ⟨(basis⁻¹)ᵀ, (metricTensor basis)⁻¹, ?_, ?_, ?_, ?_, ?_, ?_⟩
    · unfold dualBasis inv
      rw [if_neg h]
      rfl
    · unfold inverseMetricTensor inv
      rw [if_neg hg]
    · rw [← transpose_mul, nonsing_inv_mul _ hu, transpose_one]
    · rw [transpose_transpose, nonsing_inv_mul _ hu]
    · exact mul_nonsing_inv _ (Ne.isUnit hg)
    · unfold metricTensor
      rw [transpose_transpose, Matrix.mul_inv_rev, transpose_nonsing_inv]
  · intro h
    have hg : (metricTensor basis).det = 0 := by
      unfold metricTensor
      rw [det_mul, h, mul_zero]
    unfold dualBasis inverseMetricTensor inv
    rw [if_pos h, if_pos hg]
    exact ⟨rfl, rfl⟩

/-- **C60** `transform_bilinear_form` between orthonormal bases of positive orientation: the value on any pair of vectors is the same in both
coordinate systems. -/
theorem C60_transform_bilinear_form {n : Nat} (b basis0 basis1 : Matrix (Fin n) (Fin n) ℝ) (h0 : basis0ᵀ * basis0 = 1) (d0 : basis0.det = 1)
    (d1 : basis1.det = 1) :
    ∃ c, transformBilinearForm b basis0 basis1 = .ok c ∧
      ∀ u1 w1 u0 w0 : Fin n → ℝ, basis0 *ᵥ u0 = basis1 *ᵥ u1 → basis0 *ᵥ w0 = basis1 *ᵥ w1 → u1 ⬝ᵥ c *ᵥ w1 = u0 ⬝ᵥ b *ᵥ w0 := by
  refine ⟨(basis0ᵀ * basis1)ᵀ * (b * (basis0ᵀ * basis1)), ?_, ?_⟩
  · unfold transformBilinearForm
    rw [d0, d1]
    simp only [sub_self, abs_zero]
    rw [if_neg (by norm_num), if_neg (by norm_num)]
    rfl
  · intro u1 w1 u0 w0 hu hw
    have key : ∀ x0 x1 : Fin n → ℝ, basis0 *ᵥ x0 = basis1 *ᵥ x1 → (basis0ᵀ * basis1) *ᵥ x1 = x0 := by
      intro x0 x1 hx
      rw [← mulVec_mulVec, ← hx, mulVec_mulVec, h0, one_mulVec]
    rw [← mulVec_mulVec, ← mulVec_mulVec, dotProduct_mulVec, vecMul_transpose, key u0 u1 hu, key w0 w1 hw]

/-- **C60** Bases with a determinant other than one (up to `1e-10`) are rejected. -/
theorem C60_transform_bilinear_form_error {n : Nat} (b basis0 basis1 : Matrix (Fin n) (Fin n) ℝ)
    (h : 1 / 10 ^ 10 < |basis0.det - 1| ∨ 1 / 10 ^ 10 < |basis1.det - 1|) : transformBilinearForm b basis0 basis1 = .error .value := by
  unfold transformBilinearForm
  by_cases h0 : 1 / 10 ^ 10 < |basis0.det - 1|
  · rw [if_pos h0]
    rfl
  · rw [if_neg h0, if_pos (h.resolve_left h0)]
    rfl

example : IsQR (!![0, 3; 0, 0; 2, 1] : Matrix (Fin 3) (Fin 2) ℝ) !![0, 1; 0, 0; 1, 0] !![2, 1; 0, 3] ∧
    IndepColumns (!![0, 3; 0, 0; 2, 1] : Matrix (Fin 3) (Fin 2) ℝ) := by
  refine ⟨⟨?_, ?_, ?_⟩, ?_⟩
  · ext i j
    fin_cases i <;> fin_cases j <;> simp [Matrix.mul_apply, Fin.sum_univ_three]
  · ext i j
    fin_cases i <;> fin_cases j <;> simp [Matrix.mul_apply, Fin.sum_univ_two]
  · intro i j hij
    fin_cases i <;> fin_cases j <;> simp at hij ⊢
  · intro x hx
    have h0 := congrFun hx 0
    have h2 := congrFun hx 2
    simp [mulVec, dotProduct, Fin.sum_univ_two] at h0 h2
    funext i
    fin_cases i
    · simp [h0] at h2
      exact h2
    · exact h0

end Verif.Linalg
