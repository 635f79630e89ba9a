import Verif.Lemmas.SimplexGeometry
import Verif.Lemmas.SimplicialComplex
/-!
# Geometry of simplices: heights and faces
-/

namespace Verif.SimplexGeometry
open Verif Matrix Verif.Spec Verif.Simplex Verif.Linalg

variable {k n : ℕ}

theorem orth_dot {m : ℕ} {q : Matrix (Fin n) (Fin m) ℝ} (h : qᵀ * q = 1) (x y : Fin m → ℝ) : (q *ᵥ x) ⬝ᵥ (q *ᵥ y) = x ⬝ᵥ y := by
  rw [dotProduct_mulVec, vecMul_mulVec, h, vecMul_one]

/-- The simplex without its last vertex. -/
theorem edgeM_castSucc (v : Vertices ℝ (k + 1) n) :
    edgeM (fun i : Fin (k + 1) => v i.castSucc) = (edgeM v).submatrix id Fin.castSucc := by
  ext j i
  simp [edgeM]

theorem qr_castSucc {m : ℕ} {b q : Matrix (Fin n) (Fin (m + 1)) ℝ} {r : Matrix (Fin (m + 1)) (Fin (m + 1)) ℝ} (h : IsQR b q r) :
    IsQR (b.submatrix id Fin.castSucc) (q.submatrix id Fin.castSucc) (r.submatrix Fin.castSucc Fin.castSucc) := by
  refine ⟨?_, ?_, ?_⟩
  · ext i j
    have := congrFun (congrFun h.orth i.castSucc) j.castSucc
    simp only [Matrix.mul_apply, Matrix.transpose_apply, Matrix.submatrix_apply, id, Matrix.one_apply, Fin.castSucc_inj] at this ⊢
    exact this
  · ext a j
    have := congrFun (congrFun h.prod a) j.castSucc
    rw [Matrix.mul_apply, Fin.sum_univ_castSucc, h.tri (Fin.last m) j.castSucc (Fin.castSucc_lt_last j), mul_zero, add_zero] at this
    simp only [Matrix.mul_apply, Matrix.submatrix_apply, id]
    exact this
  · intro i j hij
    exact h.tri _ _ hij

/-- The height over the face opposite the last vertex. -/
theorem height_last (v : Vertices ℝ (k + 1) n) (h : NonDegenerate v) :
    ∃ t : ℝ, 0 < t ∧ gram v = gram (fun i : Fin (k + 1) => v i.castSucc) * t ^ 2 ∧
      ∀ x w, IsBarycentric v x w → IsDistance x (FacetHull v (Fin.last (k + 1))) (|w (Fin.last (k + 1))| * t) := by
  have hkn := nonDegenerate_le v h
  have hi := (nonDegenerate_iff v).1 h
  obtain ⟨q, r, hq⟩ := exists_qr (edgeM v) hkn
  have hne := qr_diag_ne hq hi
  have hdet : r.det ≠ 0 := by
    rw [det_of_isUpperTriangular (fun a b hab => hq.tri a b hab)]
    exact Finset.prod_ne_zero_iff.2 fun i _ => hne i
  have hlast : ∀ u : Fin (k + 1) → ℝ, (r *ᵥ u) (Fin.last k) = r (Fin.last k) (Fin.last k) * u (Fin.last k) := by
    intro u
    rw [mulVec, dotProduct, Fin.sum_univ_castSucc]
    have : ∀ i : Fin k, r (Fin.last k) i.castSucc = 0 := fun i => hq.tri _ _ (Fin.castSucc_lt_last i)
    simp [this]
  have hdist : ∀ u c : Fin (k + 1) → ℝ, (v 0 + edgeM v *ᵥ u - (v 0 + edgeM v *ᵥ c)) ⬝ᵥ (v 0 + edgeM v *ᵥ u - (v 0 + edgeM v *ᵥ c)) =
      (r *ᵥ (u - c)) ⬝ᵥ (r *ᵥ (u - c)) := by
    intro u c
    have : v 0 + edgeM v *ᵥ u - (v 0 + edgeM v *ᵥ c) = q *ᵥ (r *ᵥ (u - c)) := by
      rw [mulVec_mulVec, ← hq.prod, mulVec_sub]
      abel
    rw [this, orth_dot hq.orth]
  refine ⟨|r (Fin.last k) (Fin.last k)|, abs_pos.2 (hne _), ?_, ?_⟩
  · rw [gram_eq, gram_eq, edgeM_castSucc, qr_det_gram hq, qr_det_gram (qr_castSucc hq), Fin.prod_univ_castSucc, sq_abs, mul_pow]
    rfl
  · rintro x w ⟨hw1, hw2⟩
    have hx := hw2.trans (bary_edge v w hw1)
    have hnn : 0 ≤ |w (Fin.last (k + 1))| * |r (Fin.last k) (Fin.last k)| := by positivity
    constructor
    · set z : Fin (k + 1) → ℝ := Pi.single (Fin.last k) (r (Fin.last k) (Fin.last k) * w (Fin.last (k + 1))) with hz
      set c : Fin (k + 1) → ℝ := (fun i => w i.succ) - r⁻¹ *ᵥ z with hc
      have hrz : r *ᵥ (r⁻¹ *ᵥ z) = z := by rw [mulVec_mulVec, mul_nonsing_inv _ (Ne.isUnit hdet), one_mulVec]
      have hcl : c (Fin.last k) = 0 := by
        have h1 := hlast (r⁻¹ *ᵥ z)
        rw [hrz, hz, Pi.single_eq_same] at h1
        have h2 := mul_left_cancel₀ (hne _) h1
        rw [hc, Pi.sub_apply, ← h2, Fin.succ_last, sub_self]
      refine ⟨v 0 + edgeM v *ᵥ c, ⟨weights c, weights_bary v c, ?_⟩, ?_⟩
      · rw [← Fin.succ_last]
        simpa [weights] using hcl
      · rw [len_eq_iff _ hnn, hx, hdist]
        have : (fun i : Fin (k + 1) => w i.succ) - c = r⁻¹ *ᵥ z := by rw [hc]; abel
        rw [this, hrz, hz, single_dotProduct, Pi.single_eq_same, ← abs_mul, sq_abs]
        ring
    · rintro y ⟨w', ⟨h1, h2⟩, h3⟩
      have hy := h2.trans (bary_edge v w' h1)
      rw [len_le_iff _ hnn, hx, hy, hdist, ← abs_mul, sq_abs]
      have h4 := hlast ((fun i : Fin (k + 1) => w i.succ) - fun i => w' i.succ)
      rw [Pi.sub_apply, Fin.succ_last, h3, sub_zero] at h4
      rw [mul_comm, ← h4, sq]
      unfold dotProduct
      exact Finset.single_le_sum (f := fun i => (r *ᵥ _) i * (r *ᵥ _) i) (fun i _ => mul_self_nonneg _) (Finset.mem_univ (Fin.last k))

/-- The height over any face, for any enumeration `τ` of the other vertices. -/
theorem height (v : Vertices ℝ (k + 1) n) (h : NonDegenerate v) (i : Fin (k + 2)) (τ : Fin (k + 1) → Fin (k + 2)) (hτ : Function.Injective τ)
    (hτi : ∀ j, τ j ≠ i) :
    NonDegenerate (v ∘ τ) ∧ ∃ t : ℝ, 0 < t ∧ gram v = gram (v ∘ τ) * t ^ 2 ∧
      ∀ x w, IsBarycentric v x w → IsDistance x (FacetHull v i) (|w i| * t) := by
  have hinj : Function.Injective (Fin.snoc (α := fun _ => Fin (k + 2)) τ i : Fin (k + 2) → Fin (k + 2)) := by
    intro a b
    refine Fin.lastCases ?_ (fun a => ?_) a <;> refine Fin.lastCases ?_ (fun b => ?_) b
    · simp
    · simp only [Fin.snoc_last, Fin.snoc_castSucc]
      intro e; exact absurd e.symm (hτi b)
    · simp only [Fin.snoc_last, Fin.snoc_castSucc]
      intro e; exact absurd e (hτi a)
    · simp only [Fin.snoc_castSucc]
      intro e; rw [hτ e]
  let σ : Equiv.Perm (Fin (k + 2)) := Equiv.ofBijective _ (Finite.injective_iff_bijective.1 hinj)
  have hσc : ∀ j : Fin (k + 1), σ j.castSucc = τ j := fun j => by simp [σ]
  have hσl : σ (Fin.last (k + 1)) = i := by simp [σ]
  have hnd := nonDegenerate_perm v σ h
  obtain ⟨t, h1, h2, h3⟩ := height_last (v ∘ σ) hnd
  have e : (fun j : Fin (k + 1) => (v ∘ σ) j.castSucc) = v ∘ τ := by
    funext j; simp only [Function.comp, hσc]
  rw [e, gram_perm] at h2
  have hkn := nonDegenerate_le v h
  refine ⟨?_, t, h1, h2, fun x w hw => ?_⟩
  · rw [nonDegenerate_iff_gram _ (by omega)]
    have hg := (nonDegenerate_iff_gram v hkn).1 h
    rw [h2] at hg
    exact pos_of_mul_pos_left hg (by positivity)
  · have := h3 x (w ∘ σ) (hull_perm v σ hw)
    rw [facetHull_perm, Function.comp, hσl] at this
    exact this

/-! ## The model's faces -/

theorem getD_ofFn {α : Type} {m : ℕ} (v : Fin m → α) (i : ℕ) (h : i < m) (d : α) : (List.ofFn v).getD i d = v ⟨i, h⟩ := by
  simp [List.getD, h]

/-- `face(vertices, i)` lists all vertices but vertex `i`, each once, in some order. -/
theorem face_spec (v : Vertices ℝ (k + 1) n) (i : Fin (k + 2)) :
    ∃ τ : Fin (k + 1) → Fin (k + 2), Function.Injective τ ∧ (∀ j, τ j ≠ i) ∧ face v i = .ok (List.ofFn (v ∘ τ)) := by
  obtain ⟨fs, h1, -, h2⟩ := Complex.simplexBoundary_ok (List.range (k + 2)) (by simp)
  have h2 := h2 (by simp)
  have hl : fs.length = k + 2 := by simpa using h2.length_eq.symm
  have hi : i.val < fs.length := by rw [hl]; exact i.2
  have hf := (List.forall₂_iff_get.1 h2).2 i.val (by simp) hi
  simp only [List.get_eq_getElem, List.getElem_range] at hf
  obtain ⟨hperm, -⟩ := hf
  set f := fs[i.val] with hfdef
  have hlen : f.length = k + 1 := by
    rw [hperm.length_eq, List.length_eraseIdx_of_lt (by simp)]
    simp
  have hnd : f.Nodup := hperm.nodup_iff.2 (List.Nodup.eraseIdx _ List.nodup_range)
  have hmem : ∀ a ∈ f, a < k + 2 ∧ a ≠ i.val := by
    intro a ha
    have h3 := hperm.mem_iff.1 ha
    refine ⟨List.mem_range.1 (List.mem_of_mem_eraseIdx h3), ?_⟩
    rintro rfl
    have := List.nodup_range (n := k + 2)
    rw [List.mem_eraseIdx_iff_getElem] at h3
    obtain ⟨j, hj, hne, hji⟩ := h3
    simp at hji
    exact hne hji
  let τ : Fin (k + 1) → Fin (k + 2) := fun j => ⟨f[j.val]'(by rw [hlen]; exact j.2), (hmem _ (List.getElem_mem _)).1⟩
  refine ⟨τ, ?_, ?_, ?_⟩
  · intro a b hab
    have := congrArg Fin.val hab
    exact Fin.ext ((List.Nodup.getElem_inj_iff hnd).1 this)
  · intro j e
    exact (hmem _ (List.getElem_mem (by rw [hlen]; exact j.2))).2 (congrArg Fin.val e)
  · unfold face
    rw [h1]
    simp only [Py.bind_ok]
    rw [getE_ok hi]
    simp only [Py.bind_ok]
    unfold Complex.simplexVertices
    rw [getE_ok (by simp)]
    simp only [Py.bind_ok]
    rw [mapM_eq_ok (fun a => (List.ofFn v).getD a 0)]
    · congr 1
      apply List.ext_getElem
      · simp [hlen, hfdef.symm]
      · intro j h3 h4
        have h5 : j < k + 1 := by simpa using h4
        simp only [List.getElem_map, List.getElem_ofFn, Function.comp, τ]
        rw [getD_ofFn v _ (hmem _ (List.getElem_mem (by rw [hlen]; exact h5))).1]
    · intro a ha
      have := (hmem a ha).1
      rw [getE_ok (by rw [List.length_ofFn]; exact this), getD_ofFn v _ this, List.getElem_ofFn]

theorem volume_ofList (qr : QR) (w : Vertices ℝ k n) : volume qr (ofList (List.ofFn w)) = volume qr w := by
  have key : ∀ (l : List (Fin n → ℝ)) (hl : l.length = k + 1), (∀ i : Fin (k + 1), l.getD i 0 = w i) → volume qr (ofList l) = volume qr w := by
    intro l hl hw
    obtain rfl : k = l.length - 1 := by omega
    congr 1
    funext i
    exact hw i
  exact key _ (by simp) (fun i => getD_ofFn w i i.2 0)

/-- The volume of face `i`. -/
theorem faceVolume_spec (qr : QR) (hqr : QRContract qr) (v : Vertices ℝ (k + 1) n) (hkn : k ≤ n) (i : Fin (k + 2)) :
    ∃ τ : Fin (k + 1) → Fin (k + 2), Function.Injective τ ∧ (∀ j, τ j ≠ i) ∧
      faceVolume qr v i = .ok (√(gram (v ∘ τ)) / (k.factorial : ℝ)) := by
  obtain ⟨τ, h1, h2, h3⟩ := face_spec v i
  refine ⟨τ, h1, h2, ?_⟩
  unfold faceVolume
  rw [h3]
  simp only [Py.bind_ok]
  rw [volume_ofList, volume_eq qr hqr _ hkn]

/-- Volume, volume of a face and height. -/
theorem face_height (qr : QR) (hqr : QRContract qr) (v : Vertices ℝ (k + 1) n) (h : NonDegenerate v) (i : Fin (k + 2)) :
    ∃ V F t : ℝ, volume qr v = .ok V ∧ faceVolume qr v i = .ok F ∧ 0 < V ∧ 0 < F ∧ 0 < t ∧ ((k + 1 : ℕ) : ℝ) * V = F * t ∧
      ∀ x w, IsBarycentric v x w → IsDistance x (FacetHull v i) (|w i| * t) := by
  have hkn := nonDegenerate_le v h
  obtain ⟨τ, h1, h2, h3⟩ := faceVolume_spec qr hqr v (by omega) i
  obtain ⟨hnd, t, ht, hg, hd⟩ := height v h i τ h1 h2
  have p1 := (nonDegenerate_iff_gram v hkn).1 h
  have p2 := (nonDegenerate_iff_gram (v ∘ τ) (by omega)).1 hnd
  have f1 : (0 : ℝ) < (k.factorial : ℝ) := Nat.cast_pos.2 (Nat.factorial_pos _)
  have f2 : (0 : ℝ) < ((k + 1).factorial : ℝ) := Nat.cast_pos.2 (Nat.factorial_pos _)
  refine ⟨_, _, t, volume_eq qr hqr v hkn, h3, div_pos (Real.sqrt_pos.2 p1) f2, div_pos (Real.sqrt_pos.2 p2) f1, ht, ?_, hd⟩
  rw [hg, Real.sqrt_mul p2.le, Real.sqrt_sq ht.le, Nat.factorial_succ]
  push_cast
  have : (k : ℝ) + 1 ≠ 0 := by positivity
  field_simp

end Verif.SimplexGeometry
