import Verif.Lemmas.PiecewiseNew
/-!
# Continuity across common faces
-/

namespace Verif.PP
open Verif Verif.Poly Verif.Simplex Verif.SPoly Verif.L2G Verif.Spec

variable {K V : Type} [Field K] [DecidableEq K] [CharZero K] [AddCommGroup V] [DecidableEq V] [Module K V] {m r : Nat} {Tr : Type}

omit [CharZero K] in
theorem cell_vertex {triangles : List (List ℕ)} {vertices : List (Fin m → K)} {j : ℕ} (hj : j < triangles.length) {v : Vertices K m m}
    (h : cell triangles vertices j = .ok v) : ∃ hl : triangles[j].length = m + 1, ∀ i : Fin (m + 1), v i = vertices.getD (triangles[j][(i : ℕ)]'(by omega)) 0 := by
  unfold cell at h
  rw [getE_ok hj, Py.bind_ok] at h
  unfold cellVertices Complex.simplexVertices at h
  cases hx : getE vertices 0 with
  | error e => rw [hx] at h; cases h
  | ok x =>
    rw [hx, Py.bind_ok] at h
    cases hm : (triangles[j]).mapM (fun i => getE vertices i) with
    | error e => rw [hm] at h; cases h
    | ok l =>
      rw [hm, Py.bind_ok] at h
      obtain ⟨h1, h2⟩ := mapM_getElem hm
      by_cases hl : l.length = m + 1
      · rw [dif_pos hl] at h
        obtain rfl := Except.ok.inj h
        refine ⟨by omega, fun i => ?_⟩
        obtain ⟨y, h3, h4⟩ := h2 i _ (List.getElem?_eq_getElem (show (i : ℕ) < triangles[j].length by omega))
        rw [List.getElem?_eq_getElem (show (i : ℕ) < l.length by omega)] at h3
        have h3 := Option.some.inj h3
        simp only
        unfold getE at h4
        rw [h3, List.getD_eq_getElem?_getD]
        cases hg : vertices[triangles[j][(i : ℕ)]]? with
        | none => rw [hg] at h4; cases h4
        | some z => rw [hg] at h4; exact (Except.ok.inj h4).symm
      · rw [dif_neg hl] at h; cases h

theorem face_weights {triangles : List (List ℕ)} {vertices : List (Fin m → K)} {j : ℕ} (hj : j < triangles.length) {v : Vertices K m m}
    (h : cell triangles vertices j = .ok v) (hd : edgeDet v ≠ 0) (hn : triangles[j].Nodup) {W : ℕ → K} {x : Fin m → K}
    (h1 : ∑ i ∈ triangles[j].toFinset, W i = 1) (hx : x = ∑ i ∈ triangles[j].toFinset, W i • vertices.getD i 0) :
    triangles[j].map W = (1 - ∑ i, createAffineMap (down v) x i) :: List.ofFn (createAffineMap (down v) x) := by
  obtain ⟨hl, hv⟩ := cell_vertex hj h
  have hsum : ∀ {U : Type} [AddCommMonoid U] (f : ℕ → U), ∑ i ∈ triangles[j].toFinset, f i = ∑ i : Fin (m + 1), f (triangles[j][(i : ℕ)]'(by omega)) := by
    intro U _ f
    rw [List.sum_toFinset _ hn, ← List.sum_ofFn]
    congr 1
    apply List.ext_getElem
    · simp [hl]
    · intro i h1 h2; rw [List.getElem_ofFn, List.getElem_map]
  have hb : IsBarycentric v x (fun i => W (triangles[j][(i : ℕ)]'(by omega))) := by
    refine ⟨by rw [← hsum]; exact h1, ?_⟩
    rw [hx, hsum]
    exact Finset.sum_congr rfl (fun i _ => by rw [hv i])
  rw [down_bary v hd hb]
  rw [hsum, Fin.sum_univ_succ] at h1
  apply List.ext_getElem
  · simp [hl]
  · intro i h2 h3
    cases i with
    | zero =>
      simp only [List.getElem_map, List.getElem_cons_zero]
      rw [← h1]
      simp
    | succ i => simp

theorem common_face {p : PObj K V m Tr} (h : WellFormed p) (hc : p.cont = true) {j j' : ℕ} (hj : j < p.triangles.length) (hj' : j' < p.triangles.length)
    {x : Fin m → K} (hx : OnCommonFace p.vertices p.triangles[j] p.triangles[j'] x) {F : ℕ → (Fin m → K) → V} (hF : Denotes p F) :
    F j x = F j' x := by
  classical
  obtain ⟨M, t, hg, hM, ht⟩ := h.data
  obtain ⟨W, hW1, hW2⟩ := hx
  obtain ⟨v, hv, hd⟩ := h.space.cells j hj
  obtain ⟨v', hv', hd'⟩ := h.space.cells j' hj'
  have hT := h.space.mesh.simplex _ (List.getElem_mem hj)
  have hT' := h.space.mesh.simplex _ (List.getElem_mem hj')
  set I := p.triangles[j].toFinset ∩ p.triangles[j'].toFinset with hI
  set W' : ℕ → K := fun i => if i ∈ I then W i else 0 with hW'
  have hs : ∀ {U : Type} [AddCommMonoid U] [Module K U] (A : Finset ℕ), I ⊆ A → ∀ g : ℕ → U, ∑ i ∈ A, W' i • g i = ∑ i ∈ I, W i • g i := by
    intro U _ _ A hA g
    rw [← Finset.sum_subset hA (fun i _ hi => by simp [hW', hi])]
    exact Finset.sum_congr rfl (fun i hi => by simp [hW', hi])
  have hs1 : ∀ (A : Finset ℕ), I ⊆ A → ∑ i ∈ A, W' i = 1 := by
    intro A hA
    have := hs A hA (fun _ => (1 : K))
    simp only [smul_eq_mul, mul_one] at this
    rw [this, hW1]
  have hA : I ⊆ p.triangles[j].toFinset := Finset.inter_subset_left
  have hA' : I ⊆ p.triangles[j'].toFinset := Finset.inter_subset_right
  have e1 := face_weights hj hv hd hT.2 (hs1 _ hA) (hW2.trans (hs _ hA _).symm)
  have e2 := face_weights hj' hv' hd' hT'.2 (hs1 _ hA') (hW2.trans (hs _ hA' _).symm)
  obtain ⟨cc, hcc⟩ := factor (hc ▸ ht) p.coeff
  rw [denotes_val h hF hM ht hj hv, denotes_val h hF hM ht hj' hv']
  refine val_common h.basis hT.2 hT.1 hT'.2 hT'.1 _ _ cc (fun ν hν => by rw [hcc j hj ν hν, getD_triangles hj])
    (fun ν hν => by rw [hcc j' hj' ν hν, getD_triangles hj']) e1 e2 (fun u hu hu' => ?_) (fun u hu hu' => ?_)
  · simp [hW', hI, hu']
  · simp [hW', hI, hu']

/-- Every consistent object stands for a function. -/
theorem WellFormed.denotes {p : PObj K V m Tr} (h : WellFormed p) : ∃ F, Denotes p F := by
  obtain ⟨M, t, hg, hM, ht⟩ := h.data
  choose v hv hd using fun j : Fin p.triangles.length => h.space.cells j j.2
  refine ⟨fun j x => if hj : j < p.triangles.length then val p.basis m p.r (loc p.coeff t j) (createAffineMap (down (v ⟨j, hj⟩)) x) else 0,
    fun j hj x => ?_⟩
  simp only [hj, dif_pos]
  exact eval_eq h hM ht hj (hv ⟨j, hj⟩) x

end Verif.PP
