import Verif.Lemmas.Triangle3
import Verif.Props.SimplexGeometry
/-!
# Properties of triangles

C69. `Verif.Spec.NonDegenerate`, `Hull`, `FacetHull`, `Points`, `IsDistance`, `IsNearest`, `IsOutwardNormal`, `gram` are the notions of
`Verif/Spec/SimplexGeometry.lean` for three vertices; `IsBarycentric` is in `Verif/Spec/Simplex.lean`, `IsAngle` in `Verif/Props/Rotation.lean`.
Addition of indices is modulo 3.
-/

namespace Verif.Props
open Verif Matrix Verif.Simplex Verif.Linalg Verif.Spec Verif.SimplexGeometry Verif.Triangle

variable {n : ℕ}

/-- **C69** `edges`: edge `i` is the vector between the two vertices other than `i`, in the order of the circulation; the edges sum to zero, and
`edge_lengths` are their lengths. `perimeter` is the sum. -/
theorem C69_edges (v : Tri n) :
    Triangle.edges v 0 = v 2 - v 1 ∧ Triangle.edges v 1 = v 0 - v 2 ∧ Triangle.edges v 2 = v 1 - v 0 ∧ ∑ i, Triangle.edges v i = 0 ∧
      edgeLengths v 0 = len (v 1 - v 2) ∧ edgeLengths v 1 = len (v 2 - v 0) ∧ edgeLengths v 2 = len (v 0 - v 1) ∧
      perimeter v = len (v 0 - v 1) + len (v 1 - v 2) + len (v 2 - v 0) := by
  have e0 : Triangle.edges v 0 = v 2 - v 1 := rfl
  have e1 : Triangle.edges v 1 = v 0 - v 2 := rfl
  have e2 : Triangle.edges v 2 = v 1 - v 0 := rfl
  have l0 : edgeLengths v 0 = len (v 1 - v 2) := (el_len v 0).trans (len_sub_comm _ _)
  have l1 : edgeLengths v 1 = len (v 2 - v 0) := (el_len v 1).trans (len_sub_comm _ _)
  have l2 : edgeLengths v 2 = len (v 0 - v 1) := (el_len v 2).trans (len_sub_comm _ _)
  refine ⟨e0, e1, e2, ?_, l0, l1, l2, ?_⟩
  · rw [Fin.sum_univ_three, e0, e1, e2]; abel
  · unfold perimeter
    rw [l0, l1, l2]
    ring

/-- **C69** `diameter` is the largest distance of two points of the triangle. -/
theorem C69_diameter (v : Tri n) : (∀ x ∈ Points v, ∀ y ∈ Points v, len (x - y) ≤ Triangle.diameter v) ∧
    ∃ x ∈ Points v, ∃ y ∈ Points v, len (x - y) = Triangle.diameter v := by
  have hv : ∀ i, v i ∈ Points v := fun i => ⟨_, vertex_bary v i, fun j => by split <;> norm_num⟩
  have l0 : edgeLengths v 0 = len (v 1 - v 2) := (el_len v 0).trans (len_sub_comm _ _)
  have l1 : edgeLengths v 1 = len (v 2 - v 0) := (el_len v 1).trans (len_sub_comm _ _)
  have l2 : edgeLengths v 2 = len (v 0 - v 1) := (el_len v 2).trans (len_sub_comm _ _)
  have hd : Triangle.diameter v = max (len (v 1 - v 2)) (max (len (v 2 - v 0)) (len (v 0 - v 1))) := by
    unfold Triangle.diameter
    simp only [l0, l1, l2]
  have m0 : len (v 1 - v 2) ≤ Triangle.diameter v := by rw [hd]; exact le_max_left _ _
  have m1 : len (v 2 - v 0) ≤ Triangle.diameter v := by rw [hd]; exact (le_max_left _ _).trans (le_max_right _ _)
  have m2 : len (v 0 - v 1) ≤ Triangle.diameter v := by rw [hd]; exact (le_max_right _ _).trans (le_max_right _ _)
  have mz : ∀ i, len (v i - v i) ≤ Triangle.diameter v := fun i => by
    rw [sub_self]
    refine le_trans ?_ ((len_nonneg _).trans m0)
    simp [len]
  refine ⟨fun x hx y hy => points_diameter v _ ?_ hx hy, ?_⟩
  · intro i j
    have m0' := m0
    have m1' := m1
    have m2' := m2
    rw [len_sub_comm] at m0' m1' m2'
    fin_cases i <;> fin_cases j
    · exact mz 0
    · exact m2
    · exact m1'
    · exact m2'
    · exact mz 1
    · exact m0
    · exact m1
    · exact m0'
    · exact mz 2
  · rw [hd]
    rcases max_choice (len (v 1 - v 2)) (max (len (v 2 - v 0)) (len (v 0 - v 1))) with h | h
    · exact ⟨v 1, hv 1, v 2, hv 2, h.symm⟩
    · rw [h]
      rcases max_choice (len (v 2 - v 0)) (len (v 0 - v 1)) with h | h
      · exact ⟨v 2, hv 2, v 0, hv 0, h.symm⟩
      · exact ⟨v 0, hv 0, v 1, hv 1, h.symm⟩

/-- **C69** `area` in the plane and in space, for any triangle: half the root of the Gram determinant, which is the volume computed by the module
for simplices, and zero exactly if the triangle is degenerate. In other dimensions ValueError. -/
theorem C69_area (v : Tri n) :
    (n = 2 ∨ n = 3 → ∃ a, area v = .ok a ∧ 0 ≤ a ∧ (2 * a) ^ 2 = gram v ∧ (0 < a ↔ NonDegenerate v) ∧
      ∀ qr, QRContract qr → SimplexGeometry.volume qr v = .ok a) ∧
    (n ≠ 2 → n ≠ 3 → area v = .error .value) := by
  refine ⟨fun hn => ?_, fun h2 h3 => area_error v ⟨h2, h3⟩⟩
  have hkn : 2 ≤ n := by omega
  have hg := gram_nonneg v hkn
  refine ⟨_, area_eq v hn, by positivity, ?_, ?_, fun qr hqr => ?_⟩
  · rw [mul_div_cancel₀ _ (by norm_num), Real.sq_sqrt hg]
  · rw [nonDegenerate_iff_gram v hkn, div_pos_iff_of_pos_right (by norm_num)]
    exact Real.sqrt_pos
  · rw [volume_eq qr hqr v hkn]
    norm_num [Nat.factorial]

/-- **C69** `area_weighted_normal` in space is `(p₁ - p₀) × (p₂ - p₁)`, and its length is twice the area. -/
theorem C69_area_weighted_normal (v : Tri 3) :
    areaWeightedNormal v = .ok (List.ofFn ((v 1 - v 0) ⨯₃ (v 2 - v 1))) ∧ area v = .ok (len ((v 1 - v 0) ⨯₃ (v 2 - v 1)) / 2) := by
  have e : (v 1 - v 0) ⨯₃ (v 2 - v 1) = Triangle.edges v 0 ⨯₃ Triangle.edges v 1 := by
    have := cross_cyclic v 2
    rw [← this]
    rfl
  refine ⟨?_, ?_⟩
  · rw [e]; rfl
  · rw [e, ← norm_eq_len, area_eq v (Or.inr rfl)]
    have h := cross3_norm v 0
    have : Triangle.edges v (0 + 1) = Triangle.edges v 1 := rfl
    rw [this] at h
    rw [h]

/-- **C69** `area_weighted_normal` in the plane is twice the signed area (positive for counterclockwise triangles); in dimensions other than 2 and 3,
`area_weighted_normal` and `normal` raise ValueError. -/
theorem C69_area_weighted_normal_plane :
    (∀ v : Tri 2, areaWeightedNormal v = .ok [(v 1 0 - v 0 0) * (v 2 1 - v 0 1) - (v 1 1 - v 0 1) * (v 2 0 - v 0 0)]) ∧
    ∀ (n : ℕ) (v : Tri n), n ≠ 2 → n ≠ 3 → areaWeightedNormal v = .error .value ∧ normal v = .error .value := by
  refine ⟨fun v => ?_, fun n v h2 h3 => ?_⟩
  · have e : areaWeightedNormal v = .ok [cross2 (v 2 - v 1) (v 0 - v 2)] := rfl
    rw [e]
    simp only [cross2, Pi.sub_apply]
    congr 2
    ring
  · unfold areaWeightedNormal normal
    split <;> first | contradiction | exact ⟨rfl, rfl⟩

/-- **C69** `normal` of a non-degenerate triangle in space: the unit vector orthogonal to the triangle around which the vertices run
counterclockwise. -/
theorem C69_normal (v : Tri 3) (h : NonDegenerate v) :
    ∃ u : Fin 3 → ℝ, normal v = .ok (List.ofFn u) ∧ len u = 1 ∧ (∀ i j, ∑ a, u a * (v i a - v j a) = 0) ∧
      ∃ c : ℝ, 0 < c ∧ (v 1 - v 0) ⨯₃ (v 2 - v 0) = c • u := by
  have hg := Real.sqrt_pos.2 (gram_pos v h)
  have e : (v 1 - v 0) ⨯₃ (v 2 - v 0) = Triangle.edges v 0 ⨯₃ Triangle.edges v 1 := by
    have h1 : (v 1 - v 0) ⨯₃ (v 2 - v 1) = Triangle.edges v 0 ⨯₃ Triangle.edges v 1 := cross_cyclic v 2
    rw [← h1]
    have : v 2 - v 0 = (v 2 - v 1) + (v 1 - v 0) := by abel
    rw [this, LinearMap.map_add, cross_self, add_zero]
  have hn : len (Triangle.edges v 0 ⨯₃ Triangle.edges v 1) = √(gram v) := by
    have h := cross3_norm v 0
    rwa [norm_eq_len] at h
  have ho : ∀ i j : Fin 3, ((v 1 - v 0) ⨯₃ (v 2 - v 0)) ⬝ᵥ (v i - v j) = 0 := by
    have h1 := dot_self_cross (v 1 - v 0) (v 2 - v 0)
    have h2 := dot_cross_self (v 1 - v 0) (v 2 - v 0)
    rw [dotProduct_comm] at h1 h2
    have hz : ∀ i : Fin 3, ((v 1 - v 0) ⨯₃ (v 2 - v 0)) ⬝ᵥ (v i - v 0) = 0 := by
      intro i
      fin_cases i
      · show _ ⬝ᵥ (v 0 - v 0) = 0
        rw [sub_self, dotProduct_zero]
      · exact h1
      · exact h2
    intro i j
    have : v i - v j = (v i - v 0) - (v j - v 0) := by abel
    rw [this, dotProduct_sub, hz i, hz j, sub_zero]
  refine ⟨normal3 v, rfl, ?_, fun i j => ?_, √(gram v), hg, ?_⟩
  · rw [normal3_eq, len_smul, hn, abs_of_pos (by positivity), one_div_mul_cancel hg.ne']
  · have : ∑ a, normal3 v a * (v i a - v j a) = normal3 v ⬝ᵥ (v i - v j) := rfl
    rw [this, normal3_eq, ← e, smul_dotProduct, ho, smul_zero]
  · rw [normal3_eq, e, smul_smul, mul_one_div_cancel hg.ne', one_smul]

/-- **C69** `normal` of a non-degenerate triangle in the plane: `1` for a counterclockwise triangle, `-1` for a clockwise one. -/
theorem C69_normal_plane (v : Tri 2) (h : NonDegenerate v) :
    normal v = .ok [if 0 < (v 1 0 - v 0 0) * (v 2 1 - v 0 1) - (v 1 1 - v 0 1) * (v 2 0 - v 0 0) then 1 else -1] := by
  have hg := Real.sqrt_pos.2 (gram_pos v h)
  have hc := cross2_abs v 0
  have e : cross2 (Triangle.edges v 0) (Triangle.edges v 1) = (v 1 0 - v 0 0) * (v 2 1 - v 0 1) - (v 1 1 - v 0 1) * (v 2 0 - v 0 0) := by
    have e0 : Triangle.edges v 0 = v 2 - v 1 := rfl
    have e1 : Triangle.edges v 1 = v 0 - v 2 := rfl
    rw [e0, e1]
    simp only [cross2, Pi.sub_apply]
    ring
  have : Triangle.edges v (0 + 1) = Triangle.edges v 1 := rfl
  rw [this] at hc
  have hn : normal v = .ok [normal2 v] := rfl
  rw [hn]
  unfold normal2
  simp only
  rw [e] at hc ⊢
  set c := (v 1 0 - v 0 0) * (v 2 1 - v 0 1) - (v 1 1 - v 0 1) * (v 2 0 - v 0 0)
  rw [← hc] at hg
  have hne : c ≠ 0 := abs_pos.1 hg
  by_cases hp : 0 < c
  · rw [if_pos hp, abs_of_pos hp, div_self hne]
  · rw [if_neg hp, abs_of_neg (lt_of_le_of_ne (not_lt.1 hp) hne), div_neg, div_self hne]

/-- **C69** `basis` of a non-degenerate triangle in the plane or in space: an orthonormal basis of the plane of the triangle whose first vector has
the direction of edge 0 and whose second vector lies on the side of edge 1. AssertionError in other dimensions. -/
theorem C69_basis (v : Tri n) (h : NonDegenerate v) :
    (n = 2 ∨ n = 3 → ∃ b, Triangle.basis v = .ok b ∧ (∀ i j, ∑ a, b i a * b j a = if i = j then 1 else 0) ∧
      (∃ c : ℝ, 0 < c ∧ v 2 - v 1 = c • b 0) ∧ ∃ c d : ℝ, 0 < d ∧ v 0 - v 2 = c • b 0 + d • b 1) ∧
    (n ≠ 2 → n ≠ 3 → Triangle.basis v = .error .assertion) := by
  refine ⟨fun hn => ?_, fun h2 h3 => Triangle.basis_error v ⟨h2, h3⟩⟩
  obtain ⟨o1, o2, o3⟩ := bb_orth v h
  have hl := el_pos v h 0
  have hg := Real.sqrt_pos.2 (gram_pos v h)
  refine ⟨bb v, basis_ok v h hn, fun i j => ?_, ⟨edgeLengths v 0, hl, ?_⟩, (Triangle.edges v 0 ⬝ᵥ Triangle.edges v 1) / edgeLengths v 0,
    √(gram v) / edgeLengths v 0, div_pos hg hl, ?_⟩
  · have o4 : bb v 1 ⬝ᵥ bb v 0 = 0 := by rw [dotProduct_comm]; exact o3
    fin_cases i <;> fin_cases j
    · exact o1
    · exact o3
    · exact o4
    · exact o2
  · have : v 2 - v 1 = Triangle.edges v 0 := rfl
    simp only [bb, Matrix.cons_val_zero, smul_smul]
    rw [mul_one_div_cancel hl.ne', one_smul, this]
  · have hsq : Triangle.edges v 0 ⬝ᵥ Triangle.edges v 0 = edgeLengths v 0 ^ 2 := by rw [el_sq, edges_self]
    have : v 0 - v 2 = Triangle.edges v 1 := rfl
    rw [this]
    simp only [bb, Matrix.cons_val_zero, Matrix.cons_val_one, smul_smul, hsq]
    funext a
    simp only [Pi.add_apply, Pi.sub_apply, Pi.smul_apply, smul_eq_mul]
    field_simp
    ring

/-- **C69** In space the second basis vector is the normal times the first one: `b₀ × b₁` is the normal. -/
theorem C69_basis_oriented (v : Tri 3) (h : NonDegenerate v) :
    ∃ b, Triangle.basis v = .ok b ∧ normal v = .ok (List.ofFn (b 0 ⨯₃ b 1)) := by
  have hl := el_pos v h 0
  have hg := Real.sqrt_pos.2 (gram_pos v h)
  refine ⟨bb v, basis_ok v h (Or.inr rfl), ?_⟩
  have hn : normal v = .ok (List.ofFn (normal3 v)) := rfl
  rw [hn, normal3_eq]
  have hsq : Triangle.edges v 0 ⬝ᵥ Triangle.edges v 0 = edgeLengths v 0 ^ 2 := by rw [el_sq, edges_self]
  have : bb v 0 ⨯₃ bb v 1 = (1 / √(gram v)) • (Triangle.edges v 0 ⨯₃ Triangle.edges v 1) := by
    simp only [bb, Matrix.cons_val_zero, Matrix.cons_val_one]
    rw [LinearMap.map_smul₂, LinearMap.map_smul, LinearMap.map_sub, LinearMap.map_smul, LinearMap.map_smul, cross_self, smul_zero, sub_zero,
      smul_smul, smul_smul, hsq]
    congr 1
    field_simp
  rw [this]

/-- **C69** The coordinates of a vector in the plane of the triangle (`in_triangleplane_coords`, `edges_2`, `medians_2`, `dual_edges_2`): the vector
is the combination of the basis with these coordinates. -/
theorem C69_coordinates (v : Tri n) (h : NonDegenerate v) (hn : n = 2 ∨ n = 3) :
    ∃ b, Triangle.basis v = .ok b ∧
      (∀ (c : Fin 3 → ℝ), ∑ i, c i = 0 → ∃ x, inTriangleplaneCoords v (∑ i, c i • v i) = .ok x ∧ ∑ i, c i • v i = x 0 • b 0 + x 1 • b 1) ∧
      (∃ e, edges2 v = .ok e ∧ ∀ i, Triangle.edges v i = e i 0 • b 0 + e i 1 • b 1) ∧
      (∃ m, medians2 v = .ok m ∧ ∀ i, medians v i = m i 0 • b 0 + m i 1 • b 1) ∧
      ∃ d t, dualEdges2 v = .ok d ∧ dualEdges v = .ok t ∧ ∀ i, t i = d i 0 • b 0 + d i 1 • b 1 := by
  have key : ∀ x, InSpan v x → x = coords v x 0 • bb v 0 + coords v x 1 • bb v 1 := by
    rintro x ⟨s, t, hx⟩
    exact bb_span v h s t x hx
  refine ⟨bb v, basis_ok v h hn, fun c hc => ⟨_, coords_ok v h hn _, key _ ?_⟩, ⟨_, edges2_ok v h hn, fun i => key _ (edges_inSpan v i)⟩,
    ⟨_, medians2_ok v h hn, fun i => key _ (medians_inSpan v i)⟩, fun i => coords v (dual v i), dual v, ?_, dualEdges_ok v h hn, fun i => key _ ?_⟩
  · have e0 : Triangle.edges v 0 = v 2 - v 1 := rfl
    have e1 : Triangle.edges v 1 = v 0 - v 2 := rfl
    refine ⟨-c 1, c 0, ?_⟩
    rw [Fin.sum_univ_three] at hc ⊢
    have : c 2 = -c 0 - c 1 := by linarith
    rw [e0, e1, this]
    funext a
    simp only [Pi.add_apply, Pi.sub_apply, Pi.smul_apply, smul_eq_mul]
    ring
  · unfold dualEdges2
    rw [dualEdges_ok v h hn]
    exact rows3_ok _ _ fun i => coords_ok v h hn _
  · unfold dual
    rw [sub_eq_add_neg, ← neg_smul]
    exact (((edges_inSpan v i).smul _).add ((edges_inSpan v (i + 1)).smul _)).smul _

/-- **C69** `dual_edges` of a non-degenerate triangle in the plane or in space: dual edge `i` is the outward unit normal of edge `i`, in the plane of
the triangle, times the length of the edge. AssertionError in other dimensions. -/
theorem C69_dual_edges (v : Tri n) (h : NonDegenerate v) :
    (n = 2 ∨ n = 3 → ∃ d, dualEdges v = .ok d ∧ ∀ i, ∃ u, IsOutwardNormal v i u ∧ d i = len (v (i + 1) - v (i + 2)) • u) ∧
    (n ≠ 2 → n ≠ 3 → dualEdges v = .error .assertion) := by
  refine ⟨fun hn => ?_, fun h2 h3 => dualEdges_error v ⟨h2, h3⟩⟩
  refine ⟨dual v, dualEdges_ok v h hn, fun (i : Fin 3) => ⟨(1 / edgeLengths v i) • dual v i, ?_, ?_⟩⟩
  · have hl := el_pos v h i
    have hg := Real.sqrt_pos.2 (gram_pos v h)
    have n1 := dual_edge v i
    have n2 := dual_next v h i
    have n3 := dual_prev v h i
    have e0 : Triangle.edges v i = v (i + 2) - v (i + 1) := rfl
    have e1 : Triangle.edges v (i + 1) = v i - v (i + 2) := by simp only [Triangle.edges, f11, f12]
    have e2 : Triangle.edges v (i + 2) = v (i + 1) - v i := by simp only [Triangle.edges, f21, f22]
    have hcases : ∀ j : Fin 3, j ≠ i → j = i + 1 ∨ j = i + 2 := by clear * -; revert i; decide
    refine ⟨?_, ?_, ?_, ?_⟩
    · rw [len_smul, (len_eq_iff _ hl.le).2 (dual_sq v h i), abs_of_pos (by positivity), one_div_mul_cancel hl.ne']
    · intro j l hj hl'
      have : ∑ a, ((1 / edgeLengths v i) • dual v i) a * (v j a - v l a) = ((1 / edgeLengths v i) • dual v i) ⬝ᵥ (v j - v l) := rfl
      rw [this, smul_dotProduct]
      have hz : dual v i ⬝ᵥ (v j - v l) = 0 := by
        rcases hcases j hj with rfl | rfl <;> rcases hcases l hl' with rfl | rfl
        · rw [sub_self, dotProduct_zero]
        · rw [← neg_sub, ← e0, dotProduct_neg, n1, neg_zero]
        · rw [← e0, n1]
        · rw [sub_self, dotProduct_zero]
      rw [hz, smul_zero]
    · intro j hj
      have : ∑ a, ((1 / edgeLengths v i) • dual v i) a * (v i a - v j a) = ((1 / edgeLengths v i) • dual v i) ⬝ᵥ (v i - v j) := rfl
      rw [this, smul_dotProduct, smul_eq_mul]
      have hz : dual v i ⬝ᵥ (v i - v j) = -√(gram v) := by
        rcases hcases j hj with rfl | rfl
        · rw [← neg_sub, ← e2, dotProduct_neg, n3]
        · rw [← e1, n2]
      rw [hz]
      have : 0 < 1 / edgeLengths v i := by positivity
      nlinarith [mul_pos this hg]
    · obtain ⟨s, t, hst⟩ : InSpan v ((1 / edgeLengths v i) • dual v i) := by
        refine InSpan.smul _ ?_
        unfold dual
        rw [sub_eq_add_neg, ← neg_smul]
        exact (((edges_inSpan v i).smul _).add ((edges_inSpan v (i + 1)).smul _)).smul _
      have e0 : Triangle.edges v 0 = v 2 - v 1 := rfl
      have e1 : Triangle.edges v 1 = v 0 - v 2 := rfl
      refine ⟨![t, -s, s - t], ?_, ?_⟩
      · have : ∑ j, (![t, -s, s - t] : Fin 3 → ℝ) j = t + -s + (s - t) := Fin.sum_univ_three _
        rw [this]; ring
      · have : ∑ j, (![t, -s, s - t] : Fin 3 → ℝ) j • v j = t • v 0 + (-s) • v 1 + (s - t) • v 2 :=
          Fin.sum_univ_three (fun j => (![t, -s, s - t] : Fin 3 → ℝ) j • v j)
        rw [this, hst, e0, e1]
        funext a
        simp only [Pi.add_apply, Pi.sub_apply, Pi.smul_apply, smul_eq_mul]
        ring
  · have hl := el_pos v h i
    have : len (v (i + 1) - v (i + 2)) = edgeLengths v i := (len_sub_comm _ _).trans (el_len v i).symm
    rw [this, smul_smul, mul_one_div_cancel hl.ne', one_smul]

/-- The foot of the altitude. -/
theorem foot_bary (v : Tri n) (h : NonDegenerate v) (i : Fin 3) :
    ∃ w, IsBarycentric v (altitudeFeet v i) w ∧ w i = 0 ∧ w (i + 1) = dd v (i + 2) / (dd v (i + 1) + dd v (i + 2)) ∧
      w (i + 2) = dd v (i + 1) / (dd v (i + 1) + dd v (i + 2)) := by
  have hp := edge_pos v h i
  have hne : i + 1 ≠ i ∧ i + 2 ≠ i ∧ i + 2 ≠ i + 1 := by clear * -; revert i; decide
  have hs : -((v (i + 2) - v (i + 1)) ⬝ᵥ (v (i + 1) - v i)) / ((v (i + 2) - v (i + 1)) ⬝ᵥ (v (i + 2) - v (i + 1))) =
      dd v (i + 1) / (dd v (i + 1) + dd v (i + 2)) := by
    have h1 : (v (i + 2) - v (i + 1)) ⬝ᵥ (v (i + 2) - v (i + 1)) = dd v (i + 1) + dd v (i + 2) := edges_self v i
    have h2 : -((v (i + 2) - v (i + 1)) ⬝ᵥ (v (i + 1) - v i)) = dd v (i + 1) := by
      have : dd v (i + 1) = (v (i + 1 + 1) - v (i + 1)) ⬝ᵥ (v (i + 1 + 2) - v (i + 1)) := rfl
      rw [this, f11, f12, ← dotProduct_neg, neg_sub]
    rw [h1, h2]
  refine ⟨fun j => if j = i then 0 else if j = i + 1 then dd v (i + 2) / (dd v (i + 1) + dd v (i + 2)) else dd v (i + 1) / (dd v (i + 1) + dd v (i + 2)),
    ?_, by simp, by simp [hne.1], by simp [hne.2.1, hne.2.2]⟩
  rw [bary3 v _ _ i]
  simp only [if_true, if_neg hne.1, if_neg hne.2.1, if_neg hne.2.2]
  refine ⟨by field_simp; ring, ?_⟩
  unfold altitudeFeet
  simp only [hs]
  rw [zero_smul, zero_add]
  congr 2
  field_simp
  ring

theorem foot_dist (v : Tri n) (h : NonDegenerate v) (i : Fin 3) : len (v i - altitudeFeet v i) = √(gram v) / edgeLengths v i := by
  obtain ⟨w, hw, w0, w1, w2⟩ := foot_bary v h i
  have hp := edge_pos v h i
  have hl := el_pos v h i
  rw [len_sub_comm, len_eq_iff _ (by positivity), bary_dist v hw i, w1, w2, div_pow (√(gram v)), Real.sq_sqrt (gram_pos v h).le, el_sq, gram_dd v i]
  field_simp
  ring

/-- **C69** `altitude_feet`, in every dimension: foot `i` is the point of the line through edge `i` that is nearest to vertex `i`. -/
theorem C69_altitude_feet (v : Tri n) (h : NonDegenerate v) (i : Fin 3) : IsNearest (v i) (FacetHull v i) (altitudeFeet v i) := by
  obtain ⟨w, hw, w0, _⟩ := foot_bary v h i
  have hd := tri_height v h i (vertex_bary v i)
  simp only [if_true, abs_one, one_mul] at hd
  refine ⟨⟨w, hw, w0⟩, fun z hz => ?_⟩
  rw [foot_dist v h i]
  exact hd.2 z hz

/-- **C69** `altitudes` are the distances from the vertices to the lines through the opposite edges, and `altitude_vectors` lead from the vertices to
the feet of the altitudes. ValueError in dimensions other than 2 and 3. -/
theorem C69_altitudes (v : Tri n) (h : NonDegenerate v) :
    (n = 2 ∨ n = 3 → ∃ a hv, altitudes v = .ok a ∧ altitudeVectors v = .ok hv ∧
      ∀ i, IsDistance (v i) (FacetHull v i) (a i) ∧ len (hv i) = a i ∧ v i + hv i = altitudeFeet v i) ∧
    (n ≠ 2 → n ≠ 3 → altitudes v = .error .value ∧ altitudeVectors v = .error .value) := by
  refine ⟨fun hn => ?_, fun h2 h3 => ?_⟩
  · have hg := Real.sqrt_pos.2 (gram_pos v h)
    refine ⟨fun i => √(gram v) / edgeLengths v i, fun i => altitudeFeet v i - v i, ?_, ?_, fun i => ⟨?_, ?_, add_sub_cancel _ _⟩⟩
    · unfold altitudes
      rw [area_eq v hn]
      simp only [Py.bind_ok, Py.pure_eq, el_len']
      congr 1
      funext i
      ring
    · unfold altitudeVectors
      rw [area_eq v hn, dualEdges_ok v h hn]
      simp only [Py.bind_ok, Py.pure_eq, el_len']
      congr 1
      funext i
      have hl := el_pos v h i
      have hn : Linalg.norm (dual v i) = edgeLengths v i := by
        rw [norm_eq_len]; exact (len_eq_iff _ hl.le).2 (dual_sq v h i)
      rw [hn, divBy_eq, smul_smul]
      obtain ⟨w, hw, w0, w1, w2⟩ := foot_bary v h i
      have hsub := bary_sub v hw i
      rw [hsub, w1, w2]
      unfold dual
      rw [smul_smul, edges_self, edges_succ]
      have e1 : Triangle.edges v (i + 1) = v i - v (i + 2) := by simp only [Triangle.edges, f11, f12]
      have e0 : Triangle.edges v i = v (i + 2) - v (i + 1) := rfl
      have hc : 1 / edgeLengths v i * (2 * (√(gram v) / 2) / edgeLengths v i) * (1 / √(gram v)) = 1 / (dd v (i + 1) + dd v (i + 2)) := by
        rw [← el_sq]
        field_simp
      rw [hc, e0, e1]
      have hp := edge_pos v h i
      funext a
      simp only [Pi.add_apply, Pi.sub_apply, Pi.smul_apply, smul_eq_mul]
      field_simp
      ring
    · have hd := tri_height v h i (vertex_bary v i)
      simp only [if_true, abs_one, one_mul] at hd
      exact hd
    · rw [len_sub_comm, foot_dist v h i]
  · have ha := area_error v ⟨h2, h3⟩
    refine ⟨?_, ?_⟩
    · unfold altitudes; rw [ha]; rfl
    · unfold altitudeVectors; rw [ha]; rfl

/-- **C69** `medians` and `centroid`: vertex plus median is the midpoint of the opposite edge; the centroid has equal barycentric coordinates. -/
theorem C69_medians (v : Tri n) :
    (∀ i, v i + medians v i = (1 / 2 : ℝ) • (v (i + 1) + v (i + 2))) ∧ IsBarycentric v (Triangle.centroid v) (fun _ => 1 / 3) := by
  refine ⟨fun i => by unfold medians; abel, (bary3 v _ _ 0).2 ⟨by norm_num, ?_⟩⟩
  unfold Triangle.centroid
  rw [divBy_eq, smul_add, smul_add]
  rfl

/-- **C69** `cartesian_to_barycentric` in the plane and in space: the barycentric coordinates of the point of the plane of the triangle that is nearest
to the given point; so for a point in the plane of the triangle, `barycentric_to_cartesian` of the result is the point. -/
theorem C69_barycentric (v : Tri n) (h : NonDegenerate v) :
    (n = 2 ∨ n = 3 → ∀ p, ∃ y w, Triangle.cartesianToBarycentric p v = .ok w ∧ IsNearest p (Hull v) y ∧ IsBarycentric v y w ∧
      Triangle.barycentricToCartesian w v = y ∧ (p ∈ Hull v → y = p) ∧ (n = 2 → y = p)) ∧
    (n ≠ 2 → n ≠ 3 → ∀ p, Triangle.cartesianToBarycentric p v = .error .assertion) := by
  refine ⟨fun hn p => ?_, fun h2 h3 p => ?_⟩
  · obtain ⟨y, w, h1, h2, h3⟩ := cartesianToBarycentric_ok v h hn p
    refine ⟨y, w, h1, h2, h3, ((bary3 v y w 0).1 h3).2.symm, fun hp => nearest_self v hp h2, ?_⟩
    rintro rfl
    exact nearest_self v (hull_full v h p) h2
  · unfold Triangle.cartesianToBarycentric edges2
    rw [Triangle.basis_error v ⟨h2, h3⟩]
    rfl

/-- **C69** The round trip from barycentric coordinates. -/
theorem C69_round_trip (v : Tri n) (h : NonDegenerate v) (hn : n = 2 ∨ n = 3) (w : Fin 3 → ℝ) (hw : ∑ i, w i = 1) :
    Triangle.cartesianToBarycentric (Triangle.barycentricToCartesian w v) v = .ok w := by
  have hw' : w 0 + w 1 + w 2 = 1 := by rw [← hw, Fin.sum_univ_three]
  obtain ⟨y, w', h1, h2, h3⟩ := cartesianToBarycentric_ok v h hn (Triangle.barycentricToCartesian w v)
  have hb := toCartesian_bary v w hw'
  have hy := nearest_self v ⟨w, hb⟩ h2
  rw [hy] at h3
  rw [h1, bary_unique v h h3 hb]

/-- **C69** `inside_triangle`: True exactly if the point of the plane of the triangle nearest to the given point (in the plane, the point itself) belongs
to the triangle; without the boundary, if all its barycentric coordinates are positive. -/
theorem C69_inside (v : Tri n) (h : NonDegenerate v) (hn : n = 2 ∨ n = 3) (p : Fin n → ℝ) :
    ∃ y w r r', IsNearest p (Hull v) y ∧ (n = 2 → y = p) ∧ IsBarycentric v y w ∧ insideTriangle p v true = .ok r ∧ insideTriangle p v false = .ok r' ∧
      (r = true ↔ y ∈ Points v) ∧ (r' = true ↔ ∀ i, 0 < w i) := by
  obtain ⟨y, w, h1, h2, h3⟩ := cartesianToBarycentric_ok v h hn p
  have hsum := ((bary3 v y w 0).1 h3).1
  simp only [zero_add] at hsum
  refine ⟨y, w, inClosedRange (w 0) 0 1 && inClosedRange (w 1) 0 1 && inClosedRange (w 2) 0 1,
    inOpenRange (w 0) 0 1 && inOpenRange (w 1) 0 1 && inOpenRange (w 2) 0 1, h2, ?_, h3, ?_, ?_, ?_, ?_⟩
  · rintro rfl; exact nearest_self v (hull_full v h p) h2
  · unfold insideTriangle; rw [h1]; rfl
  · unfold insideTriangle; rw [h1]; rfl
  · simp only [inClosedRange, Bool.and_eq_true, decide_eq_true_eq]
    constructor
    · rintro ⟨⟨h0, h1⟩, h2⟩
      refine ⟨w, h3, fun i => ?_⟩
      fin_cases i
      · exact h0.1
      · exact h1.1
      · exact h2.1
    · rintro ⟨w', hw', hp⟩
      rw [bary_unique v h h3 hw'] at hsum ⊢
      have p0 := hp 0
      have p1 := hp 1
      have p2 := hp 2
      exact ⟨⟨⟨p0, by linarith⟩, p1, by linarith⟩, p2, by linarith⟩
  · simp only [inOpenRange, Bool.and_eq_true, decide_eq_true_eq]
    constructor
    · rintro ⟨⟨h0, h1⟩, h2⟩ i
      fin_cases i
      · exact h0.1
      · exact h1.1
      · exact h2.1
    · intro hp
      have p0 := hp 0
      have p1 := hp 1
      have p2 := hp 2
      exact ⟨⟨⟨p0, by linarith⟩, p1, by linarith⟩, p2, by linarith⟩

/-- **C69** In space `inside_triangle` does not check that the point is in the plane of the triangle: for every non-degenerate triangle there is a point
outside of its plane which it reports as inside. -/
theorem C69_inside_off_plane (v : Tri 3) (h : NonDegenerate v) : ∃ p, p ∉ Hull v ∧ insideTriangle p v true = .ok true := by
  obtain ⟨u, _, h1, h2, _⟩ := C69_normal v h
  refine ⟨v 0 + u, fun hp => ?_, ?_⟩
  · obtain ⟨w, hw⟩ := hp
    have hs := bary_sub v hw 0
    rw [add_sub_cancel_left] at hs
    have : u ⬝ᵥ u = 0 := by
      have a1 : u ⬝ᵥ (v (0 + 1) - v 0) = 0 := h2 (0 + 1) 0
      have a2 : u ⬝ᵥ (v (0 + 2) - v 0) = 0 := h2 (0 + 2) 0
      have e : u ⬝ᵥ u = u ⬝ᵥ (w (0 + 1) • (v (0 + 1) - v 0) + w (0 + 2) • (v (0 + 2) - v 0)) := congrArg (u ⬝ᵥ ·) hs
      rw [e, dotProduct_add, dotProduct_smul, dotProduct_smul, a1, a2]
      simp
    rw [← len_sq, h1] at this
    norm_num at this
  · obtain ⟨y, w, r, r', g1, _, g3, g4, _, g6, _⟩ := C69_inside v h (Or.inr rfl) (v 0 + u)
    have hy : y = v 0 := by
      refine (nearest_of_orth v ⟨_, vertex_bary v 0⟩ ?_).2 y g1
      rw [add_sub_cancel_left]
      funext j
      have : ((edgeM v)ᵀ *ᵥ u) j = u ⬝ᵥ (v j.succ - v 0) := by
        simp only [mulVec, dotProduct, edgeM, Matrix.transpose_apply, Matrix.of_apply, Pi.sub_apply]
        exact Finset.sum_congr rfl fun a _ => mul_comm _ _
      rw [this]
      exact h2 _ _
    rw [g4, g6.2]
    rw [hy]
    exact ⟨_, vertex_bary v 0, fun j => by split <;> norm_num⟩

/-- **C69** `angle`: the angles at the vertices, in space for every non-degenerate triangle, in other dimensions for triangles whose edges are not
shorter than `1e-12`; their sum is π. -/
theorem C69_angle (v : Tri n) (h : NonDegenerate v) (hn : n ≠ 3 → ∀ i, 1 / 10 ^ 12 ≤ edgeLengths v i) :
    ∃ θ : Fin 3 → ℝ, (∀ i, angle v i = .ok (θ i) ∧ IsAngle (v (i + 1) - v i) (v (i + 2) - v i) (θ i)) ∧ θ 0 + θ 1 + θ 2 = Real.pi := by
  choose θ h1 h2 using angle_ok v h hn
  refine ⟨θ, fun i => ⟨h1 i, h2 i⟩, ?_⟩
  rw [angle_eq_arccos v h 0 (h2 0), angle_eq_arccos v h 1 (h2 1), angle_eq_arccos v h 2 (h2 2)]
  exact angle_sum v h

theorem angle_tiny (hn : n ≠ 3) (v : Tri n) (hs : ∀ i, edgeLengths v i < 1 / 10 ^ 12) (i : Fin 3) : angle v i = .ok 0 := by
  unfold angle computeAngle
  rw [dif_pos rfl, dif_neg (fun h => hn h.symm)]
  unfold computeAngleN
  have e : Linalg.norm (-Triangle.edges v (i + 1)) = edgeLengths v (i + 1) := by
    rw [norm_eq_len, len_neg, ← norm_eq_len]; rfl
  simp only
  rw [if_pos (Or.inl (by rw [e]; exact hs _))]

/-- **C69** `trilinear_to_barycentric` and its companions: `barycentric_to_trilinear` gives the distances to the lines through the edges, with the sign of
the barycentric coordinate; every non-zero multiple of these is converted back to the barycentric coordinates, and scaled to the distances. ValueError
in dimensions other than 2 and 3. -/
theorem C69_trilinear (v : Tri n) (h : NonDegenerate v) (x : Fin n → ℝ) (w : Fin 3 → ℝ) (hw : IsBarycentric v x w) :
    (n = 2 ∨ n = 3 → ∃ t, Triangle.barycentricToTrilinear w v = .ok t ∧ (∀ i, IsDistance x (FacetHull v i) |t i| ∧ (0 ≤ t i ↔ 0 ≤ w i)) ∧
      sideDistancesToTrilinear t = t ∧
      ∀ c : ℝ, c ≠ 0 → Triangle.trilinearToBarycentric (c • t) v = w ∧ trilinearToSideDistances (c • t) v = .ok t ∧ normalizeTrilinearCoordinates (c • t) v = .ok t) ∧
    (n ≠ 2 → n ≠ 3 → ∀ t, Triangle.barycentricToTrilinear t v = .error .value ∧ trilinearToSideDistances t v = .error .value ∧
      normalizeTrilinearCoordinates t v = .error .value) := by
  have hsum := ((bary3 v x w 0).1 hw).1
  simp only [zero_add] at hsum
  refine ⟨fun hn => ?_, fun h2 h3 t => ?_⟩
  · have hg := Real.sqrt_pos.2 (gram_pos v h)
    have p0 := el_pos v h 0
    have p1 := el_pos v h 1
    have p2 := el_pos v h 2
    have hback : ∀ c : ℝ, c ≠ 0 → trilinearToSideDistances (c • fun i => √(gram v) * (w i / edgeLengths v i)) v =
        .ok fun i => √(gram v) * (w i / edgeLengths v i) := by
      intro c hc
      unfold trilinearToSideDistances
      rw [area_eq v hn]
      simp only [Py.bind_ok, Py.pure_eq, Pi.smul_apply, smul_eq_mul]
      have e : 0 + edgeLengths v 0 * (c * (√(gram v) * (w 0 / edgeLengths v 0))) + edgeLengths v 1 * (c * (√(gram v) * (w 1 / edgeLengths v 1))) +
          edgeLengths v 2 * (c * (√(gram v) * (w 2 / edgeLengths v 2))) = c * √(gram v) * (w 0 + w 1 + w 2) := by
        field_simp
        ring
      rw [e, hsum, mul_one]
      have hk : 2 * (√(gram v) / 2) / (c * √(gram v)) = c⁻¹ := by field_simp
      rw [hk, smul_smul, inv_mul_cancel₀ hc, one_smul]
    refine ⟨fun i => √(gram v) * (w i / edgeLengths v i), ?_, fun i => ⟨?_, ?_⟩, rfl, fun c hc => ⟨?_, hback c hc, hback c hc⟩⟩
    · unfold Triangle.barycentricToTrilinear normalizeTrilinearCoordinates trilinearToSideDistances
      rw [area_eq v hn]
      simp only [Py.bind_ok, Py.pure_eq]
      have e : 0 + edgeLengths v 0 * (w 0 / Linalg.norm (Triangle.edges v 0)) + edgeLengths v 1 * (w 1 / Linalg.norm (Triangle.edges v 1)) +
          edgeLengths v 2 * (w 2 / Linalg.norm (Triangle.edges v 2)) = 1 := by
        have : ∀ i, Linalg.norm (Triangle.edges v i) = edgeLengths v i := fun i => rfl
        rw [this, this, this, zero_add, mul_div_cancel₀ _ p0.ne', mul_div_cancel₀ _ p1.ne', mul_div_cancel₀ _ p2.ne', hsum]
      rw [e]
      congr 1
      funext i
      have hk : 2 * (√(gram v) / 2) / 1 = √(gram v) := by ring
      rw [hk]
      rfl
    · have hl := el_pos v h i
      rw [abs_mul, abs_div, abs_of_pos hl, abs_of_pos hg]
      have := tri_height v h i hw
      have e : √(gram v) * (|w i| / edgeLengths v i) = |w i| * (√(gram v) / edgeLengths v i) := by ring
      rw [e]
      exact this
    · have hl := el_pos v h i
      rw [mul_nonneg_iff_of_pos_left hg, div_nonneg_iff]
      constructor
      · rintro (⟨h1, _⟩ | ⟨_, h1⟩)
        · exact h1
        · linarith
      · exact fun h1 => Or.inl ⟨h1, hl.le⟩
    · refine trilinear_ok v (c := c * √(gram v)) (mul_ne_zero hc hg.ne') (fun i => ?_) hsum
      have hl := el_pos v h i
      simp only [Pi.smul_apply, smul_eq_mul]
      field_simp
  · have ha := area_error v ⟨h2, h3⟩
    have : ∀ t, trilinearToSideDistances t v = .error .value := by
      intro t
      unfold trilinearToSideDistances
      rw [ha]; rfl
    refine ⟨?_, this t, this t⟩
    unfold Triangle.barycentricToTrilinear
    exact this _

theorem el_prod (v : Tri n) (i : Fin 3) : edgeLengths v 0 * edgeLengths v 1 * edgeLengths v 2 = edgeLengths v i * edgeLengths v (i + 1) * edgeLengths v (i + 2) := by
  fin_cases i
  · rfl
  · show _ = edgeLengths v 1 * edgeLengths v 2 * edgeLengths v 0
    ring
  · show _ = edgeLengths v 2 * edgeLengths v 0 * edgeLengths v 1
    ring

/-- The barycentric coordinates of the circumcenter. -/
noncomputable def circumBary (v : Tri n) : Fin 3 → ℝ := fun i => dd v i * (dd v (i + 1) + dd v (i + 2)) / (2 * gram v)

theorem circumBary_sum (v : Tri n) (h : NonDegenerate v) : circumBary v 0 + circumBary v 1 + circumBary v 2 = 1 := by
  have hg := gram_pos v h
  have e := gram_dd v 0
  simp only [zero_add] at e
  have e1 : circumBary v 0 = dd v 0 * (dd v 1 + dd v 2) / (2 * gram v) := rfl
  have e2 : circumBary v 1 = dd v 1 * (dd v 2 + dd v 0) / (2 * gram v) := rfl
  have e3 : circumBary v 2 = dd v 2 * (dd v 0 + dd v 1) / (2 * gram v) := rfl
  rw [e1, e2, e3, ← add_div, ← add_div, div_eq_one_iff_eq (by positivity), e]
  ring

theorem circumradius_eq (v : Tri n) : Triangle.circumradius v = edgeLengths v 0 * edgeLengths v 1 * edgeLengths v 2 / √(4 * gram v) := by
  unfold Triangle.circumradius
  simp only
  congr 2
  have e := gram_dd v 0
  have s0 := el_sq v 0
  have s1 := el_sq v 1
  have s2 := el_sq v 2
  have k0 : dd v (1 + 1) = dd v 2 := rfl
  have k1 : dd v (1 + 2) = dd v 0 := rfl
  have k2 : dd v (2 + 1) = dd v 0 := rfl
  have k3 : dd v (2 + 2) = dd v 1 := rfl
  rw [k0, k1] at s1
  rw [k2, k3] at s2
  simp only [zero_add] at e s0
  have : (edgeLengths v 0 + edgeLengths v 1 + edgeLengths v 2) * (edgeLengths v 1 + edgeLengths v 2 - edgeLengths v 0) *
      (edgeLengths v 2 + edgeLengths v 0 - edgeLengths v 1) * (edgeLengths v 0 + edgeLengths v 1 - edgeLengths v 2) =
      2 * (edgeLengths v 0 ^ 2 * edgeLengths v 1 ^ 2 + edgeLengths v 1 ^ 2 * edgeLengths v 2 ^ 2 + edgeLengths v 2 ^ 2 * edgeLengths v 0 ^ 2) -
      ((edgeLengths v 0 ^ 2) ^ 2 + (edgeLengths v 1 ^ 2) ^ 2 + (edgeLengths v 2 ^ 2) ^ 2) := by ring
  rw [this, s0, s1, s2, e]
  ring

theorem circumBary_dist (v : Tri n) (h : NonDegenerate v) {c : Fin n → ℝ} (hc : IsBarycentric v c (circumBary v)) (i : Fin 3) :
    len (c - v i) = Triangle.circumradius v := by
  have hg := gram_pos v h
  have hr : 0 ≤ Triangle.circumradius v := by
    rw [circumradius_eq]
    have := el_nonneg v
    have h0 := this 0
    have h1 := this 1
    have h2 := this 2
    positivity
  rw [len_eq_iff _ hr, bary_dist v hc i, circumradius_eq, el_prod v i, div_pow, Real.sq_sqrt (by positivity), mul_pow, mul_pow, el_sq, el_sq, el_sq,
    f11, f12, f21, f22]
  have e1 : circumBary v (i + 1) = dd v (i + 1) * (dd v (i + 2) + dd v i) / (2 * gram v) := by unfold circumBary; rw [f11, f12]
  have e2 : circumBary v (i + 2) = dd v (i + 2) * (dd v i + dd v (i + 1)) / (2 * gram v) := by unfold circumBary; rw [f21, f22]
  rw [e1, e2]
  have hgd := gram_dd v i
  rw [hgd] at hg ⊢
  clear e1 e2 hgd hr
  generalize dd v i = a at *
  generalize dd v (i + 1) = b at *
  generalize dd v (i + 2) = d at *
  have hne := hg.ne'
  rw [div_pow, div_pow, mul_div_assoc', ← sub_eq_zero]
  field_simp
  ring

/-- **C69** `circumradius`, in every dimension: the common distance of the circumcenter from the vertices. -/
theorem C69_circumradius (v : Tri n) (h : NonDegenerate v) : ∃ c, IsCircumcenter v c ∧ ∀ i, len (c - v i) = Triangle.circumradius v := by
  have hb := toCartesian_bary v _ (circumBary_sum v h)
  have hd := circumBary_dist v h hb
  exact ⟨_, ⟨⟨_, hb⟩, fun i j => (hd i).trans (hd j).symm⟩, hd⟩

/-- **C69** `circumcenter`: the point of the plane of the triangle that has the same distance, the `circumradius`, from the vertices; outside space for
triangles whose edges are not shorter than `1e-12`. -/
theorem C69_circumcenter (v : Tri n) (h : NonDegenerate v) (hn : n ≠ 3 → ∀ i, 1 / 10 ^ 12 ≤ edgeLengths v i) :
    ∃ c, Triangle.circumcenter v = .ok c ∧ IsCircumcenter v c ∧ ∀ i, len (c - v i) = Triangle.circumradius v := by
  have hb := toCartesian_bary v _ (circumBary_sum v h)
  have hd := circumBary_dist v h hb
  refine ⟨_, ?_, ⟨⟨_, hb⟩, fun i j => (hd i).trans (hd j).symm⟩, hd⟩
  choose θ h1 h2 using angle_ok v h hn
  unfold Triangle.circumcenter
  rw [rows3_ok _ (fun i => Real.cos (θ i)) fun i => by rw [h1 i]; rfl]
  simp only [Py.bind_ok, Py.pure_eq]
  congr 2
  have hg := gram_pos v h
  have hp : 0 < edgeLengths v 0 * edgeLengths v 1 * edgeLengths v 2 := mul_pos (mul_pos (el_pos v h 0) (el_pos v h 1)) (el_pos v h 2)
  refine trilinear_ok v (c := 2 * gram v / (edgeLengths v 0 * edgeLengths v 1 * edgeLengths v 2)) (by positivity) (fun i => ?_) (circumBary_sum v h)
  have p0 := el_pos v h i
  have p1 := el_pos v h (i + 1)
  have p2 := el_pos v h (i + 2)
  rw [((isAngle_iff v h i _).1 (h2 i)).2.2, el_prod v i]
  unfold circumBary
  rw [← el_sq]
  field_simp

/-- **C69** `orthocenter`: the point of the plane of the triangle that lies on the three altitudes; the line from vertex `i` to it is orthogonal to the
opposite edge. -/
theorem C69_orthocenter (v : Tri n) (h : NonDegenerate v) (hn : n ≠ 3 → ∀ i, 1 / 10 ^ 12 ≤ edgeLengths v i) :
    ∃ p, Triangle.orthocenter v = .ok p ∧ p ∈ Hull v ∧ ∀ i, ∑ a, (p a - v i a) * (v (i + 2) a - v (i + 1) a) = 0 := by
  have hg := gram_pos v h
  set w : Fin 3 → ℝ := fun i => dd v (i + 1) * dd v (i + 2) / gram v with hwd
  have hsum : w 0 + w 1 + w 2 = 1 := by
    have e := gram_dd v 0
    simp only [zero_add] at e
    have e1 : w 0 = dd v 1 * dd v 2 / gram v := rfl
    have e2 : w 1 = dd v 2 * dd v 0 / gram v := rfl
    have e3 : w 2 = dd v 0 * dd v 1 / gram v := rfl
    rw [e1, e2, e3, ← add_div, ← add_div, div_eq_one_iff_eq (by positivity), e]
    ring
  have hb := toCartesian_bary v w hsum
  refine ⟨_, ?_, ⟨_, hb⟩, fun (i : Fin 3) => ?_⟩
  swap
  · have := bary_edge_dot v hb i
    have e1 : w (i + 1) = dd v (i + 2) * dd v i / gram v := by simp only [hwd, f11, f12]
    have e2 : w (i + 2) = dd v i * dd v (i + 1) / gram v := by simp only [hwd, f21, f22]
    rw [e1, e2] at this
    refine Eq.trans (Eq.trans ?_ this) (by ring)
    rfl
  choose θ h1 h2 using angle_ok v h hn
  have hcos : ∀ i, Real.cos (θ i) = dd v i / (edgeLengths v (i + 1) * edgeLengths v (i + 2)) := fun i => ((isAngle_iff v h i _).1 (h2 i)).2.2
  have hright : ∀ i, θ i = Real.pi / 2 ↔ dd v i = 0 := by
    intro i
    have p1 := el_pos v h (i + 1)
    have p2 := el_pos v h (i + 2)
    constructor
    · intro e
      have := hcos i
      rw [e, Real.cos_pi_div_two] at this
      have := (div_eq_zero_iff.1 this.symm).resolve_right (mul_pos p1 p2).ne'
      exact this
    · intro e
      rw [angle_eq_arccos v h i (h2 i), e, zero_div, Real.arccos_zero]
  have hunit : ∀ i : Fin 3, dd v i = 0 → Triangle.trilinearToBarycentric (Function.update (fun _ => 0) i 1) v = w := by
    intro i hi
    refine trilinear_ok v (c := edgeLengths v i) (el_pos v h i).ne' (fun j => ?_) hsum
    have hgd := gram_dd v i
    rw [hi] at hgd
    have hcases : j = i ∨ j = i + 1 ∨ j = i + 2 := by clear * -; revert i j; decide
    have hne : i + 1 ≠ i ∧ i + 2 ≠ i := by clear * -; revert i; decide
    have e1 : w (i + 1) = dd v (i + 2) * dd v i / gram v := by simp only [hwd, f11, f12]
    have e2 : w (i + 2) = dd v i * dd v (i + 1) / gram v := by simp only [hwd, f21, f22]
    have e0 : w i = 1 := by
      simp only [hwd]
      rw [div_eq_one_iff_eq hg.ne', hgd]
      ring
    rcases hcases with rfl | rfl | rfl
    · rw [Function.update_self, e0, one_mul, mul_one]
    · rw [Function.update_of_ne hne.1, e1, hi]; simp
    · rw [Function.update_of_ne hne.2, e2, hi]; simp
  unfold Triangle.orthocenter
  suffices hs : ∃ t, orthoLoop v [0, 1, 2] (fun _ => 0) = .ok t ∧ Triangle.trilinearToBarycentric t v = w by
    obtain ⟨t, ht, hw⟩ := hs
    rw [ht]
    simp only [Py.bind_ok, Py.pure_eq]
    rw [hw]
  simp only [orthoLoop, h1, Py.bind_ok]
  by_cases r0 : θ 0 = Real.pi / 2
  · rw [if_neg (not_not.2 r0)]
    exact ⟨_, rfl, hunit 0 ((hright 0).1 r0)⟩
  rw [if_pos r0]
  by_cases r1 : θ 1 = Real.pi / 2
  · rw [if_neg (not_not.2 r1)]
    exact ⟨_, rfl, hunit 1 ((hright 1).1 r1)⟩
  rw [if_pos r1]
  by_cases r2 : θ 2 = Real.pi / 2
  · rw [if_neg (not_not.2 r2)]
    exact ⟨_, rfl, hunit 2 ((hright 2).1 r2)⟩
  rw [if_pos r2]
  refine ⟨_, rfl, ?_⟩
  have hne : ∀ i, dd v i ≠ 0 := by
    intro i hi
    have := (hright i).2 hi
    fin_cases i
    · exact r0 this
    · exact r1 this
    · exact r2 this
  have d0 := hne 0
  have d1 := hne 1
  have d2 := hne 2
  have q0 := (el_pos v h 0).ne'
  have q1 := (el_pos v h 1).ne'
  have q2 := (el_pos v h 2).ne'
  have c0 : Real.cos (θ 0) = dd v 0 / (edgeLengths v 1 * edgeLengths v 2) := hcos 0
  have c1 : Real.cos (θ 1) = dd v 1 / (edgeLengths v 2 * edgeLengths v 0) := hcos 1
  have c2 : Real.cos (θ 2) = dd v 2 / (edgeLengths v 0 * edgeLengths v 1) := hcos 2
  have w0 : w 0 = dd v 1 * dd v 2 / gram v := rfl
  have w1 : w 1 = dd v 2 * dd v 0 / gram v := rfl
  have w2 : w 2 = dd v 0 * dd v 1 / gram v := rfl
  refine trilinear_ok v (c := edgeLengths v 0 * edgeLengths v 1 * edgeLengths v 2 * gram v / (dd v 0 * dd v 1 * dd v 2)) ?_ (fun i => ?_) hsum
  · exact div_ne_zero (mul_ne_zero (mul_ne_zero (mul_ne_zero q0 q1) q2) hg.ne') (mul_ne_zero (mul_ne_zero d0 d1) d2)
  · have hgn := hg.ne'
    fin_cases i
    · show (Function.update (Function.update (Function.update (fun _ => (0 : ℝ)) 0 (1 / Real.cos (θ 0))) 1 (1 / Real.cos (θ 1))) 2 (1 / Real.cos (θ 2))) 0
        * edgeLengths v 0 = _ * w 0
      rw [Function.update_of_ne (by decide), Function.update_of_ne (by decide), Function.update_self, c0, w0]
      field_simp
    · show (Function.update (Function.update (Function.update (fun _ => (0 : ℝ)) 0 (1 / Real.cos (θ 0))) 1 (1 / Real.cos (θ 1))) 2 (1 / Real.cos (θ 2))) 1
        * edgeLengths v 1 = _ * w 1
      rw [Function.update_of_ne (by decide), Function.update_self, c1, w1]
      field_simp
    · show (Function.update (Function.update (Function.update (fun _ => (0 : ℝ)) 0 (1 / Real.cos (θ 0))) 1 (1 / Real.cos (θ 1))) 2 (1 / Real.cos (θ 2))) 2
        * edgeLengths v 2 = _ * w 2
      rw [Function.update_self, c2, w2]
      field_simp

/-- The barycentric coordinates of the incenter. -/
theorem incenter_bary (v : Tri n) (h : NonDegenerate v) : IsBarycentric v (Triangle.incenter v) (fun i => edgeLengths v i / Triangle.perimeter v) := by
  have p0 := el_pos v h 0
  have p1 := el_pos v h 1
  have p2 := el_pos v h 2
  have hp : 0 < Triangle.perimeter v := by unfold Triangle.perimeter; positivity
  have hs : edgeLengths v 0 / Triangle.perimeter v + edgeLengths v 1 / Triangle.perimeter v + edgeLengths v 2 / Triangle.perimeter v = 1 := by
    rw [← add_div, ← add_div, div_eq_one_iff_eq hp.ne']
    unfold Triangle.perimeter
    ring
  have ht : Triangle.trilinearToBarycentric ![1, 1, 1] v = fun i => edgeLengths v i / Triangle.perimeter v := by
    refine trilinear_ok v (c := Triangle.perimeter v) hp.ne' (fun i => ?_) hs
    have : (![1, 1, 1] : Fin 3 → ℝ) i = 1 := by fin_cases i <;> rfl
    rw [this]
    field_simp
  have := toCartesian_bary v (fun i => edgeLengths v i / Triangle.perimeter v) hs
  unfold Triangle.incenter
  rw [ht]
  exact this

/-- **C69** `incenter`, in every dimension, is the interior point that has the same distance from the lines through the three edges; `inradius` is this
distance, in the plane and in space; ValueError in other dimensions. -/
theorem C69_incenter (v : Tri n) (h : NonDegenerate v) :
    (∃ w, IsBarycentric v (Triangle.incenter v) w ∧ ∀ i, 0 < w i) ∧
    (∃ r, (∀ i, IsDistance (Triangle.incenter v) (FacetHull v i) r) ∧ (n = 2 ∨ n = 3 → Triangle.inradius v = .ok r)) ∧ (n ≠ 2 → n ≠ 3 → Triangle.inradius v = .error .value) := by
  have hb := incenter_bary v h
  have p0 := el_pos v h 0
  have p1 := el_pos v h 1
  have p2 := el_pos v h 2
  have hp : 0 < Triangle.perimeter v := by unfold Triangle.perimeter; positivity
  refine ⟨⟨_, hb, fun i => div_pos (el_pos v h i) hp⟩, ⟨√(gram v) / Triangle.perimeter v, fun i => ?_, fun hn => ?_⟩, fun h2 h3 => ?_⟩
  · have hl := el_pos v h i
    have := tri_height v h i hb
    rw [abs_of_pos (div_pos hl hp)] at this
    have e : edgeLengths v i / Triangle.perimeter v * (√(gram v) / edgeLengths v i) = √(gram v) / Triangle.perimeter v := by field_simp
    rwa [e] at this
  · unfold Triangle.inradius
    rw [area_eq v hn]
    simp only [Py.bind_ok, Py.pure_eq]
    congr 1
    field_simp
  · unfold Triangle.inradius
    rw [area_error v ⟨h2, h3⟩]
    rfl

/-- **C69** Outside space the angles of a triangle whose edges are all shorter than `1e-12` are computed as 0: `circumcenter` and `orthocenter` both return
the incenter. -/
theorem C69_tiny (hn : n ≠ 3) (v : Tri n) (hs : ∀ i, edgeLengths v i < 1 / 10 ^ 12) :
    Triangle.circumcenter v = .ok (Triangle.incenter v) ∧ Triangle.orthocenter v = .ok (Triangle.incenter v) := by
  have ha := angle_tiny hn v hs
  constructor
  · unfold Triangle.circumcenter
    rw [rows3_ok _ (fun _ => 1) fun i => by rw [ha i]; simp only [Py.bind_ok, Py.pure_eq, Real.cos_zero]]
    simp only [Py.bind_ok, Py.pure_eq]
    unfold Triangle.incenter
    have : (![1, 1, 1] : Fin 3 → ℝ) = fun _ => 1 := by funext i; fin_cases i <;> rfl
    rw [this]
  · have hz : (0 : ℝ) ≠ Real.pi / 2 := by positivity
    unfold Triangle.orthocenter
    simp only [orthoLoop, ha, Py.bind_ok, Py.pure_eq, ne_eq, hz, not_false_eq_true, if_true, Real.cos_zero, div_one]
    unfold Triangle.incenter
    have : Function.update (Function.update (Function.update (fun _ => (0 : ℝ)) (0 : Fin 3) 1) 1 1) 2 1 = ![1, 1, 1] := by
      funext i; fin_cases i <;> rfl
    rw [this]

/-- **C69** The incenter of a right-angled isosceles triangle in the plane is not its circumcenter: with the previous theorem, `circumcenter` is wrong for
such triangles with legs shorter than `5e-13`. -/
theorem C69_circumcenter_tiny (s : ℝ) (h0 : 0 < s) (h1 : s < 5 / 10 ^ 13) :
    ∃ c, Triangle.circumcenter (![![0, 0], ![s, 0], ![0, s]] : Tri 2) = .ok c ∧ NonDegenerate (![![0, 0], ![s, 0], ![0, s]] : Tri 2) ∧
      ¬ IsCircumcenter (![![0, 0], ![s, 0], ![0, s]] : Tri 2) c := by
  set v : Tri 2 := ![![0, 0], ![s, 0], ![0, s]] with hv
  have v0 : v 0 = ![0, 0] := rfl
  have v1 : v 1 = ![s, 0] := rfl
  have v2 : v 2 = ![0, s] := rfl
  have d0 : dd v 0 = 0 := by
    have : dd v 0 = (v 1 - v 0) ⬝ᵥ (v 2 - v 0) := rfl
    rw [this, v0, v1, v2]
    simp
  have d1 : dd v 1 = s ^ 2 := by
    have : dd v 1 = (v 2 - v 1) ⬝ᵥ (v 0 - v 1) := rfl
    rw [this, v0, v1, v2]
    simp
    ring
  have d2 : dd v 2 = s ^ 2 := by
    have : dd v 2 = (v 0 - v 2) ⬝ᵥ (v 1 - v 2) := rfl
    rw [this, v0, v1, v2]
    simp
    ring
  have hnd : NonDegenerate v := by
    rw [nonDegenerate_iff_gram v le_rfl]
    have := gram_dd v 0
    simp only [zero_add] at this
    rw [this, d0, d1, d2]
    positivity
  have s0 : edgeLengths v 0 ^ 2 = 2 * s ^ 2 := by
    have : edgeLengths v 0 ^ 2 = dd v 1 + dd v 2 := el_sq v 0
    rw [this, d1, d2]; ring
  have s1 : edgeLengths v 1 ^ 2 = s ^ 2 := by
    have : edgeLengths v 1 ^ 2 = dd v 2 + dd v 0 := el_sq v 1
    rw [this, d0, d2]; ring
  have s2 : edgeLengths v 2 ^ 2 = s ^ 2 := by
    have : edgeLengths v 2 ^ 2 = dd v 0 + dd v 1 := el_sq v 2
    rw [this, d0, d1]; ring
  have p0 := el_pos v hnd 0
  have p1 := el_pos v hnd 1
  have p2 := el_pos v hnd 2
  have e1 : edgeLengths v 1 = s := by nlinarith [sq_nonneg (edgeLengths v 1 - s)]
  have e2 : edgeLengths v 2 = s := by nlinarith [sq_nonneg (edgeLengths v 2 - s)]
  have b0 : edgeLengths v 0 < 2 * s := by nlinarith
  have ht := (C69_tiny (by norm_num) v (fun i => by
    fin_cases i
    · exact lt_of_lt_of_le b0 (by linarith)
    · exact e1.trans_lt (by linarith)
    · exact e2.trans_lt (by linarith))).1
  refine ⟨_, ht, hnd, fun hc => ?_⟩
  have hd := hc.2 0 1
  have hb := incenter_bary v hnd
  have hp : 0 < Triangle.perimeter v := by unfold Triangle.perimeter; positivity
  have hx : Triangle.incenter v 0 = edgeLengths v 1 / Triangle.perimeter v * s := by
    rw [((bary3 v _ _ 0).1 hb).2]
    simp [hv]
  have hd2 : (Triangle.incenter v - v 0) ⬝ᵥ (Triangle.incenter v - v 0) = (Triangle.incenter v - v 1) ⬝ᵥ (Triangle.incenter v - v 1) := by
    rw [← len_sq, ← len_sq, hd]
  simp only [dotProduct, Fin.sum_univ_two, Pi.sub_apply, hv, Matrix.cons_val_zero, Matrix.cons_val_one] at hd2
  rw [← hv] at hd2
  have hx2 : Triangle.incenter v 0 = s / 2 := by nlinarith
  rw [hx2] at hx
  have : Triangle.perimeter v = 2 * edgeLengths v 1 := by
    field_simp at hx
    linarith
  unfold Triangle.perimeter at this
  rw [e1, e2] at this
  linarith

/-- **C69** `is_degenerate` for a tolerance between 0 and π/2: for a non-degenerate triangle, True exactly if one of the angles is smaller than the
tolerance. -/
theorem C69_is_degenerate (v : Tri n) (h : NonDegenerate v) (eps : ℝ) (h0 : 0 ≤ eps) (h1 : eps ≤ Real.pi / 2) :
    Triangle.isDegenerate v eps = true ↔ ∃ i θ, IsAngle (v (i + 1) - v i) (v (i + 2) - v i) θ ∧ θ < eps := by
  have hc0 : 0 ≤ Real.cos eps := Real.cos_nonneg_of_neg_pi_div_two_le_of_le (by linarith [Real.pi_pos]) h1
  have key : Triangle.isDegenerate v eps = true ↔ ∃ i : Fin 3, Real.cos eps ^ 2 < (dd v i / (edgeLengths v (i + 1) * edgeLengths v (i + 2))) ^ 2 := by
    have hq : ∀ i : Fin 3, (Triangle.edges v (i + 1) ⬝ᵥ Triangle.edges v (i + 2)) ^ 2 /
        (Triangle.edges v (i + 1) ⬝ᵥ Triangle.edges v (i + 1) * (Triangle.edges v (i + 2) ⬝ᵥ Triangle.edges v (i + 2))) =
        (dd v i / (edgeLengths v (i + 1) * edgeLengths v (i + 2))) ^ 2 := by
      intro i
      rw [edges_next, div_pow, mul_pow, el_sq, el_sq, edges_self, edges_self, neg_sq]
    unfold Triangle.isDegenerate
    simp only [hq, gt_iff_lt, List.any_cons, List.any_nil, Bool.or_false, Bool.or_eq_true, decide_eq_true_eq]
    constructor
    · rintro (g | g | g)
      · exact ⟨0, g⟩
      · exact ⟨1, g⟩
      · exact ⟨2, g⟩
    · rintro ⟨i, g⟩
      fin_cases i
      · exact Or.inl g
      · exact Or.inr (Or.inl g)
      · exact Or.inr (Or.inr g)
  have hlt : ∀ i : Fin 3, Real.cos eps < dd v i / (edgeLengths v (i + 1) * edgeLengths v (i + 2)) ↔
      ∃ θ, IsAngle (v (i + 1) - v i) (v (i + 2) - v i) θ ∧ θ < eps := by
    intro i
    constructor
    · intro g
      refine ⟨_, exists_angle v h i, ?_⟩
      obtain ⟨a1, a2, a3⟩ := (isAngle_iff v h i _).1 (exists_angle v h i)
      rw [← a3] at g
      by_contra hle
      exact absurd (Real.cos_le_cos_of_nonneg_of_le_pi h0 a2 (not_lt.1 hle)) (not_le.2 g)
    · rintro ⟨θ, hθ, hlt⟩
      obtain ⟨a1, a2, a3⟩ := (isAngle_iff v h i θ).1 hθ
      rw [← a3]
      exact Real.cos_lt_cos_of_nonneg_of_le_pi a1 (h1.trans (by linarith [Real.pi_pos])) hlt
  rw [key]
  constructor
  · rintro ⟨i, g⟩
    have g' := sq_lt_sq.1 g
    rw [abs_of_nonneg hc0] at g'
    rcases lt_abs.1 g' with g1 | g1
    · obtain ⟨θ, hθ⟩ := (hlt i).1 g1
      exact ⟨i, θ, hθ⟩
    · have := g1.trans_le (cos_add v h i)
      have h2 := hlt (i + 1)
      rw [f11, f12] at h2
      obtain ⟨θ, hθ⟩ := h2.1 this
      refine ⟨i + 1, θ, ?_⟩
      rw [f11, f12]
      exact hθ
  · rintro ⟨i, hθ⟩
    have := (hlt i).2 hθ
    exact ⟨i, by nlinarith⟩

/-- **C69** `is_degenerate` for a degenerate triangle and a positive tolerance: True, except if the three vertices coincide, when it is False. -/
theorem C69_is_degenerate_degenerate (v : Tri n) (hk : 2 ≤ n) (h : ¬ NonDegenerate v) (eps : ℝ) (h0 : 0 < eps) (h1 : eps ≤ Real.pi / 2) :
    Triangle.isDegenerate v eps = false ↔ v 0 = v 1 ∧ v 1 = v 2 := by
  have hg : gram v = 0 := by
    have := gram_nonneg v hk
    have h' := mt (nonDegenerate_iff_gram v hk).2 h
    linarith [not_lt.1 h']
  have hc0 : 0 ≤ Real.cos eps := Real.cos_nonneg_of_neg_pi_div_two_le_of_le (by linarith [Real.pi_pos]) h1
  have hc1 : Real.cos eps ^ 2 < 1 := by
    have : Real.cos eps < Real.cos 0 := Real.cos_lt_cos_of_nonneg_of_le_pi le_rfl (h1.trans (by linarith [Real.pi_pos])) h0
    rw [Real.cos_zero] at this
    nlinarith
  have hval : ∀ i : Fin 3, Real.cos eps ^ 2 < (Triangle.edges v (i + 1) ⬝ᵥ Triangle.edges v (i + 2)) ^ 2 /
        (Triangle.edges v (i + 1) ⬝ᵥ Triangle.edges v (i + 1) * (Triangle.edges v (i + 2) ⬝ᵥ Triangle.edges v (i + 2))) ↔
      v i ≠ v (i + 1) ∧ v i ≠ v (i + 2) := by
    intro i
    have e1 : Triangle.edges v (i + 1) ⬝ᵥ Triangle.edges v (i + 1) = dd v (i + 2) + dd v i := by rw [edges_self, f11, f12]
    have e2 : Triangle.edges v (i + 2) ⬝ᵥ Triangle.edges v (i + 2) = dd v i + dd v (i + 1) := by rw [edges_self, f21, f22]
    have z1 : dd v (i + 2) + dd v i = 0 ↔ v i = v (i + 2) := by
      rw [← e1, dotProduct_self_eq_zero]
      simp only [Triangle.edges, f11, f12, sub_eq_zero]
    have z2 : dd v i + dd v (i + 1) = 0 ↔ v i = v (i + 1) := by
      rw [← e2, dotProduct_self_eq_zero]
      simp only [Triangle.edges, f21, f22, sub_eq_zero]
      exact eq_comm
    rw [edges_next, e1, e2, neg_sq]
    have hgd := gram_dd v i
    rw [hg] at hgd
    have hsq : dd v i ^ 2 = (dd v (i + 2) + dd v i) * (dd v i + dd v (i + 1)) := by nlinarith
    constructor
    · intro g
      rw [hsq] at g
      refine ⟨fun e => ?_, fun e => ?_⟩
      · rw [z2.2 e, mul_zero, div_zero] at g
        exact absurd g (not_lt.2 (sq_nonneg _))
      · rw [z1.2 e, zero_mul, div_zero] at g
        exact absurd g (not_lt.2 (sq_nonneg _))
    · rintro ⟨g1, g2⟩
      rw [hsq, div_self (mul_ne_zero (mt z1.1 g2) (mt z2.1 g1))]
      exact hc1
  have hv0 := hval 0
  have hv1 : _ ↔ v 1 ≠ v 2 ∧ v 1 ≠ v 0 := hval 1
  have hv2 : _ ↔ v 2 ≠ v 0 ∧ v 2 ≠ v 1 := hval 2
  simp only [zero_add] at hv0
  unfold Triangle.isDegenerate
  simp only [gt_iff_lt, List.any_cons, List.any_nil, Bool.or_false, Bool.or_eq_false_iff, decide_eq_false_iff_not, zero_add, hv0]
  rw [hv1, hv2]
  constructor
  · rintro ⟨a, b, c⟩
    by_cases h01 : v 0 = v 1
    · refine ⟨h01, ?_⟩
      by_contra h12
      exact c ⟨fun e => h12 (h01 ▸ e.symm), fun e => h12 e.symm⟩
    · exfalso
      by_cases h02 : v 0 = v 2
      · exact b ⟨fun e => h01 (h02.trans e.symm), fun e => h01 e.symm⟩
      · exact a ⟨h01, h02⟩
  · rintro ⟨a, b⟩
    exact ⟨fun g => g.1 a, fun g => g.1 b, fun g => g.2 b.symm⟩

/-- The hypotheses are met: the right-angled triangle in the plane with legs 1 is non-degenerate, its edges are longer than `1e-12`, and its angles are not
smaller than the default tolerance of `is_degenerate`. -/
example : NonDegenerate (![![0, 0], ![1, 0], ![0, 1]] : Tri 2) ∧ ∀ i, 1 / 10 ^ 12 ≤ edgeLengths (![![0, 0], ![1, 0], ![0, 1]] : Tri 2) i := by
  set v : Tri 2 := ![![0, 0], ![1, 0], ![0, 1]] with hv
  have d0 : dd v 0 = 0 := by
    have : dd v 0 = (v 1 - v 0) ⬝ᵥ (v 2 - v 0) := rfl
    rw [this]; simp [hv]
  have d1 : dd v 1 = 1 := by
    have : dd v 1 = (v 2 - v 1) ⬝ᵥ (v 0 - v 1) := rfl
    rw [this]; simp [hv]
  have d2 : dd v 2 = 1 := by
    have : dd v 2 = (v 0 - v 2) ⬝ᵥ (v 1 - v 2) := rfl
    rw [this]; simp [hv]
  refine ⟨?_, fun i => ?_⟩
  · rw [nonDegenerate_iff_gram v le_rfl]
    have := gram_dd v 0
    simp only [zero_add] at this
    rw [this, d0, d1, d2]
    norm_num
  · refine le_trans (b := 1) (by norm_num) ?_
    rw [← one_le_sq_iff₀ (el_nonneg v i), el_sq]
    fin_cases i
    · show 1 ≤ dd v 1 + dd v 2
      rw [d1, d2]; norm_num
    · show 1 ≤ dd v 2 + dd v 0
      rw [d0, d2]; norm_num
    · show 1 ≤ dd v 0 + dd v 1
      rw [d0, d1]; norm_num

/-- The hypotheses of the theorem on degenerate triangles are met: three points on a line. -/
example : ¬ NonDegenerate (![![0, 0], ![1, 0], ![2, 0]] : Tri 2) := by
  set v : Tri 2 := ![![0, 0], ![1, 0], ![2, 0]] with hv
  rw [nonDegenerate_iff_gram v le_rfl, gram_dd v 0]
  have d0 : dd v 0 = 2 := by
    have : dd v 0 = (v 1 - v 0) ⬝ᵥ (v 2 - v 0) := rfl
    rw [this]; simp [hv]
  have d1 : dd v (0 + 1) = -1 := by
    have : dd v (0 + 1) = (v 2 - v 1) ⬝ᵥ (v 0 - v 1) := rfl
    rw [this]; simp [hv]; norm_num
  have d2 : dd v (0 + 2) = 2 := by
    have : dd v (0 + 2) = (v 0 - v 2) ⬝ᵥ (v 1 - v 2) := rfl
    rw [this]; simp [hv]; norm_num
  rw [d0, d1, d2]
  norm_num

example : NonDegenerate tri3 := tri3_nonDegenerate

end Verif.Props
