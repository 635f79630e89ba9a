import Verif.Lemmas.VertexNormals
/-!
# C70: normals and centroids of triangle meshes
-/

namespace Verif.Props
open Verif Matrix Verif.Linalg Verif.Spec Verif.SimplexGeometry Verif.Triangle Verif.TriMesh

variable {n : ℕ}

theorem replicate_getD (N k : ℕ) : (List.replicate N (0 : Fin n → ℝ)).getD k 0 = 0 := by
  simp only [List.getD, List.getElem?_replicate]
  split <;> rfl

theorem map_getD {α β : Type} (f : α → β) (l : List α) (k : ℕ) (h : k < l.length) (a : α) (b : β) : (l.map f).getD k b = f (l.getD k a) := by
  rw [getD_lt (by simpa using h), getD_lt h, List.getElem_map]

/-- **C70** `vertex_normals_cotangent`: at every vertex the direction in which moving the vertex increases the area of the mesh fastest, as a unit
vector, unless the area has a stationary point there (numpy then divides zero by zero). -/
theorem C70_cotangent (t : List (Fin 3 → ℕ)) (v : List (Fin n → ℝ)) (h : IsTriMesh t v)
    (hn : n ≠ 3 → ∀ tri ∈ t, ∀ j, 1 / 10 ^ 12 ≤ len (corners v tri (j + 1) - corners v tri j)) :
    ∃ rows, vertexNormalsCotangent t v = .ok rows ∧ rows.length = v.length ∧
      ∀ k, k < v.length → ∃ g, IsVertexGradient (surfaceArea t) v k g ∧ (g ≠ 0 → rows.getD k 0 = (1 / len g) • g) := by
  have hn' : n ≠ 3 → ∀ tri ∈ t, ∀ i, 1 / 10 ^ 12 ≤ edgeLengths (corners v tri) i := by
    intro h3 tri ht i
    have := hn h3 tri ht (i + 1)
    rwa [f11, ← el_len] at this
  obtain ⟨rows, h1, h2, h3⟩ := foldlM_acc (cotangentTriangle v) (fun tri => cotInc (corners v tri) tri) v.length t
    (fun tri ht rows hr => cotangentTriangle_acc v tri (h tri ht).1 (h tri ht).2 (fun h3 => hn' h3 tri ht) rows hr)
    (List.replicate v.length 0) (by simp)
  rw [List.length_replicate] at h2 h3
  refine ⟨rows.map fun r => -(divBy r (Linalg.norm r)), ?_, by simpa using h2, fun k hk => ?_⟩
  · unfold vertexNormalsCotangent
    rw [h1, Py.bind_ok]
    rfl
  · refine ⟨(-1 / 2 : ℝ) • (t.map fun tri => cotInc (corners v tri) tri k).sum, fun d => ?_, fun hg => ?_⟩
    · rw [smul_list_sum, sum_dot]
      exact hasDerivAt_list_sum _ _ 0 t fun tri ht => area_grad v tri (h tri ht).1 (h tri ht).2 k d
    · rw [map_getD _ rows k (h2 ▸ hk) 0, h3 k hk, replicate_getD, zero_add]
      simp only
      set G := (t.map fun tri => cotInc (corners v tri) tri k).sum with hG
      have hG0 : len G ≠ 0 := fun e => hg (by rw [len_eq_zero e, smul_zero])
      rw [divBy_eq, norm_eq_len, len_smul, smul_smul, ← neg_smul]
      congr 1
      rw [show |(-1 / 2 : ℝ)| = 1 / 2 by norm_num [abs_of_neg]]
      field_simp

theorem ofList3_ofFn (u : Fin 3 → ℝ) : ofList3 (List.ofFn u) = u := by
  funext i
  fin_cases i <;> rfl

theorem unit_normal (p : Tri 3) (h : NonDegenerate p) : ∃ u, normal p = .ok (List.ofFn u) ∧ IsUnitNormal p u := by
  obtain ⟨u, h1, h2, _, h3⟩ := C69_normal p h
  exact ⟨u, h1, h2, h3⟩

/-- **C70** `normals`: the unit normals of the triangles. -/
theorem C70_normals (t : List (Fin 3 → ℕ)) (v : List (Fin 3 → ℝ)) (h : IsTriMesh t v) :
    ∃ u : (Fin 3 → ℕ) → Fin 3 → ℝ, (∀ tri ∈ t, IsUnitNormal (corners v tri) (u tri)) ∧ TriMesh.normals t v = .ok (t.map u) := by
  classical
  have hx : ∀ tri, ∃ u, tri ∈ t → normal (corners v tri) = .ok (List.ofFn u) ∧ IsUnitNormal (corners v tri) u := by
    intro tri
    by_cases ht : tri ∈ t
    · obtain ⟨u, h1⟩ := unit_normal (corners v tri) (h tri ht).2
      exact ⟨u, fun _ => h1⟩
    · exact ⟨0, fun h => absurd h ht⟩
  choose u hu using hx
  refine ⟨u, fun tri ht => (hu tri ht).2, mapM_eq_ok _ _ fun tri ht => ?_⟩
  rw [meshVertices_ok v tri (h tri ht).1, Py.bind_ok, (hu tri ht).1, Py.bind_ok, ofList3_ofFn]
  rfl

theorem normalWeight_ok (weight : Option String) (v : List (Fin 3 → ℝ)) (tri : Fin 3 → ℕ) (h : ∀ j, tri j < v.length)
    (hp : NonDegenerate (k := 2) (corners v tri)) (j : Fin 3) :
    ∃ w, normalWeight weight v tri (corners v tri) j = .ok w ∧ IsWeight weight (corners v tri) j w := by
  unfold normalWeight IsWeight
  by_cases h1 : weight = some "area"
  · simp only [if_pos h1]
    refine ⟨_, area_eq _ (Or.inr rfl), ?_⟩
    rfl
  · simp only [if_neg h1]
    by_cases h2 : weight = some "angle"
    · simp only [if_pos h2]
      exact angle_ok _ hp (fun h => absurd rfl h) j
    · simp only [if_neg h2]
      by_cases h3 : weight = some "centroid"
      · simp only [if_pos h3]
        rw [getE_ok (h j), Py.bind_ok]
        refine ⟨_, rfl, ?_⟩
        rw [norm_eq_len]
        unfold Triangle.centroid
        rw [divBy_eq]
        congr 4
        exact (getD_lt (h j)).symm
      · simp only [if_neg h3]
        exact ⟨1, rfl, rfl⟩

theorem vertexNormals_ok (weight : Option String) (t : List (Fin 3 → ℕ)) (v : List (Fin 3 → ℝ)) (h : IsTriMesh t v) (u : (Fin 3 → ℕ) → Fin 3 → ℝ)
    (hu : TriMesh.normals t v = .ok (t.map u)) (w : (Fin 3 → ℕ) → Fin 3 → ℝ)
    (hw : ∀ tri ∈ t, ∀ j, normalWeight weight v tri (corners v tri) j = .ok (w tri j)) :
    ∃ rows, vertexNormals t v weight = .ok rows ∧ rows.length = v.length ∧
      ∀ k, k < v.length → rows.getD k 0 = (1 / len (t.map fun tri => ∑ j, if tri j = k then w tri j • u tri else 0).sum) •
        (t.map fun tri => ∑ j, if tri j = k then w tri j • u tri else 0).sum := by
  obtain ⟨rows, h1, h2, h3⟩ := foldlM_acc (normalsTriangle weight v)
    (fun (x : (Fin 3 → ℕ) × (Fin 3 → ℝ)) k => ([0, 1, 2].map fun (j : Fin 3) => if k = x.1 j then w x.1 j • x.2 else 0).sum) v.length
    (t.map fun tri => (tri, u tri)) (fun x hx rows hr => by
      obtain ⟨tri, ht, rfl⟩ := List.mem_map.1 hx
      unfold normalsTriangle
      simp only
      rw [meshVertices_ok v tri (h tri ht).1, Py.bind_ok]
      refine foldlM_acc _ (fun (j : Fin 3) k => if k = tri j then w tri j • u tri else 0) v.length [0, 1, 2] (fun j _ rows hr => ?_) rows hr
      unfold normalsStep
      rw [hw tri ht j, Py.bind_ok]
      exact addRow_acc rows (tri j) (w tri j • u tri) (hr ▸ (h tri ht).1 j))
    (List.replicate v.length 0) (by simp)
  rw [List.length_replicate] at h2 h3
  refine ⟨rows.map fun r => divBy r (Linalg.norm r), ?_, by simpa using h2, fun k hk => ?_⟩
  · unfold vertexNormals
    rw [hu, Py.bind_ok]
    have e : t.zip (t.map u) = t.map fun tri => (tri, u tri) := by
      clear * -
      induction t with
      | nil => rfl
      | cons a t ih => simp only [List.map_cons, List.zip_cons_cons, ih]
    rw [e, h1, Py.bind_ok]
    rfl
  · rw [map_getD _ rows k (h2 ▸ hk) 0, h3 k hk, replicate_getD, zero_add, divBy_eq, norm_eq_len]
    simp only [List.map_map]
    have e : ((fun x : (Fin 3 → ℕ) × (Fin 3 → ℝ) => ([0, 1, 2].map fun (j : Fin 3) => if k = x.1 j then w x.1 j • x.2 else 0).sum) ∘ fun tri => (tri, u tri)) =
        fun tri => ∑ j, if tri j = k then w tri j • u tri else 0 := by
      funext tri
      simp only [Function.comp_apply]
      have e : (∑ j, if tri j = k then w tri j • u tri else 0) = _ := Fin.sum_univ_three _
      rw [e]
      simp only [eq_comm (a := k)]
      simp [add_assoc]
    rw [e]

/-- **C70** `vertex_normals`: at every vertex the normalised weighted sum of the unit normals of the triangles with that vertex. Weights other than
`"area"`, `"angle"` and `"centroid"`, also misspelt ones, mean that all triangles count the same. -/
theorem C70_vertex_normals (weight : Option String) (t : List (Fin 3 → ℕ)) (v : List (Fin 3 → ℝ)) (h : IsTriMesh t v) :
    ∃ (rows : List (Fin 3 → ℝ)) (u : (Fin 3 → ℕ) → Fin 3 → ℝ) (w : (Fin 3 → ℕ) → Fin 3 → ℝ), vertexNormals t v weight = .ok rows ∧ rows.length = v.length ∧
      (∀ tri ∈ t, IsUnitNormal (corners v tri) (u tri) ∧ ∀ j, IsWeight weight (corners v tri) j (w tri j)) ∧
      ∀ k, k < v.length → ∀ N, N = (t.map fun tri => ∑ j, if tri j = k then w tri j • u tri else 0).sum → N ≠ 0 →
        rows.getD k 0 = (1 / len N) • N := by
  classical
  obtain ⟨u, hu, hun⟩ := C70_normals t v h
  have hx : ∀ tri j, ∃ w, tri ∈ t → normalWeight weight v tri (corners v tri) j = .ok w ∧ IsWeight weight (corners v tri) j w := by
    intro tri j
    by_cases ht : tri ∈ t
    · obtain ⟨w, h1⟩ := normalWeight_ok weight v tri (h tri ht).1 (h tri ht).2 j
      exact ⟨w, fun _ => h1⟩
    · exact ⟨0, fun h => absurd h ht⟩
  choose w hw using hx
  obtain ⟨rows, h1, h2, h3⟩ := vertexNormals_ok weight t v h u hun w fun tri ht j => (hw tri j ht).1
  refine ⟨rows, u, w, h1, h2, fun tri ht => ⟨hu tri ht, fun j => (hw tri j ht).2⟩, ?_⟩
  rintro k hk N rfl _
  exact h3 k hk

/-- Twice the area times the unit normal. -/
theorem area_smul_normal (p : Tri 3) (u : Fin 3 → ℝ) (hu : IsUnitNormal p u) : triArea p • u = (1 / 2 : ℝ) • ((p 1 - p 0) ⨯₃ (p 2 - p 0)) := by
  obtain ⟨h1, c, hc, h2⟩ := hu
  have hg : gram (k := 2) p = c ^ 2 := by
    have := gram_dd p 0
    have hL : ((p 1 - p 0) ⨯₃ (p 2 - p 0)) ⬝ᵥ ((p 1 - p 0) ⨯₃ (p 2 - p 0)) = gram (k := 2) p := by
      rw [cross_dot_cross, ← gram_lag p 1]
      have e1 : Triangle.edges p 1 = p 0 - p 2 := rfl
      have e2 : Triangle.edges p (1 + 1) = p 1 - p 0 := rfl
      rw [e1, e2]
      simp only [sub_dotProduct, dotProduct_sub]
      rw [dotProduct_comm (p 2) (p 0), dotProduct_comm (p 1) (p 0), dotProduct_comm (p 2) (p 1)]
      ring
    rw [← hL, h2, smul_dotProduct, dotProduct_smul, ← len_sq, h1, smul_eq_mul, smul_eq_mul]
    ring
  unfold triArea
  rw [hg, Real.sqrt_sq hc.le, h2, smul_smul]
  congr 1
  ring

theorem volume_deriv (p : Tri 3) (j : Fin 3) (d : Fin 3 → ℝ) :
    HasDerivAt (fun s : ℝ => Function.update p j (p j + s • d) 0 ⬝ᵥ (Function.update p j (p j + s • d) 1 ⨯₃ Function.update p j (p j + s • d) 2) / 6)
      (((1 / 6 : ℝ) • (p (j + 1) ⨯₃ p (j + 2))) ⬝ᵥ d) 0 := by
  have hc : ∀ q : Tri 3, q 0 ⬝ᵥ (q 1 ⨯₃ q 2) = q j ⬝ᵥ (q (j + 1) ⨯₃ q (j + 2)) := by
    intro q
    fin_cases j
    · rfl
    · exact (triple_product_permutation _ _ _)
    · exact (triple_product_permutation _ _ _).trans (triple_product_permutation _ _ _)
  have hne : j + 2 ≠ j ∧ j + 1 ≠ j := by clear * -; revert j; decide
  have hfun : (fun s : ℝ => Function.update p j (p j + s • d) 0 ⬝ᵥ (Function.update p j (p j + s • d) 1 ⨯₃ Function.update p j (p j + s • d) 2) / 6) =
      fun s : ℝ => p j ⬝ᵥ (p (j + 1) ⨯₃ p (j + 2)) / 6 + s * (((1 / 6 : ℝ) • (p (j + 1) ⨯₃ p (j + 2))) ⬝ᵥ d) := by
    funext s
    rw [hc, Function.update_self, Function.update_of_ne hne.1, Function.update_of_ne hne.2, add_dotProduct, smul_dotProduct, smul_dotProduct,
      dotProduct_comm d, smul_eq_mul, smul_eq_mul]
    ring
  rw [hfun]
  have := ((hasDerivAt_id (0 : ℝ)).mul_const (((1 / 6 : ℝ) • (p (j + 1) ⨯₃ p (j + 2))) ⬝ᵥ d)).const_add (p j ⬝ᵥ (p (j + 1) ⨯₃ p (j + 2)) / 6)
  refine this.congr_deriv ?_
  simp

/-- The gradient of the enclosed volume. -/
theorem volume_grad (v : List (Fin 3 → ℝ)) (tri : Fin 3 → ℕ) (h : ∀ j, tri j < v.length) (hi : Function.Injective tri) (k : ℕ) (d : Fin 3 → ℝ) :
    HasDerivAt (fun s : ℝ => corners (moveVertex v k (s • d)) tri 0 ⬝ᵥ (corners (moveVertex v k (s • d)) tri 1 ⨯₃ corners (moveVertex v k (s • d)) tri 2) / 6)
      ((∑ j, if tri j = k then (1 / 6 : ℝ) • (corners v tri (j + 1) ⨯₃ corners v tri (j + 2)) else 0) ⬝ᵥ d) 0 := by
  by_cases hk : ∃ j, tri j = k
  · obtain ⟨j, rfl⟩ := hk
    simp only [corners_move_at v tri h hi j]
    rw [Finset.sum_eq_single j (fun i _ hij => if_neg fun e => hij (hi e)) (fun hj => absurd (Finset.mem_univ j) hj), if_pos rfl]
    exact volume_deriv (corners v tri) j d
  · push Not at hk
    simp only [corners_move_none v tri h k hk]
    rw [Finset.sum_eq_zero fun j _ => if_neg (hk j), zero_dotProduct]
    exact hasDerivAt_const _ _

theorem closed_perm (t : List (Fin 3 → ℕ)) (h : IsClosed t) : ((directedEdges t).map Prod.swap).Perm (directedEdges t) := by
  rw [List.perm_iff_count]
  rintro ⟨a, b⟩
  rw [h a b, show (a, b) = Prod.swap (b, a) from rfl, List.count_map_of_injective _ _ Prod.swap_injective]

/-- Around a vertex of a closed mesh the boundary of the adjacent triangles is a cycle. -/
theorem closed_star (t : List (Fin 3 → ℕ)) (v : List (Fin n → ℝ)) (h : IsClosed t) (k : ℕ) :
    (t.map fun tri => ∑ j, if tri j = k then corners v tri (j + 1) - corners v tri (j + 2) else 0).sum = 0 := by
  have key : ∀ t : List (Fin 3 → ℕ), (t.map fun tri => ∑ j, if tri j = k then corners v tri (j + 1) - corners v tri (j + 2) else 0).sum =
      ((directedEdges t).map fun e => if e.1 = k then v.getD e.2 0 else 0).sum -
        (((directedEdges t).map Prod.swap).map fun e => if e.1 = k then v.getD e.2 0 else 0).sum := by
    intro t
    induction t with
    | nil => simp [directedEdges]
    | cons a t ih =>
      rw [List.map_cons, List.sum_cons, ih]
      have e : directedEdges (a :: t) = (a 0, a 1) :: (a 1, a 2) :: (a 2, a 0) :: directedEdges t := rfl
      rw [e]
      simp only [List.map_cons, List.sum_cons, Prod.swap]
      have e : (∑ j, if a j = k then corners v a (j + 1) - corners v a (j + 2) else 0) =
        (if a 0 = k then v.getD (a 1) 0 - v.getD (a 2) 0 else 0) + (if a 1 = k then v.getD (a 2) 0 - v.getD (a 0) 0 else 0) +
          (if a 2 = k then v.getD (a 0) 0 - v.getD (a 1) 0 else 0) := Fin.sum_univ_three _
      rw [e]
      have hs : ∀ (c : Prop) [Decidable c] (x y : Fin n → ℝ), (if c then x - y else 0) = (if c then x else 0) - if c then y else 0 := by
        intro c _ x y
        split <;> simp
      rw [hs, hs, hs]
      abel
  rw [key t, ((closed_perm t h).map _).sum_eq, sub_self]

/-- **C70** `vertex_normals` with the weight `"area"` on a closed, consistently oriented mesh: at every vertex the direction in which moving the vertex
increases the enclosed volume fastest. -/
theorem C70_area_weight (t : List (Fin 3 → ℕ)) (v : List (Fin 3 → ℝ)) (h : IsTriMesh t v) (hc : IsClosed t) :
    ∃ rows, vertexNormals t v (some "area") = .ok rows ∧ rows.length = v.length ∧
      ∀ k, k < v.length → ∃ g, IsVertexGradient (enclosedVolume t) v k g ∧ (g ≠ 0 → rows.getD k 0 = (1 / len g) • g) := by
  obtain ⟨rows, u, w, h1, h2, h3, h4⟩ := C70_vertex_normals (some "area") t v h
  refine ⟨rows, h1, h2, fun k hk => ?_⟩
  have hN : (1 / 3 : ℝ) • (t.map fun tri => ∑ j, if tri j = k then w tri j • u tri else 0).sum =
      (t.map fun tri => ∑ j, if tri j = k then (1 / 6 : ℝ) • (corners v tri (j + 1) ⨯₃ corners v tri (j + 2)) else 0).sum := by
    have hs := closed_star t v hc k
    have e : ∀ tri ∈ t, (1 / 3 : ℝ) • (∑ j, if tri j = k then w tri j • u tri else 0) =
        (∑ j, if tri j = k then (1 / 6 : ℝ) • (corners v tri (j + 1) ⨯₃ corners v tri (j + 2)) else 0) +
          (1 / 6 : ℝ) • (v.getD k 0 ⨯₃ (∑ j, if tri j = k then corners v tri (j + 1) - corners v tri (j + 2) else 0)) := by
      intro tri ht
      have hw : ∀ j, w tri j • u tri = (1 / 2 : ℝ) • ((corners v tri 1 - corners v tri 0) ⨯₃ (corners v tri 2 - corners v tri 0)) := by
        intro j
        have := (h3 tri ht).2 j
        unfold IsWeight at this
        rw [if_pos rfl] at this
        rw [this, area_smul_normal _ _ (h3 tri ht).1]
      have hcyc : ∀ j, (corners v tri 1 - corners v tri 0) ⨯₃ (corners v tri 2 - corners v tri 0) =
          corners v tri (j + 1) ⨯₃ corners v tri (j + 2) + corners v tri j ⨯₃ (corners v tri (j + 1) - corners v tri (j + 2)) := by
        intro j
        have h0 : (corners v tri 1 - corners v tri 0) ⨯₃ (corners v tri 2 - corners v tri 0) = corners v tri 0 ⨯₃ corners v tri 1 +
            corners v tri 1 ⨯₃ corners v tri 2 + corners v tri 2 ⨯₃ corners v tri 0 := by
          simp only [map_sub, LinearMap.sub_apply, cross_self]
          rw [← cross_anticomm (corners v tri 1) (corners v tri 0), ← cross_anticomm (corners v tri 0) (corners v tri 2)]
          abel
        rw [h0]
        simp only [map_sub]
        fin_cases j
        · show _ = corners v tri 1 ⨯₃ corners v tri 2 + (corners v tri 0 ⨯₃ corners v tri 1 - corners v tri 0 ⨯₃ corners v tri 2)
          rw [← cross_anticomm (corners v tri 2) (corners v tri 0)]
          abel
        · show _ = corners v tri 2 ⨯₃ corners v tri 0 + (corners v tri 1 ⨯₃ corners v tri 2 - corners v tri 1 ⨯₃ corners v tri 0)
          rw [← cross_anticomm (corners v tri 0) (corners v tri 1)]
          abel
        · show _ = corners v tri 0 ⨯₃ corners v tri 1 + (corners v tri 2 ⨯₃ corners v tri 0 - corners v tri 2 ⨯₃ corners v tri 1)
          rw [← cross_anticomm (corners v tri 1) (corners v tri 2)]
          abel
      rw [Finset.smul_sum, map_sum, Finset.smul_sum, ← Finset.sum_add_distrib]
      refine Finset.sum_congr rfl fun j _ => ?_
      by_cases hj : tri j = k
      · rw [if_pos hj, if_pos hj, if_pos hj, hw j, hcyc j]
        have : v.getD k 0 = corners v tri j := by rw [← hj]; rfl
        rw [this, smul_smul, smul_add]
        norm_num
      · rw [if_neg hj, if_neg hj, if_neg hj]
        simp
    rw [smul_list_sum, List.map_congr_left e]
    have hadd : ∀ (f g : (Fin 3 → ℕ) → Fin 3 → ℝ) (t : List (Fin 3 → ℕ)), (t.map fun tri => f tri + g tri).sum = (t.map f).sum + (t.map g).sum := by
      intro f g t
      induction t with
      | nil => simp
      | cons a t ih => simp only [List.map_cons, List.sum_cons, ih]; abel
    rw [hadd]
    have hlin : ∀ (f : (Fin 3 → ℕ) → Fin 3 → ℝ) (t : List (Fin 3 → ℕ)), (t.map fun tri => (1 / 6 : ℝ) • (v.getD k 0 ⨯₃ f tri)).sum =
        (1 / 6 : ℝ) • (v.getD k 0 ⨯₃ (t.map f).sum) := by
      intro f t
      induction t with
      | nil => simp
      | cons a t ih => simp only [List.map_cons, List.sum_cons, ih, map_add, smul_add]
    rw [hlin, hs]
    simp
  refine ⟨(t.map fun tri => ∑ j, if tri j = k then (1 / 6 : ℝ) • (corners v tri (j + 1) ⨯₃ corners v tri (j + 2)) else 0).sum, fun d => ?_, fun hg => ?_⟩
  · rw [sum_dot]
    exact hasDerivAt_list_sum _ _ 0 t fun tri ht => volume_grad v tri (h tri ht).1 (corners_injective v tri (h tri ht).2) k d
  · rw [← hN] at hg ⊢
    have hne : (t.map fun tri => ∑ j, if tri j = k then w tri j • u tri else 0).sum ≠ 0 := fun e => hg (by rw [e, smul_zero])
    rw [h4 k hk _ rfl hne, len_smul, smul_smul]
    congr 1
    rw [show |(1 / 3 : ℝ)| = 1 / 3 by norm_num [abs_of_pos]]
    have : len (t.map fun tri => ∑ j, if tri j = k then w tri j • u tri else 0).sum ≠ 0 := fun e => hne (len_eq_zero e)
    field_simp

/-- Twice the signed area of a triangle in the plane. -/
theorem cross2_sq_gram (p : Tri 2) : gram (k := 2) p = ((p 1 0 - p 0 0) * (p 2 1 - p 0 1) - (p 1 1 - p 0 1) * (p 2 0 - p 0 0)) ^ 2 := by
  have h := gram_dd p 0
  have h0 : dd p 0 = (p 1 - p 0) ⬝ᵥ (p 2 - p 0) := rfl
  have h1 : dd p (0 + 1) = (p 2 - p 1) ⬝ᵥ (p 0 - p 1) := rfl
  have h2 : dd p (0 + 2) = (p 0 - p 2) ⬝ᵥ (p 1 - p 2) := rfl
  rw [h, h0, h1, h2]
  simp only [dotProduct, Fin.sum_univ_two, Pi.sub_apply]
  ring

/-- **C70** Flat meshes: where the triangles around a vertex close up and have the same orientation, moving the vertex in the plane does not change the
area, so that `vertex_normals_cotangent` divides zero by zero at the interior vertices of meshes in the plane. -/
theorem C70_flat_interior (t : List (Fin 3 → ℕ)) (v : List (Fin 2 → ℝ)) (h : IsTriMesh t v) (k : ℕ)
    (ho : ∀ tri ∈ t, (∃ j, tri j = k) → 0 < (corners v tri 1 0 - corners v tri 0 0) * (corners v tri 2 1 - corners v tri 0 1) -
      (corners v tri 1 1 - corners v tri 0 1) * (corners v tri 2 0 - corners v tri 0 0))
    (hc : (t.map fun tri => ∑ j, if tri j = k then corners v tri (j + 1) - corners v tri (j + 2) else 0).sum = 0) :
    IsVertexGradient (surfaceArea t) v k 0 := by
  have key : ∀ tri ∈ t, ((-1 / 2 : ℝ) • cotInc (corners v tri) tri k) =
      ![(1 / 2) * (∑ j, if tri j = k then corners v tri (j + 1) - corners v tri (j + 2) else 0) 1,
        -(1 / 2) * (∑ j, if tri j = k then corners v tri (j + 1) - corners v tri (j + 2) else 0) 0] := by
    intro tri ht
    by_cases hk : ∃ j, tri j = k
    · have hpos := ho tri ht hk
      obtain ⟨j, rfl⟩ := hk
      have hi := corners_injective v tri (h tri ht).2
      rw [Finset.sum_eq_single j (fun i _ hij => if_neg fun e => hij (hi e)) (fun hj => absurd (Finset.mem_univ j) hj), if_pos rfl, cotInc_at _ _ hi,
        cross2_sq_gram, Real.sqrt_sq hpos.le]
      set p := corners v tri with hp
      have hne := hpos.ne'
      have d0 : ∀ i, dd p i = (p (i + 1) - p i) ⬝ᵥ (p (i + 2) - p i) := fun _ => rfl
      rw [d0, d0, f11, f12, f21, f22]
      have hcyc : (p 1 0 - p 0 0) * (p 2 1 - p 0 1) - (p 1 1 - p 0 1) * (p 2 0 - p 0 0) =
          (p (j + 1) 0 - p j 0) * (p (j + 2) 1 - p j 1) - (p (j + 1) 1 - p j 1) * (p (j + 2) 0 - p j 0) := by
        fin_cases j
        · rfl
        · show _ = (p 2 0 - p 1 0) * (p 0 1 - p 1 1) - (p 2 1 - p 1 1) * (p 0 0 - p 1 0)
          ring
        · show _ = (p 0 0 - p 2 0) * (p 1 1 - p 2 1) - (p 0 1 - p 2 1) * (p 1 0 - p 2 0)
          ring
      rw [hcyc] at hne ⊢
      funext a
      fin_cases a
      · simp [dotProduct, Fin.sum_univ_two]
        field_simp
        ring
      · simp [dotProduct, Fin.sum_univ_two]
        field_simp
        ring
    · push Not at hk
      rw [cotInc_none _ _ _ hk, Finset.sum_eq_zero fun j _ => if_neg (hk j)]
      funext a
      fin_cases a <;> simp
  intro d
  have hd := hasDerivAt_list_sum (fun tri s => triArea (corners (moveVertex v k (s • d)) tri)) (fun tri => ((-1 / 2 : ℝ) • cotInc (corners v tri) tri k) ⬝ᵥ d) 0 t
    fun tri ht => area_grad v tri (h tri ht).1 (h tri ht).2 k d
  refine hd.congr_deriv ?_
  have hz : (t.map fun tri => (-1 / 2 : ℝ) • cotInc (corners v tri) tri k).sum = 0 := by
    rw [List.map_congr_left key]
    have hlin : ∀ (f : (Fin 3 → ℕ) → Fin 2 → ℝ) (t : List (Fin 3 → ℕ)), (t.map fun tri => (![(1 / 2) * f tri 1, -(1 / 2) * f tri 0] : Fin 2 → ℝ)).sum =
        ![(1 / 2) * (t.map f).sum 1, -(1 / 2) * (t.map f).sum 0] := by
      intro f t
      induction t with
      | nil => funext a; fin_cases a <;> simp
      | cons a t ih =>
        simp only [List.map_cons, List.sum_cons, ih]
        funext b
        fin_cases b <;> simp <;> ring
    rw [hlin, hc]
    funext a
    fin_cases a <;> simp
  rw [← sum_dot, hz]

/-! ## Degenerate triangles -/

theorem gram_zero (p : Tri n) (h : ¬ NonDegenerate p) : gram (k := 2) p = 0 := by
  by_cases hn : 2 ≤ n
  · exact le_antisymm (not_lt.1 fun hg => h ((nonDegenerate_iff_gram p hn).2 hg)) (gram_nonneg p hn)
  · rw [← gram_lag p 0]
    have : n = 0 ∨ n = 1 := by omega
    rcases this with rfl | rfl
    · simp [dotProduct]
    · simp only [dotProduct, Finset.univ_unique, Finset.sum_singleton]
      ring

theorem angle_total (p : Tri n) (i : Fin 3) : ∃ θ, angle p i = .ok θ := by
  unfold angle computeAngle
  rw [dif_pos rfl]
  split
  · exact ⟨_, rfl⟩
  · exact ⟨_, rfl⟩

theorem angle_zero (p : Tri n) (i : Fin 3) (hg : gram (k := 2) p = 0) (hd : 0 ≤ dd p i) : angle p i = .ok 0 := by
  have e1 : -Triangle.edges p (i + 1) = p (i + 2) - p i := by simp only [Triangle.edges, f11, f12]; abel
  have e2 : Triangle.edges p (i + 2) = p (i + 1) - p i := by simp only [Triangle.edges, f21, f22]
  have hd' : (p (i + 2) - p i) ⬝ᵥ (p (i + 1) - p i) = dd p i := dotProduct_comm _ _
  by_cases hz : n ≠ 3 ∧ (Linalg.norm (p (i + 2) - p i) < 1 / 10 ^ 12 ∨ Linalg.norm (p (i + 1) - p i) < 1 / 10 ^ 12)
  · unfold angle computeAngle
    rw [dif_pos rfl, dif_neg (fun h => hz.1 h.symm), e1, e2]
    unfold computeAngleN
    exact congrArg _ (if_pos hz.2)
  by_cases h0 : p (i + 2) - p i = 0 ∨ p (i + 1) - p i = 0
  · by_cases h3 : n = 3
    · subst h3
      have e : angle p i = .ok (arctan2 (Linalg.norm ((p (i + 2) - p i) ⨯₃ (p (i + 1) - p i))) ((p (i + 2) - p i) ⬝ᵥ (p (i + 1) - p i))) := by
        unfold angle
        rw [e1, e2]
        rfl
      rw [e]
      congr 1
      have hz : (p (i + 2) - p i) ⨯₃ (p (i + 1) - p i) = 0 ∧ (p (i + 2) - p i) ⬝ᵥ (p (i + 1) - p i) = 0 := by
        rcases h0 with h | h <;> rw [h] <;> simp
      rw [hz.1, hz.2, norm_eq_len]
      unfold arctan2
      rw [show (⟨0, len (0 : Fin 3 → ℝ)⟩ : ℂ) = 0 from Complex.ext rfl (by simp [len])]
      exact Complex.arg_zero
    · exfalso
      refine hz ⟨h3, ?_⟩
      rcases h0 with h | h
      · exact Or.inl (by rw [h, norm_eq_len]; simp [len])
      · exact Or.inr (by rw [h, norm_eq_len]; simp [len])
  push Not at h0
  push Not at hz
  have l1 : √((p (i + 2) - p i) ⬝ᵥ (p (i + 2) - p i)) = Linalg.norm (p (i + 2) - p i) := by rw [norm_eq_len, len_eq_sqrt]
  have l2 : √((p (i + 1) - p i) ⬝ᵥ (p (i + 1) - p i)) = Linalg.norm (p (i + 1) - p i) := by rw [norm_eq_len, len_eq_sqrt]
  obtain ⟨θ, h1, h2⟩ := C59_compute_angle (p (i + 2) - p i) (p (i + 1) - p i) h0.1 h0.2 (fun h3 => by rw [l1, l2]; exact hz h3)
  have e : angle p i = .ok θ := by unfold angle; rw [e1, e2, h1]
  rw [e]
  congr 1
  obtain ⟨a1, a2, a3⟩ := h2
  have p1 : 0 < len (p (i + 2) - p i) := lt_of_le_of_ne (len_nonneg _) fun e => h0.1 (len_eq_zero e.symm)
  have p2 : 0 < len (p (i + 1) - p i) := lt_of_le_of_ne (len_nonneg _) fun e => h0.2 (len_eq_zero e.symm)
  rw [l1, l2, norm_eq_len, norm_eq_len, hd'] at a3
  have hsq : dd p i ^ 2 = (len (p (i + 2) - p i) * len (p (i + 1) - p i)) ^ 2 := by
    rw [mul_pow, len_sq, len_sq, dd_self2, dd_self1]
    have := gram_dd p i
    rw [hg] at this
    linarith [this]
  have heq : dd p i = len (p (i + 2) - p i) * len (p (i + 1) - p i) := (sq_eq_sq₀ hd (by positivity)).1 hsq
  have hcos : Real.cos θ = 1 := by
    rw [heq] at a3
    have hp := mul_pos p1 p2
    nlinarith [a3]
  have hc := Real.arccos_cos a1 a2
  rw [hcos, Real.arccos_one] at hc
  exact hc.symm

theorem foldlM_fails {α σ : Type} (f : σ → α → Py σ) (P : σ → Prop) (E : PyErr) (l : List α)
    (h1 : ∀ a ∈ l, ∀ s, P s → (∃ s', f s a = .ok s' ∧ P s') ∨ f s a = .error E) (h2 : ∃ a ∈ l, ∀ s, P s → f s a = .error E) :
    ∀ s, P s → l.foldlM f s = .error E := by
  induction l with
  | nil => obtain ⟨a, ha, _⟩ := h2; simp at ha
  | cons a l ih =>
    intro s hs
    rw [List.foldlM_cons]
    rcases h1 a (by simp) s hs with ⟨s', e, hs'⟩ | e
    · rw [e, Py.bind_ok]
      obtain ⟨b, hb, hf⟩ := h2
      rcases List.mem_cons.1 hb with rfl | hb
      · rw [hf s hs] at e; simp at e
      · exact ih (fun c hc => h1 c (by simp [hc])) ⟨b, hb, hf⟩ s' hs'
    · rw [e, Py.bind_error]

theorem foldlM_ok_or {α σ : Type} (f : σ → α → Py σ) (P : σ → Prop) (E : PyErr) (l : List α)
    (h1 : ∀ a ∈ l, ∀ s, P s → (∃ s', f s a = .ok s' ∧ P s') ∨ f s a = .error E) :
    ∀ s, P s → (∃ s', l.foldlM f s = .ok s' ∧ P s') ∨ l.foldlM f s = .error E := by
  induction l with
  | nil => exact fun s hs => Or.inl ⟨s, rfl, hs⟩
  | cons a l ih =>
    intro s hs
    rw [List.foldlM_cons]
    rcases h1 a (by simp) s hs with ⟨s', e, hs'⟩ | e
    · rw [e, Py.bind_ok]
      exact ih (fun c hc => h1 c (by simp [hc])) s' hs'
    · rw [e, Py.bind_error]; exact Or.inr rfl

theorem cotangentStep_cases (tri : Fin 3 → ℕ) (p : Tri n) (N : ℕ) (h : ∀ j, tri j < N) (rows : List (Fin n → ℝ)) (hr : rows.length = N) (j : Fin 3) :
    (∃ rows', cotangentStep tri p rows j = .ok rows' ∧ rows'.length = N) ∨ cotangentStep tri p rows j = .error .zeroDivision := by
  obtain ⟨θ, hθ⟩ := angle_total p j
  unfold cotangentStep
  rw [hθ, Py.bind_ok]
  unfold cot
  by_cases h0 : θ = 0
  · rw [if_pos h0, Py.bind_error]; exact Or.inr rfl
  · rw [if_neg h0, Py.bind_ok]
    obtain ⟨r1, a1, a2⟩ := addRow_acc rows (tri (j + 1)) ((1 / Real.tan θ) • Triangle.edges p j) (hr ▸ h _)
    obtain ⟨r2, a3, a4⟩ := addRow_acc r1 (tri (j + 2)) (-((1 / Real.tan θ) • Triangle.edges p j)) (a2.1 ▸ hr ▸ h _)
    rw [a1, Py.bind_ok]
    exact Or.inl ⟨r2, a3, a4.1.trans (a2.1.trans hr)⟩

/-- **C70** `vertex_normals_cotangent` divides by zero as soon as one triangle of the mesh is degenerate. -/
theorem C70_cotangent_degenerate (t : List (Fin 3 → ℕ)) (v : List (Fin n → ℝ)) (h : ∀ tri ∈ t, ∀ j, tri j < v.length) (hd : ¬ IsTriMesh t v) :
    vertexNormalsCotangent t v = .error .zeroDivision := by
  have hcases : ∀ tri ∈ t, ∀ rows : List (Fin n → ℝ), rows.length = v.length →
      (∃ rows', cotangentTriangle v rows tri = .ok rows' ∧ rows'.length = v.length) ∨ cotangentTriangle v rows tri = .error .zeroDivision := by
    intro tri ht rows hr
    unfold cotangentTriangle
    rw [meshVertices_ok v tri (h tri ht), Py.bind_ok]
    exact foldlM_ok_or _ (fun r => r.length = v.length) _ _ (fun j _ r hr => cotangentStep_cases tri _ v.length (h tri ht) r hr j) rows hr
  have hbad : ∃ tri ∈ t, ∀ rows : List (Fin n → ℝ), rows.length = v.length → cotangentTriangle v rows tri = .error .zeroDivision := by
    unfold IsTriMesh at hd
    push Not at hd
    obtain ⟨tri, ht, hx⟩ := hd
    have hg := gram_zero _ (hx (h tri ht))
    refine ⟨tri, ht, fun rows hr => ?_⟩
    unfold cotangentTriangle
    rw [meshVertices_ok v tri (h tri ht), Py.bind_ok]
    have hj : ∃ j ∈ ([0, 1, 2] : List (Fin 3)), 0 ≤ dd (corners v tri) j := by
      have := edges_self (corners v tri) 2
      have h0 := this ▸ dot_nonneg (Triangle.edges (corners v tri) 2)
      have e1 : dd (corners v tri) (2 + 1) = dd (corners v tri) 0 := rfl
      have e2 : dd (corners v tri) (2 + 2) = dd (corners v tri) 1 := rfl
      rw [e1, e2] at h0
      by_cases h1 : 0 ≤ dd (corners v tri) 0
      · exact ⟨0, by simp, h1⟩
      · exact ⟨1, by simp, by linarith⟩
    obtain ⟨j, hj, hdj⟩ := hj
    refine foldlM_fails _ (fun r => r.length = v.length) _ _ (fun j _ r hr => cotangentStep_cases tri _ v.length (h tri ht) r hr j) ⟨j, hj, fun r hr => ?_⟩ rows hr
    unfold cotangentStep
    rw [angle_zero _ j hg hdj, Py.bind_ok]
    unfold cot
    rw [if_pos rfl, Py.bind_error]
  unfold vertexNormalsCotangent
  rw [foldlM_fails _ (fun r => r.length = v.length) _ t hcases hbad _ (by simp), Py.bind_error]

/-! ## Vertices and centroids -/

/-- **C70** `vertices`: the corners of a triangle; a vertex number that is too large raises IndexError, and then all functions on meshes fail. -/
theorem C70_vertices (v : List (Fin n → ℝ)) (tri : Fin 3 → ℕ) :
    ((∀ j, tri j < v.length) → meshVertices tri v = .ok (corners v tri)) ∧ ((∃ j, v.length ≤ tri j) → meshVertices tri v = .error .index) := by
  refine ⟨meshVertices_ok v tri, fun ⟨j, hj⟩ => ?_⟩
  unfold meshVertices
  by_cases h0 : 0 < v.length
  · rw [getE_ok h0, Py.bind_ok]
    unfold rows3
    simp only
    by_cases a0 : tri 0 < v.length
    · rw [getE_ok a0, Py.bind_ok]
      by_cases a1 : tri 1 < v.length
      · rw [getE_ok a1, Py.bind_ok]
        have a2 : v.length ≤ tri 2 := by
          fin_cases j
          · exact absurd a0 (not_lt.2 hj)
          · exact absurd a1 (not_lt.2 hj)
          · exact hj
        rw [getE_error a2, Py.bind_error]
      · rw [getE_error (not_lt.1 a1), Py.bind_error]
    · rw [getE_error (not_lt.1 a0), Py.bind_error]
  · rw [getE_error (not_lt.1 h0), Py.bind_error]

/-- **C70** `get_num_vertices`: one more than the largest vertex number; ValueError for a mesh without triangles. -/
theorem C70_get_num_vertices (t : List (Fin 3 → ℕ)) :
    (t ≠ [] → ∃ N, getNumVertices t = .ok N ∧ (∀ tri ∈ t, ∀ j, tri j < N) ∧ ∃ tri ∈ t, ∃ j, tri j + 1 = N) ∧ getNumVertices [] = .error .value := by
  refine ⟨fun ht => ?_, rfl⟩
  have hm : ∀ x, x ∈ (t.flatMap fun tri => [tri 0, tri 1, tri 2]) ↔ ∃ tri ∈ t, ∃ j : Fin 3, tri j = x := by
    intro x
    simp only [List.mem_flatMap, List.mem_cons, List.not_mem_nil, or_false]
    refine exists_congr fun tri => and_congr_right fun _ => ⟨?_, ?_⟩
    · rintro (h | h | h)
      · exact ⟨0, h.symm⟩
      · exact ⟨1, h.symm⟩
      · exact ⟨2, h.symm⟩
    · rintro ⟨j, rfl⟩
      fin_cases j
      · exact Or.inl rfl
      · exact Or.inr (Or.inl rfl)
      · exact Or.inr (Or.inr rfl)
  unfold getNumVertices
  have hfold : ∀ (l : List ℕ) (a : ℕ), a ≤ l.foldl max a ∧ (∀ x ∈ l, x ≤ l.foldl max a) ∧ (l.foldl max a = a ∨ l.foldl max a ∈ l) := by
    intro l
    induction l with
    | nil => exact fun a => ⟨le_rfl, by simp, Or.inl rfl⟩
    | cons b l ih =>
      intro a
      rw [List.foldl_cons]
      obtain ⟨h1, h2, h3⟩ := ih (max a b)
      refine ⟨(le_max_left a b).trans h1, fun x hx => ?_, ?_⟩
      · rcases List.mem_cons.1 hx with rfl | hx
        · exact (le_max_right a x).trans h1
        · exact h2 x hx
      · rcases h3 with h3 | h3
        · rcases max_choice a b with e | e
          · exact Or.inl (h3.trans e)
          · exact Or.inr (by rw [h3, e]; simp)
        · exact Or.inr (by simp [h3])
  cases hl : t.flatMap fun tri => [tri 0, tri 1, tri 2] with
  | nil =>
    exfalso
    cases t with
    | nil => exact ht rfl
    | cons a t => simp at hl
  | cons a as =>
    obtain ⟨h1, h2, h3⟩ := hfold as a
    rw [hl] at hm
    refine ⟨_, rfl, fun tri htri j => ?_, ?_⟩
    · have := (hm (tri j)).2 ⟨tri, htri, j, rfl⟩
      rcases List.mem_cons.1 this with e | e
      · omega
      · have := h2 _ e; omega
    · have : as.foldl max a ∈ a :: as := by
        rcases h3 with h3 | h3
        · rw [h3]; simp
        · simp [h3]
      obtain ⟨tri, htri, j, e⟩ := (hm _).1 this
      exact ⟨tri, htri, j, by rw [e]⟩

/-- **C70** `centroids`: the means of the corners of the triangles. -/
theorem C70_centroids (t : List (Fin 3 → ℕ)) (v : List (Fin 3 → ℝ)) (h : ∀ tri ∈ t, ∀ j, tri j < v.length) :
    TriMesh.centroids t v = .ok (t.map fun tri => (1 / 3 : ℝ) • ∑ j, corners v tri j) := by
  refine mapM_eq_ok _ _ fun tri ht => ?_
  rw [meshVertices_ok v tri (h tri ht), Py.bind_ok]
  unfold Triangle.centroid
  have e : ∑ j, corners v tri j = corners v tri 0 + corners v tri 1 + corners v tri 2 := Fin.sum_univ_three _
  rw [divBy_eq, e]
  rfl

/-- **C70** `centroid`: the mean of the centroids of the triangles, each counted with its area. -/
theorem C70_centroid (t : List (Fin 3 → ℕ)) (v : List (Fin n → ℝ)) (h : IsTriMesh t v) (ht : t ≠ []) (hn : n = 2 ∨ n = 3) :
    ∃ c, meshCentroid t v = .ok c ∧ 0 < surfaceArea t v ∧
      surfaceArea t v • c = (t.map fun tri => triArea (corners v tri) • (1 / 3 : ℝ) • ∑ j, corners v tri j).sum := by
  have key : ∀ (t : List (Fin 3 → ℕ)), IsTriMesh t v → ∀ s, t.foldlM (centroidStep v) s =
      .ok (s.1 + (t.map fun tri => triArea (corners v tri) • (1 / 3 : ℝ) • ∑ j, corners v tri j).sum, s.2 + surfaceArea t v) := by
    intro t
    induction t with
    | nil => exact fun _ s => by simp [surfaceArea, Py.pure_eq]
    | cons a t ih =>
      intro h s
      rw [List.foldlM_cons]
      have ha := h a (by simp)
      have e1 : centroidStep v s a = .ok (s.1 + triArea (corners v a) • (1 / 3 : ℝ) • ∑ j, corners v a j, s.2 + triArea (corners v a)) := by
        unfold centroidStep
        rw [meshVertices_ok v a ha.1, Py.bind_ok]
        simp only
        rw [area_eq _ hn, Py.bind_ok]
        unfold Triangle.centroid
        have e : ∑ j, corners v a j = corners v a 0 + corners v a 1 + corners v a 2 := Fin.sum_univ_three _
        rw [divBy_eq, e]
        rfl
      rw [e1, Py.bind_ok, ih (fun tri htri => h tri (by simp [htri]))]
      simp only [surfaceArea, List.map_cons, List.sum_cons, add_assoc]
  have hpos : ∀ (t : List (Fin 3 → ℕ)), IsTriMesh t v → 0 ≤ surfaceArea t v := by
    intro t h
    refine List.sum_nonneg fun x hx => ?_
    obtain ⟨tri, htri, rfl⟩ := List.mem_map.1 hx
    unfold triArea
    positivity
  have hp : 0 < surfaceArea t v := by
    cases t with
    | nil => exact absurd rfl ht
    | cons a t =>
      have h1 := hpos t (fun tri htri => h tri (by simp [htri]))
      have h2 : 0 < triArea (corners v a) := by
        have := gram_pos _ (h a (by simp)).2
        unfold triArea
        positivity
      have e : surfaceArea (a :: t) v = triArea (corners v a) + surfaceArea t v := by simp [surfaceArea]
      rw [e]
      linarith
  have hv : 0 < v.length := by
    cases t with
    | nil => exact absurd rfl ht
    | cons a t => exact Nat.lt_of_le_of_lt (Nat.zero_le _) ((h a (by simp)).1 0)
  refine ⟨(1 / surfaceArea t v) • (t.map fun tri => triArea (corners v tri) • (1 / 3 : ℝ) • ∑ j, corners v tri j).sum, ?_, hp, ?_⟩
  · unfold meshCentroid
    rw [getE_ok hv, Py.bind_ok, key t h, Py.bind_ok]
    simp only [zero_add]
    rw [divBy_eq]
    rfl
  · rw [smul_smul, mul_one_div, div_self hp.ne', one_smul]

/-! ## The hypotheses are met: the boundary of a tetrahedron -/

/-- The faces of a tetrahedron, oriented outwards. -/
def tetFaces : List (Fin 3 → ℕ) := [![0, 2, 1], ![0, 1, 3], ![0, 3, 2], ![1, 2, 3]]

/-- Its vertices. -/
def tetVertices : List (Fin 3 → ℝ) := [![0, 0, 0], ![1, 0, 0], ![0, 1, 0], ![0, 0, 1]]

theorem tet_isClosed : IsClosed tetFaces := by
  have hp : ((directedEdges tetFaces).map Prod.swap).Perm (directedEdges tetFaces) := by decide
  intro a b
  rw [← hp.count_eq (b, a), show (b, a) = Prod.swap (a, b) from rfl, List.count_map_of_injective _ _ Prod.swap_injective]

theorem nondeg_of_dd (p : Tri 3) (h : 0 < dd p 0 * dd p 1 + dd p 0 * dd p 2 + dd p 1 * dd p 2) : NonDegenerate p := by
  rw [nonDegenerate_iff_gram p (by norm_num), gram_dd p 0]
  exact h

theorem tet_isMesh : IsTriMesh tetFaces tetVertices := by
  intro tri ht
  have h4 : tetVertices.length = 4 := rfl
  simp only [tetFaces, List.mem_cons, List.not_mem_nil, or_false] at ht
  refine ⟨fun j => ?_, nondeg_of_dd _ ?_⟩
  · rw [h4]
    rcases ht with rfl | rfl | rfl | rfl <;> (revert j; decide)
  · have h0 : ∀ p : Tri 3, dd p 0 = (p 1 - p 0) ⬝ᵥ (p 2 - p 0) := fun _ => rfl
    have h1 : ∀ p : Tri 3, dd p 1 = (p 2 - p 1) ⬝ᵥ (p 0 - p 1) := fun _ => rfl
    have h2 : ∀ p : Tri 3, dd p 2 = (p 0 - p 2) ⬝ᵥ (p 1 - p 2) := fun _ => rfl
    rw [h0, h1, h2]
    rcases ht with rfl | rfl | rfl | rfl <;> simp [corners, tetVertices] <;> norm_num

example : IsTriMesh tetFaces tetVertices ∧ IsClosed tetFaces := ⟨tet_isMesh, tet_isClosed⟩

end Verif.Props
