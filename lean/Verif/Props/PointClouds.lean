import Verif.Lemmas.PointClouds2
import Verif.Props.MeshKdTree
import Verif.Props.Rotation
import Verif.Props.Sampling
/-!
# C76: point clouds, and the splitting planes of kd trees around meshes; C77: Cartesian bases and random rigid motions

`total points f` is the sum of the values of `f` at the points, `sqDist` the square of the distance, `IsEigh` the contract of `np.linalg.eigh`
(Spec/PointClouds.lean).
-/

namespace Verif.Props
open Verif Verif.PointCloud Matrix

section Embedding
variable {K : Type} [Zero K]

/-- **C76** `embed_point_in_rn` keeps the coordinates and adds zeros; the dimension must increase. -/
theorem C76_embed_point (p : List K) (n : Nat) :
    (p.length < n → ∃ q, embedPoint p n = .ok q ∧ q.length = n ∧ (∀ i (h : i < p.length), q[i]? = some p[i]) ∧
      ∀ i, p.length ≤ i → i < n → q[i]? = some 0) ∧ (n ≤ p.length → embedPoint p n = .error .assertion) := by
  unfold embedPoint
  constructor
  · intro h
    refine ⟨p ++ List.replicate (n - p.length) 0, by simp [h], by simp; omega, fun i hi => ?_, fun i h1 h2 => ?_⟩
    · rw [List.getElem?_append_left hi, List.getElem?_eq_getElem hi]
    · rw [List.getElem?_append_right h1, List.getElem?_replicate]
      rw [if_pos (by omega)]
  · intro h
    simp [Nat.not_lt.2 h]

/-- **C76** `embed_point_cloud_in_rn` embeds each of the points. -/
theorem C76_embed_point_cloud (m : Nat) (points : List (List K)) (hp : ∀ p ∈ points, p.length = m) (n : Nat) :
    (m < n → ∃ q, embedPointCloud m points n = .ok q ∧ List.Forall₂ (fun p q => embedPoint p n = .ok q) points q) ∧
    (n ≤ m → embedPointCloud m points n = .error .assertion) := by
  unfold embedPointCloud
  constructor
  · intro h
    refine ⟨points.map (fun p => p ++ List.replicate (n - m) 0), by simp [h], ?_⟩
    rw [List.forall₂_map_right_iff, List.forall₂_same]
    intro p hpm
    simp [embedPoint, hp p hpm, h]
  · intro h
    simp [Nat.not_lt.2 h]

end Embedding

/-- **C76** The embedding preserves distances. -/
theorem C76_embed_isometry (p q : List ℝ) (h : p.length = q.length) (n : Nat) (p' q' : List ℝ) (hp : embedPoint p n = .ok p') (hq : embedPoint q n = .ok q') :
    (List.zipWith (fun a b => (a - b) ^ 2) p' q').sum = (List.zipWith (fun a b => (a - b) ^ 2) p q).sum := by
  have hn : q.length < n := by
    by_contra hn
    rw [(C76_embed_point q n).2 (by omega)] at hq
    cases hq
  have e1 : p' = p ++ List.replicate (n - p.length) 0 := by
    unfold embedPoint at hp
    simpa [h, hn] using hp.symm
  have e2 : q' = q ++ List.replicate (n - q.length) 0 := by
    unfold embedPoint at hq
    simpa [hn] using hq.symm
  rw [e1, e2, List.zipWith_append h, h]
  simp

section
variable {m : Nat}

/-- **C76** The mean: the deviations add up to zero, and it is the only point that minimises the sum of the squares of the distances. -/
theorem C76_mean (points : List (Fin m → ℝ)) (h : points ≠ []) :
    (∀ w, total points (fun p => (p - mean points) ⬝ᵥ w) = 0) ∧
    (∀ c, total points (fun p => sqDist p (mean points)) ≤ total points (fun p => sqDist p c)) ∧
    ∀ c, total points (fun p => sqDist p c) = total points (fun p => sqDist p (mean points)) → c = mean points := by
  have hpos : (0 : ℝ) < points.length := by exact_mod_cast List.length_pos_iff.2 h
  have hsq : ∀ u v : Fin m → ℝ, 0 ≤ sqDist u v := fun u v => by
    unfold sqDist
    exact Finset.sum_nonneg fun i _ => mul_self_nonneg _
  refine ⟨total_inner_mean points h, fun c => ?_, fun c hc => ?_⟩
  · rw [total_sqDist points h c]
    nlinarith [hsq (mean points) c]
  · rw [total_sqDist points h c] at hc
    have h0 : sqDist (mean points) c = 0 := by
      have : (points.length : ℝ) * sqDist (mean points) c = 0 := by linarith
      rcases mul_eq_zero.1 this with h | h
      · exact absurd h hpos.ne'
      · exact h
    have := dotProduct_self_eq_zero.1 h0
    exact (sub_eq_zero.1 this).symm

/-- **C76** The mean of the images under an affine map is the image of the mean. -/
theorem C76_mean_affine {n : Nat} (points : List (Fin m → ℝ)) (h : points ≠ []) (A : Matrix (Fin n) (Fin m) ℝ) (b : Fin n → ℝ) :
    mean (points.map (fun p => A *ᵥ p + b)) = A *ᵥ mean points + b := by
  have hne : (points.length : ℝ) ≠ 0 := by simpa using h
  funext i
  have e : ((points.map (fun p => A *ᵥ p + b)).map (fun p => p i)).sum = ∑ j, A i j * (points.map (fun p => p j)).sum + points.length * b i := by
    clear h hne
    induction points with
    | nil => simp
    | cons p l ih =>
      simp only [List.map_cons, List.sum_cons, ih, List.length_cons, Pi.add_apply, mulVec, dotProduct, mul_add, Finset.sum_add_distrib]
      push_cast
      ring
  unfold mean
  rw [e, List.length_map, add_div, mul_div_cancel_left₀ _ hne]
  simp only [Pi.add_apply, mulVec, dotProduct, Finset.sum_div, mul_div_assoc]

/-- **C76** The median: in each coordinate at most half of the points are on each side. -/
theorem C76_median (points : List (Fin m → ℝ)) (j : Fin m) :
    2 * (points.filter (fun p => decide (p j < median points j))).length ≤ points.length ∧
    2 * (points.filter (fun p => decide (median points j < p j))).length ≤ points.length := by
  have h := median_count points j
  rw [List.countP_map, List.countP_map, List.countP_eq_length_filter, List.countP_eq_length_filter] at h
  exact h

/-- **C76** The median minimises the sum of the distances in each coordinate, and their sum; it does not depend on the order of the points. -/
theorem C76_median_minimal (points : List (Fin m → ℝ)) :
    (∀ j (c : ℝ), total points (fun p => |p j - median points j|) ≤ total points (fun p => |p j - c|)) ∧
    (∀ c : Fin m → ℝ, total points (fun p => ∑ j, |p j - median points j|) ≤ total points (fun p => ∑ j, |p j - c j|)) ∧
    ∀ points', points.Perm points' → median points' = median points := by
  refine ⟨median_abs points, fun c => ?_, fun points' h => (median_perm h).symm⟩
  rw [total_sum, total_sum]
  exact Finset.sum_le_sum fun j _ => median_abs points j (c j)

/-- **C76** The median lies in the smallest box around the points. -/
theorem C76_median_box (points : List (Fin m → ℝ)) (h : points ≠ []) (j : Fin m) (a b : ℝ) (hab : ∀ p ∈ points, a ≤ p j ∧ p j ≤ b) :
    a ≤ median points j ∧ median points j ≤ b := by
  have hlen := List.length_pos_iff.2 h
  obtain ⟨h1, h2⟩ := C76_median points j
  constructor
  · by_contra hc
    rw [List.filter_eq_self.2 fun p hp => by simpa using (not_le.1 hc).trans_le (hab p hp).1] at h2
    omega
  · by_contra hc
    rw [List.filter_eq_self.2 fun p hp => by simpa using (hab p hp).2.trans_lt (not_le.1 hc)] at h1
    omega

end

section
variable {k : Nat}

/-- **C76** `principal_component_axis` returns a unit vector for which the sum of the squares of the components of the deviations from the mean is
maximal. -/
theorem C76_principal_axis {eigh : Eigh (k + 1)} (he : IsEigh eigh) (points : List (Fin (k + 1) → ℝ)) :
    ∃ w, principalComponentAxis eigh points = .ok w ∧ w ⬝ᵥ w = 1 ∧
      ∀ u : Fin (k + 1) → ℝ, u ⬝ᵥ u = 1 →
        total points (fun p => ((p - mean points) ⬝ᵥ u) ^ 2) ≤ total points (fun p => ((p - mean points) ⬝ᵥ w) ^ 2) :=
  principal_spec he points

/-- **C76** The line through the mean in the direction of the principal component axis has the smallest sum of squares of distances to the points: for
every line (a point `a` and a direction `u`) and every choice of points on it, one for each point of the cloud. -/
theorem C76_best_line {eigh : Eigh (k + 1)} (he : IsEigh eigh) (points : List (Fin (k + 1) → ℝ)) (h : points ≠ []) :
    ∃ w, principalComponentAxis eigh points = .ok w ∧ ∀ (a u : Fin (k + 1) → ℝ) (t : (Fin (k + 1) → ℝ) → ℝ),
      total points (fun p => sqDist p (mean points + ((p - mean points) ⬝ᵥ w) • w)) ≤ total points (fun p => sqDist p (a + t p • u)) := by
  obtain ⟨w, h1, h2, h3⟩ := principal_spec he points
  refine ⟨w, h1, fun a u t => ?_⟩
  have expand : ∀ (p a u : Fin (k + 1) → ℝ) (s : ℝ), u ⬝ᵥ u = 1 → sqDist p (a + s • u) = sqDist p a - ((p - a) ⬝ᵥ u) ^ 2 + (s - (p - a) ⬝ᵥ u) ^ 2 := by
    intro p a u s hu
    unfold sqDist
    have : p - (a + s • u) = (p - a) - s • u := by abel
    rw [this]
    generalize p - a = d
    rw [sub_dotProduct, dotProduct_sub, dotProduct_sub, smul_dotProduct, smul_dotProduct, dotProduct_smul, dotProduct_smul, hu,
      dotProduct_comm u d]
    simp only [smul_eq_mul]
    ring
  -- a unit direction
  obtain ⟨u', t', hu', ht'⟩ : ∃ (u' : Fin (k + 1) → ℝ) (t' : (Fin (k + 1) → ℝ) → ℝ), u' ⬝ᵥ u' = 1 ∧ ∀ p, t p • u = t' p • u' := by
    by_cases hu : u = 0
    · exact ⟨w, fun _ => 0, h2, fun p => by simp [hu]⟩
    · have hpos : 0 < u ⬝ᵥ u := lt_of_le_of_ne (Finset.sum_nonneg fun i _ => mul_self_nonneg _) fun h => hu (dotProduct_self_eq_zero.1 h.symm)
      have hs := Real.sqrt_pos.2 hpos
      refine ⟨(√(u ⬝ᵥ u))⁻¹ • u, fun p => t p * √(u ⬝ᵥ u), ?_, fun p => ?_⟩
      · rw [smul_dotProduct, dotProduct_smul, smul_eq_mul, smul_eq_mul, ← mul_assoc, ← mul_inv, Real.mul_self_sqrt hpos.le, inv_mul_cancel₀ hpos.ne']
      · rw [smul_smul, mul_assoc, mul_inv_cancel₀ hs.ne', mul_one]
  have lower : total points (fun p => sqDist p a - ((p - a) ⬝ᵥ u') ^ 2) ≤ total points (fun p => sqDist p (a + t p • u)) := by
    refine total_le _ _ _ fun p _ => ?_
    rw [ht' p, expand p a u' _ hu']
    nlinarith [sq_nonneg (t' p - (p - a) ⬝ᵥ u')]
  refine le_trans ?_ lower
  have e : total points (fun p => sqDist p (mean points + ((p - mean points) ⬝ᵥ w) • w)) =
      total points (fun p => sqDist p (mean points) - ((p - mean points) ⬝ᵥ w) ^ 2) :=
    total_congr _ _ _ fun p _ => by rw [expand p _ w _ h2]; ring
  rw [e, total_sub, total_sub, total_sqDist points h a, total_inner_sq points h a u']
  have h4 := h3 u' hu'
  have h5 : ((mean points - a) ⬝ᵥ u') ^ 2 ≤ sqDist (mean points) a := by
    have := expand (mean points) a u' ((mean points - a) ⬝ᵥ u') hu'
    have h6 : 0 ≤ sqDist (mean points) (a + ((mean points - a) ⬝ᵥ u') • u') := by
      unfold sqDist
      exact Finset.sum_nonneg fun i _ => mul_self_nonneg _
    nlinarith
  have hpos : (0 : ℝ) < points.length := by exact_mod_cast List.length_pos_iff.2 h
  nlinarith

/-- **C76** Points on a line, not all equal: the result is the direction of the line (up to sign). -/
theorem C76_collinear {eigh : Eigh (k + 1)} (he : IsEigh eigh) (points : List (Fin (k + 1) → ℝ)) (a u : Fin (k + 1) → ℝ) (hu : u ⬝ᵥ u = 1)
    (hline : ∀ p ∈ points, ∃ t : ℝ, p = a + t • u) (hne : ∃ p ∈ points, p ≠ mean points) :
    principalComponentAxis eigh points = .ok u ∨ principalComponentAxis eigh points = .ok (-u) := by
  obtain ⟨w, h1, h2, h3⟩ := principal_spec he points
  obtain ⟨p0, hp0, hne0⟩ := hne
  have h : points ≠ [] := List.ne_nil_of_mem hp0
  -- the deviations are multiples of `u`
  have hmean : ∃ s : ℝ, mean points = a + s • u := by
    refine ⟨total points (fun p => (p - a) ⬝ᵥ u) / points.length, ?_⟩
    have hlen : (points.length : ℝ) ≠ 0 := by simpa using h
    funext j
    have e1 : total points (fun p => p j) = total points (fun p => a j + u j * ((p - a) ⬝ᵥ u)) := by
      refine total_congr _ _ _ fun p hp => ?_
      obtain ⟨t, rfl⟩ := hline p hp
      rw [add_sub_cancel_left, smul_dotProduct, hu]
      simp [mul_comm]
    rw [mean_apply, e1, total_add, total_const, total_mul]
    simp only [Pi.add_apply, Pi.smul_apply, smul_eq_mul]
    field_simp
  have hdev : ∀ p ∈ points, p - mean points = ((p - mean points) ⬝ᵥ u) • u := by
    intro p hp
    obtain ⟨t, ht⟩ := hline p hp
    obtain ⟨s, hs⟩ := hmean
    have : p - mean points = (t - s) • u := by rw [ht, hs, sub_smul]; abel
    rw [this, smul_dotProduct, hu, smul_eq_mul, mul_one]
  have e2 : total points (fun p => ((p - mean points) ⬝ᵥ w) ^ 2) = (u ⬝ᵥ w) ^ 2 * total points (fun p => ((p - mean points) ⬝ᵥ u) ^ 2) := by
    rw [← total_mul]
    refine total_congr _ _ _ fun p hp => ?_
    conv_lhs => rw [hdev p hp]
    rw [smul_dotProduct, smul_eq_mul]
    ring
  have hpos : 0 < total points (fun p => ((p - mean points) ⬝ᵥ u) ^ 2) := by
    have h5 : (p0 - mean points) ⬝ᵥ u ≠ 0 := by
      intro h0
      have := hdev p0 hp0
      rw [h0, zero_smul, sub_eq_zero] at this
      exact hne0 this
    have h6 : (p0 - mean points) ⬝ᵥ u ≠ 0 → ((p0 - mean points) ⬝ᵥ u) ^ 2 ≤ total points (fun p => ((p - mean points) ⬝ᵥ u) ^ 2) := by
      intro _
      exact List.single_le_sum (by
        intro x hx
        obtain ⟨p, _, rfl⟩ := List.mem_map.1 hx
        exact sq_nonneg _) _ (List.mem_map.2 ⟨p0, hp0, rfl⟩)
    exact lt_of_lt_of_le (by positivity) (h6 h5)
  have h7 : 1 ≤ (u ⬝ᵥ w) ^ 2 := by
    have := h3 u hu
    rw [e2] at this
    by_contra hc
    nlinarith [not_le.1 hc]
  have hw : ∀ s : ℝ, (w - s • u) ⬝ᵥ (w - s • u) = 1 - 2 * s * (u ⬝ᵥ w) + s ^ 2 := by
    intro s
    rw [sub_dotProduct, dotProduct_sub, dotProduct_sub, smul_dotProduct, smul_dotProduct, dotProduct_smul, dotProduct_smul, hu, h2, dotProduct_comm w u]
    simp only [smul_eq_mul]
    ring
  have h8 : w = (u ⬝ᵥ w) • u ∧ (u ⬝ᵥ w) ^ 2 = 1 := by
    have h9 := hw (u ⬝ᵥ w)
    have h10 : 0 ≤ (w - (u ⬝ᵥ w) • u) ⬝ᵥ (w - (u ⬝ᵥ w) • u) := Finset.sum_nonneg fun i _ => mul_self_nonneg _
    have h11 : (u ⬝ᵥ w) ^ 2 = 1 := by nlinarith
    refine ⟨?_, h11⟩
    have : (w - (u ⬝ᵥ w) • u) ⬝ᵥ (w - (u ⬝ᵥ w) • u) = 0 := by nlinarith
    exact sub_eq_zero.1 (dotProduct_self_eq_zero.1 this)
  rw [h1]
  rcases (sq_eq_sq_iff_eq_or_eq_neg (b := (1 : ℝ))).1 (by rw [h8.2]; norm_num) with h | h
  · left; rw [h8.1, h, one_smul]
  · right; rw [h8.1, h, neg_smul, one_smul]

/-- **C76** The result does not change when all points are translated. -/
theorem C76_translation (eigh : Eigh (k + 1)) (points : List (Fin (k + 1) → ℝ)) (d : Fin (k + 1) → ℝ) :
    principalComponentAxis eigh (points.map (fun p => p + d)) = principalComponentAxis eigh points := by
  by_cases h : points = []
  · rw [h]; rfl
  have hm : mean (points.map (fun p => p + d)) = mean points + d := by
    have := C76_mean_affine points h (1 : Matrix (Fin (k + 1)) (Fin (k + 1)) ℝ) d
    simpa using this
  rw [principal_ok, principal_ok, hm, List.map_map]
  have : (fun p => p - (mean points + d)) ∘ (fun p => p + d) = fun p => p - mean points := by
    funext p
    simp
  rw [this]

/-- **C76** The quantity that is maximised according to the documentation (without squares) is zero for all vectors. -/
theorem C76_documentation (points : List (Fin (k + 1) → ℝ)) (w : Fin (k + 1) → ℝ) : total points (fun p => (p - mean points) ⬝ᵥ w) = 0 := by
  by_cases h : points = []
  · rw [h]; rfl
  · exact total_inner_mean points h w

end

/-- **C76** In dimension zero there is no axis. -/
theorem C76_dimension_zero (eigh : Eigh 0) (points : List (Fin 0 → ℝ)) : principalComponentAxis eigh points = .error .index := rfl

/-! ## The kd tree around a mesh -/

section
open Verif.Kd Verif.Aabb
variable [Sub (Ext ℝ)] [Mul (Ext ℝ)] [One (Ext ℝ)] {k : Nat}

/-- The centroid of the simplex with number `i`: the sum of the coordinates of its vertices, divided by the number of vertices. -/
noncomputable def meshCentroid (k : Nat) (mesh : Mesh ℝ) (i : Nat) : Fin k → ℝ := fun t =>
  ((mesh.simplices.getD i []).map fun j => (mesh.vertices.getD j []).getD t 0).sum / (mesh.simplices.getD i []).length

omit [Sub (Ext ℝ)] [Mul (Ext ℝ)] [One (Ext ℝ)] in
/-- **C76** The splitting plane of `create_kd_tree`: at most half of the centroids of the simplices are on each side, and the normal is the coordinate
axis along which the principal component axis has its largest component. -/
theorem C76_splitting_plane {eigh : Eigh (k + 1)} (he : IsEigh eigh) (mesh : Mesh ℝ) (hk : ∃ v, mesh.vertices[0]? = some v)
    (hmesh : ∀ s ∈ mesh.simplices, s ≠ [] ∧ ∀ i ∈ s, i < mesh.vertices.length) (l : List Nat) (hl : ∀ i ∈ l, i < mesh.simplices.length) :
    ∃ (pp : Fin (k + 1) → ℝ) (i : Fin (k + 1)) (w : Fin (k + 1) → ℝ), splitPlane eigh mesh l = .ok (List.ofFn pp, (i : Int)) ∧
      2 * (l.filter (fun s => decide (meshCentroid (k + 1) mesh s i < pp i))).length ≤ l.length ∧
      2 * (l.filter (fun s => decide (pp i < meshCentroid (k + 1) mesh s i))).length ≤ l.length ∧
      principalComponentAxis eigh (l.map (meshCentroid (k + 1) mesh)) = .ok w ∧ ∀ j, |w j| ≤ |w i| := by
  obtain ⟨w, h1, -, -⟩ := principal_spec he (l.map (meshCentroid (k + 1) mesh))
  obtain ⟨i, h2, h3, -⟩ := axisIndex_spec (Nat.succ_pos k) w
  refine ⟨median (l.map (meshCentroid (k + 1) mesh)), i, w, ?_, ?_, ?_, h1, h3⟩
  · unfold splitPlane
    rw [centroids_ok hk hmesh l hl]
    simp only [Py.bind_ok]
    have e : (l.map fun i => listCentroid (k + 1) ((mesh.simplices.getD i []).map fun j => mesh.vertices.getD j [])) = l.map (meshCentroid (k + 1) mesh) := by
      refine List.map_congr_left fun i _ => funext fun t => ?_
      simp only [listCentroid, meshCentroid, List.map_map, List.length_map]
      rfl
    rw [e, h1, Py.bind_ok, h2]
    rfl
  · have := (C76_median (l.map (meshCentroid (k + 1) mesh)) i).1
    rw [List.filter_map, List.length_map, List.length_map] at this
    exact this
  · have := (C76_median (l.map (meshCentroid (k + 1) mesh)) i).2
    rw [List.filter_map, List.length_map, List.length_map] at this
    exact this

/-- **C76** `create_kd_tree` with its rule for the splitting planes returns a tree for every valid mesh in at least one dimension (given
`fixed_depth=True` or `max_simplices_in_leaf`); its depth is bounded by `max_depth`, a node is left undivided exactly when it has this depth, no simplex
can intersect it or at most `max_simplices_in_leaf` can (without `fixed_depth`), and every simplex (of interest) is listed in the leaf in which each of
its points is found. -/
theorem C76_create_kd_tree {eigh : Eigh (k + 1)} (he : IsEigh eigh) (mesh : Mesh ℝ) (hk : ∃ v, mesh.vertices[0]? = some v)
    (hvert : ∀ v ∈ mesh.vertices, v.length = k + 1) (hmesh : ∀ s ∈ mesh.simplices, s ≠ [] ∧ ∀ i ∈ s, i < mesh.vertices.length)
    (fixedDepth : Bool) (maxDepth : Nat) (maxSimplices : Option Nat) (hstop : fixedDepth = true ∨ maxSimplices ≠ none)
    (interest : Option (List Nat)) (hint : ∀ l, interest = some l → ∀ i ∈ l, i < mesh.simplices.length) :
    ∃ t, createMeshTree mesh (splitPlane eigh mesh) fixedDepth maxDepth maxSimplices interest = .ok t ∧ (∀ n l, At t.h n l → l.length ≤ maxDepth + 1) ∧
      (∀ n l nd, At t.h n l → t.h[n]? = some nd → ∃ p, t.pis[n]? = some p ∧
        (nd.children = none ↔ l.length = maxDepth + 1 ∨ p = [] ∨ (fixedDepth = false ∧ ∃ k, maxSimplices = some k ∧ p.length ≤ k))) ∧
      ∀ τ, OfInterest mesh interest τ → ∀ x, InMeshSimplex mesh (k + 1) τ x →
        ∃ n nd p, findLeaf t.h 0 x = .ok n ∧ t.h[n]? = some nd ∧ nd.children = none ∧ t.pis[n]? = some p ∧ τ ∈ p := by
  obtain ⟨t, h1, h2, h3⟩ := C42_create_ok hk hvert hmesh (splitPlane eigh mesh) (by
    intro l _ hl
    obtain ⟨pp, i, w, h, -⟩ := C76_splitting_plane he mesh hk hmesh l hl
    exact ⟨_, _, h, by simp, by omega, by have := i.2; omega⟩) fixedDepth maxDepth maxSimplices hstop interest hint
  exact ⟨t, h1, h2, h3, fun τ hτ x hx => (C42_complete hk hvert (C42_create_kd_tree h1) τ hτ x hx).1⟩

end

/-! ## Examples for C76 -/

/-- An eigenvalue decomposition as required exists in every dimension. -/
example (m : Nat) : ∃ eigh : Eigh m, IsEigh eigh := exists_eigh m

example : embedPoint [(1 : ℚ), 1] 3 = .ok [1, 1, 0] ∧ embedPoint [(1 : ℚ), 1] 2 = .error .assertion := by constructor <;> rfl

example : mean [![1, 2], ![3, 4]] = ![2, 3] := by
  funext i
  fin_cases i <;> norm_num [mean]

/-- Three points on a line, not all equal to their mean. -/
example : (∀ p ∈ [![(0 : ℝ), 1], ![0, 2], ![0, 6]], ∃ t : ℝ, p = ![0, 0] + t • ![0, 1]) ∧
    ∃ p ∈ [![(0 : ℝ), 1], ![0, 2], ![0, 6]], p ≠ mean [![(0 : ℝ), 1], ![0, 2], ![0, 6]] := by
  constructor
  · intro p hp
    simp only [List.mem_cons, List.not_mem_nil, or_false] at hp
    rcases hp with rfl | rfl | rfl
    · exact ⟨1, by simp⟩
    · exact ⟨2, by simp⟩
    · exact ⟨6, by simp⟩
  · refine ⟨![0, 1], by simp, fun h => ?_⟩
    have := congrFun h 1
    norm_num [mean] at this

/-- A mesh with two triangles. -/
example : ∃ mesh : Kd.Mesh ℝ, (∃ v, mesh.vertices[0]? = some v) ∧ (∀ v ∈ mesh.vertices, v.length = 1 + 1) ∧
    (∀ s ∈ mesh.simplices, s ≠ [] ∧ ∀ i ∈ s, i < mesh.vertices.length) ∧ mesh.simplices.length = 2 :=
  ⟨⟨[[0, 1, 2], [1, 3, 2]], [[0, 0], [1, 0], [0, 1], [1, 1]]⟩, ⟨_, rfl⟩, by simp, by simp, rfl⟩

/-! ## C77 -/

open Verif.Linalg Verif.Sampling

/-- **C77** The vectors of the Cartesian basis: the `i`-th one has the components `δ_ij`; negative indices count from the end, other indices raise
IndexError; the basis is orthonormal. -/
theorem C77_cartesian_basis (d : Nat) :
    (∀ i : Fin d, ∃ e, cartesianBasisVector i d = .ok e ∧ cartesianBasisVector ((i : Int) - d) d = .ok e ∧ (∀ j, e j = if j = i then 1 else 0) ∧
      (∀ v : Fin d → ℝ, e ⬝ᵥ v = v i) ∧ ∀ (i' : Fin d) e', cartesianBasisVector i' d = .ok e' → e ⬝ᵥ e' = if i = i' then 1 else 0) ∧
    (∀ i : Int, (i < -d ∨ d ≤ i) → cartesianBasisVector i d = .error .index) ∧ (cartesianBasis d).length = d := by
  have hlen : (cartesianBasis d).length = d := by simp [cartesianBasis]
  have hget : ∀ i : Fin d, cartesianBasisVector i d = .ok (Pi.single i 1) := by
    intro i
    unfold cartesianBasisVector pyGet cartesianBasis
    have : (List.ofFn (fun i => (1 : Matrix (Fin d) (Fin d) ℝ) i))[(i : Nat)]? = some (Pi.single i 1) := by
      rw [List.getElem?_eq_getElem (by simp), List.getElem_ofFn]
      congr 1
      funext j
      simp [Matrix.one_apply, Pi.single_apply, eq_comm]
    rw [if_pos (by omega), Int.toNat_natCast, this]
  refine ⟨fun i => ⟨Pi.single i 1, hget i, ?_, ?_, ?_, ?_⟩, ?_, hlen⟩
  · rw [← hget i]
    unfold cartesianBasisVector pyGet
    rw [if_neg (by omega), if_pos (by rw [hlen]; omega), if_pos (by omega), hlen, show (i : Int) - d + d = i by omega]
  · intro j
    simp [Pi.single_apply]
  · intro v
    simp
  · intro i' e' h
    rw [hget i'] at h
    rw [← Except.ok.inj h]
    simp [Pi.single_apply, eq_comm]
  · intro i hi
    unfold cartesianBasisVector pyGet
    rcases hi with hi | hi
    · rw [if_neg (by omega), if_neg (by rw [hlen]; omega)]
    · rw [if_pos (by omega), List.getElem?_eq_none (by rw [hlen]; omega)]

/-- **C77** `basis_matrix` puts the vectors into the columns, and `basis_vectors` gives them back. -/
theorem C77_basis_matrix (vectors : List (List ℝ)) (h : ∀ v ∈ vectors, v.length = vectors.length) :
    ∃ B, basisMatrix vectors = .ok B ∧ (∀ i j, B i j = (vectors.getD j []).getD i 0) ∧
      (basisVectors B).map List.ofFn = vectors := by
  have e : vectors.mapM (assignColumn vectors.length) = .ok (vectors.map fun v => fun j => v.getD j 0) :=
    mapM_eq_ok _ _ fun v hv => by simp [assignColumn, h v hv]
  have hcol : ∀ i j : Fin vectors.length, (vectors.map fun v => fun (j : Fin vectors.length) => v.getD j 0).getD j 0 i = (vectors.getD j []).getD i 0 := by
    intro i j
    simp [List.getD_eq_getElem?_getD]
  refine ⟨Matrix.of fun i j => (vectors.map fun v => fun (j : Fin vectors.length) => v.getD j 0).getD j 0 i, ?_, ?_, ?_⟩
  · unfold basisMatrix
    rw [e]
    rfl
  · exact hcol
  · unfold basisVectors
    refine List.ext_getElem (by simp) fun n h1 h2 => ?_
    rw [List.getElem_map, List.getElem_ofFn]
    have hl := h _ (List.getElem_mem h2)
    refine List.ext_getElem (by simp [hl]) fun i h3 h4 => ?_
    rw [List.getElem_ofFn]
    simp only [transpose_apply, of_apply]
    refine (hcol ⟨i, by omega⟩ ⟨n, h2⟩).trans ?_
    simp [List.getD_eq_getElem?_getD, h2, h4]

/-- **C77** Conversely the matrix of the vectors of a basis is the matrix. -/
theorem C77_basis_vectors {n : Nat} (B : Matrix (Fin n) (Fin n) ℝ) :
    ∃ B', basisMatrix ((basisVectors B).map List.ofFn) = .ok B' ∧ ∀ (i j : Fin n) (i' j' : Fin ((basisVectors B).map List.ofFn).length),
      (i' : Nat) = i → (j' : Nat) = j → B' i' j' = B i j := by
  have hlen : ((basisVectors B).map List.ofFn).length = n := by simp [basisVectors]
  obtain ⟨B', h1, h2, -⟩ := C77_basis_matrix ((basisVectors B).map List.ofFn) (by
    intro v hv
    obtain ⟨w, -, rfl⟩ := List.mem_map.1 hv
    rw [hlen, List.length_ofFn])
  refine ⟨B', h1, fun i j i' j' hi hj => ?_⟩
  rw [h2, hi, hj]
  simp [basisVectors, List.getD_eq_getElem?_getD]

/-- **C77** Vectors of wrong lengths: ValueError if the length of some vector is neither the number of the vectors nor one; but vectors with one component
are repeated without an error. -/
theorem C77_basis_matrix_wrong (vectors : List (List ℝ)) :
    ((∃ v ∈ vectors, v.length ≠ vectors.length ∧ v.length ≠ 1) → basisMatrix vectors = .error .value) ∧
    ((∀ v ∈ vectors, v.length = 1) → ∃ B, basisMatrix vectors = .ok B ∧ ∀ i j, B i j = (vectors.getD j []).getD 0 0) := by
  constructor
  · rintro ⟨v, hv, h1, h2⟩
    have key : ∀ (d : Nat) (l : List (List ℝ)), (∃ v ∈ l, v.length ≠ d ∧ v.length ≠ 1) → l.mapM (assignColumn d) = .error .value := by
      intro d l
      induction l with
      | nil => simp
      | cons a l ih =>
        rintro ⟨v, hv, h1, h2⟩
        rw [List.mapM_cons]
        by_cases ha : a.length ≠ d ∧ a.length ≠ 1
        · have : assignColumn d a = .error .value := by simp [assignColumn, ha.1, ha.2]
          rw [this]; rfl
        · have hl : ∃ v ∈ l, v.length ≠ d ∧ v.length ≠ 1 := by
            rcases List.mem_cons.1 hv with rfl | hv
            · exact absurd ⟨h1, h2⟩ ha
            · exact ⟨v, hv, h1, h2⟩
          have : ∃ c, assignColumn d a = .ok c := by
            unfold assignColumn
            by_cases h3 : a.length = d
            · exact ⟨_, if_pos h3⟩
            · have h4 : a.length = 1 := by
                by_contra h4
                exact ha ⟨h3, h4⟩
              exact ⟨_, by rw [if_neg h3, if_pos h4]⟩
          obtain ⟨c, hc⟩ := this
          rw [hc, ih hl]; rfl
    unfold basisMatrix
    rw [key _ _ ⟨v, hv, h1, h2⟩]; rfl
  · intro h
    have e : vectors.mapM (assignColumn vectors.length) = .ok (vectors.map fun v => fun _ => v.getD 0 0) := by
      refine mapM_eq_ok _ _ fun v hv => ?_
      unfold assignColumn
      by_cases h3 : v.length = vectors.length
      · rw [if_pos h3]
        congr 1
        funext j
        have h4 := j.2
        have h5 := h v hv
        rw [show (j : Nat) = 0 by omega]
      · rw [if_neg h3, if_pos (h v hv)]
    unfold basisMatrix
    rw [e]
    refine ⟨_, rfl, fun i j => ?_⟩
    simp [List.getD_eq_getElem?_getD]

/-- **C77** `move` of several vectors (as the columns of a matrix) moves each of them. -/
theorem C77_move_columns {n k : Nat} (R : Matrix (Fin n) (Fin n) ℝ) (t : Fin n → ℝ) (v : Matrix (Fin n) (Fin k) ℝ) (j : Fin k) :
    (moveMatrix R t v).col j = move R t (v.col j) := by
  funext i
  simp [moveMatrix, move, Matrix.col, Matrix.mul_apply, mulVec, dotProduct]

/-- The square of the length of a vector is at most the square of the radius. -/
theorem randomTranslation_spec {n : Nat} {radius : ℝ} {rs : List (List ℝ)} (hrs : ∀ r ∈ rs, r.length = n) :
    (∀ t, randomTranslation n radius rs = some t → t ⬝ᵥ t ≤ radius ^ 2) ∧
    ((∃ r ∈ rs, sqNorm (r.map (fun x => 2 * x - 1)) ≤ 1) → ∃ t, randomTranslation n radius rs = some t) := by
  obtain ⟨h1, h2⟩ := C55_ball n 1 rs hrs
  unfold randomTranslation
  constructor
  · intro t ht
    cases hs : Sampling.nsphereSampling 1 rs with
    | none => rw [hs] at ht; cases ht
    | some w =>
      obtain ⟨ps, rest⟩ := w
      obtain ⟨h3, h4⟩ := h1 ps rest hs
      obtain ⟨p, rfl⟩ := List.length_eq_one_iff.1 h3
      obtain ⟨h5, h6⟩ := h4 p (by simp)
      rw [hs] at ht
      have ht := Option.some.inj ht
      rw [← ht]
      subst h5
      have e : sqNorm p = ∑ i : Fin p.length, p.getD i 0 * p.getD i 0 := by
        unfold sqNorm
        rw [← Fin.sum_univ_fun_getElem]
        refine Finset.sum_congr rfl fun i _ => ?_
        simp [pow_two, List.getD_eq_getElem?_getD]
      have e2 : (fun i : Fin p.length => p.getD i 0 * radius) ⬝ᵥ (fun i : Fin p.length => p.getD i 0 * radius) = radius ^ 2 * sqNorm p := by
        rw [e, Finset.mul_sum]
        exact Finset.sum_congr rfl fun i _ => by ring
      rw [e2]
      nlinarith [sq_nonneg radius]
  · rintro ⟨r, hr, h⟩
    obtain ⟨ps, rest, h3⟩ := h2 (List.length_pos_iff.2 (List.ne_nil_of_mem (List.mem_filter.2 ⟨hr, by simpa using h⟩)))
    obtain ⟨p, rfl⟩ := List.length_eq_one_iff.1 (h1 ps rest h3).1
    rw [h3]
    exact ⟨_, rfl⟩

/-- **C77** `random_rigid_motion`: for every outcome of the random number generator (`v` is the random point on the sphere) the result in dimension two or
three is a rotation matrix and a translation of length at most `radius`; the function returns if some point of the generator is inside the ball; it
raises ValueError in other dimensions. -/
theorem C77_random_rigid_motion (radius : ℝ) (n : Nat) (u : ℝ) (v : Fin 3 → ℝ) (hv : IsUnit3 v) (rs : List (List ℝ)) (hrs : ∀ r ∈ rs, r.length = n) :
    (∀ m, randomRigidMotion radius n u v rs = .ok (some m) →
      (∃ R t, m = .three R t ∧ n = 3 ∧ IsRotation R ∧ t ⬝ᵥ t ≤ radius ^ 2) ∨ ∃ R t, m = .two R t ∧ n = 2 ∧ IsRotation R ∧ t ⬝ᵥ t ≤ radius ^ 2) ∧
    (n = 2 ∨ n = 3 → (∃ r ∈ rs, sqNorm (r.map (fun x => 2 * x - 1)) ≤ 1) → ∃ m, randomRigidMotion radius n u v rs = .ok (some m)) ∧
    (n ≠ 2 → n ≠ 3 → randomRigidMotion radius n u v rs = .error .value) := by
  obtain ⟨R, hR, hrot, -⟩ := C59_random_3 u v hv
  refine ⟨fun m hm => ?_, fun hn hr => ?_, fun h2 h3 => by simp [randomRigidMotion, h2, h3]⟩
  · unfold randomRigidMotion at hm
    by_cases h3 : n = 3
    · subst h3
      rw [if_pos rfl, hR] at hm
      have hm : (randomTranslation 3 radius rs).map (RigidMotion.three R) = some m := Except.ok.inj hm
      obtain ⟨t, ht, rfl⟩ := Option.map_eq_some_iff.1 hm
      exact .inl ⟨R, t, rfl, rfl, hrot, (randomTranslation_spec hrs).1 t ht⟩
    · rw [if_neg h3] at hm
      by_cases h2 : n = 2
      · subst h2
        rw [if_pos rfl] at hm
        have hm : (randomTranslation 2 radius rs).map (RigidMotion.two (rotationMatrix2 u)) = some m := Except.ok.inj hm
        obtain ⟨t, ht, rfl⟩ := Option.map_eq_some_iff.1 hm
        exact .inr ⟨_, t, rfl, rfl, C54_random_2 u, (randomTranslation_spec hrs).1 t ht⟩
      · rw [if_neg h2] at hm
        cases hm
  · unfold randomRigidMotion
    rcases hn with rfl | rfl
    · obtain ⟨t, ht⟩ := (randomTranslation_spec (radius := radius) hrs).2 hr
      exact ⟨_, by rw [if_neg (by omega), if_pos rfl, ht]; rfl⟩
    · obtain ⟨t, ht⟩ := (randomTranslation_spec (radius := radius) hrs).2 hr
      exact ⟨_, by rw [if_pos rfl, hR, ht]; rfl⟩

/-! ## Examples for C77 -/

example : ∃ B, basisMatrix [[1, 2], [3, 4]] = .ok B ∧ ∀ i j, B i j = ([[1, 2], [3, 4]].getD j []).getD i 0 := by
  obtain ⟨B, h, h', -⟩ := C77_basis_matrix [[1, 2], [3, 4]] (by simp)
  exact ⟨B, h, h'⟩

example : ∃ m, randomRigidMotion 5 2 (1 / 3) ![0, 0, 1] [[1, 1], [1 / 2, 1 / 4]] = .ok (some m) :=
  (C77_random_rigid_motion 5 2 (1 / 3) ![0, 0, 1] (by simp [IsUnit3, dotProduct, Fin.sum_univ_three]) [[1, 1], [1 / 2, 1 / 4]] (by simp)).2.1 (.inl rfl)
    ⟨[1 / 2, 1 / 4], by simp, by norm_num [sqNorm]⟩

end Verif.Props
