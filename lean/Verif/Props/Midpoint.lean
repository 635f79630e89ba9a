import Verif.Lemmas.Midpoint
import Verif.Lemmas.VertexNormals
import Verif.Props.BasicMeshes3
import Verif.Model.Midpoint
/-!
# C72: the midpoint rules
-/

namespace Verif.Midpoint
open Verif Verif.Mesh Verif.Integration MeasureTheory Verif.Spec

section General
variable {d : ℕ}

theorem written_some {α : Type} (l : List α) : written (l.map some) = .ok l := by
  unfold written
  induction l with
  | nil => rfl
  | cons a l ih => rw [List.map_cons, List.mapM_cons]; simp only [Py.bind_ok]; rw [ih]; rfl

theorem foldlM_sum {α : Type} (step : ℝ → α → Py ℝ) (g : α → ℝ) (L : List α) (h : ∀ t ∈ L, ∀ s, step s t = .ok (s + g t)) (s : ℝ) :
    L.foldlM step s = .ok (s + (L.map g).sum) := by
  induction L generalizing s with
  | nil => simp [Py.pure_eq]
  | cons a L ih =>
    rw [List.foldlM_cons, h a List.mem_cons_self, Py.bind_ok, ih (fun t ht => h t (List.mem_cons_of_mem _ ht)), List.map_cons, List.sum_cons, add_assoc]

theorem pos_apply (v : Fin (d + 1) → Fin d → ℝ) (r : ℕ) (ξ : Fin d → ℝ) (j : Fin d) :
    pos v r ξ j = v 0 j + ∑ k, 1 / (r : ℝ) * ξ k * (v k.succ j - v 0 j) := by
  simp [pos, Spec.fromUnit]

theorem pos_sub (v : Fin (d + 1) → Fin d → ℝ) (r : ℕ) (ξ η : Fin d → ℝ) :
    pos v r ξ - pos v r η = ∑ k, (1 / (r : ℝ) * (ξ k - η k)) • (v k.succ - v 0) := by
  funext j
  rw [Pi.sub_apply, pos_apply, pos_apply, Finset.sum_apply, add_sub_add_left_eq_sub, ← Finset.sum_sub_distrib]
  refine Finset.sum_congr rfl (fun k _ => ?_)
  rw [Pi.smul_apply, Pi.sub_apply, smul_eq_mul]
  ring

theorem pos_mid (v w : Fin (d + 1) → Fin d → ℝ) (r : ℕ) : Simplex.centroid (fun i => pos v r (w i)) = pos v r (mid w) := by
  funext j
  have h2 : ((d + 1 : ℕ) : ℝ) ≠ 0 := by positivity
  rw [pos_apply]
  unfold Simplex.centroid
  simp only [pos_apply]
  rw [Finset.sum_add_distrib, Finset.sum_comm, Finset.sum_const, Finset.card_univ, Fintype.card_fin, nsmul_eq_mul, add_div,
    mul_div_cancel_left₀ _ h2, Finset.sum_div]
  congr 1
  refine Finset.sum_congr rfl (fun k _ => ?_)
  rw [← Finset.sum_mul, ← Finset.mul_sum, mid]
  ring

theorem len_sum {n m : ℕ} (c : Fin m → ℝ) (e : Fin m → Fin n → ℝ) : len (∑ k, c k • e k) ≤ ∑ k, |c k| * len (e k) := by
  have : ∀ s : Finset (Fin m), len (∑ k ∈ s, c k • e k) ≤ ∑ k ∈ s, |c k| * len (e k) := by
    intro s
    induction s using Finset.induction with
    | empty => simp [len]
    | insert a s ha ih =>
      rw [Finset.sum_insert ha, Finset.sum_insert ha]
      refine (SimplexGeometry.len_triangle _ _).trans ?_
      rw [SimplexGeometry.len_smul]
      exact add_le_add_right ih _
  exact this Finset.univ

/-- Two points of the same lattice cube. -/
theorem pos_close (v : Fin (d + 1) → Fin d → ℝ) (r : ℕ) (p : Fin d → ℕ) (ξ η : Fin d → ℝ) (h1 : InCube p ξ) (h2 : InCube p η) :
    len (pos v r ξ - pos v r η) ≤ (∑ k : Fin d, len (v k.succ - v 0)) / r := by
  rw [pos_sub, Finset.sum_div]
  refine (len_sum _ _).trans (Finset.sum_le_sum fun k _ => ?_)
  rw [abs_mul, abs_of_nonneg (by positivity : (0 : ℝ) ≤ 1 / (r : ℝ))]
  have h3 : |ξ k - η k| ≤ 1 := by
    rw [abs_le]
    constructor <;> linarith [(h1 k).1, (h1 k).2, (h2 k).1, (h2 k).2]
  have h0 : 0 ≤ len (v k.succ - v 0) := Real.sqrt_nonneg _
  calc 1 / (r : ℝ) * |ξ k - η k| * len (v k.succ - v 0) ≤ 1 / (r : ℝ) * 1 * len (v k.succ - v 0) := by gcongr
    _ = _ := by ring

/-- The error of the midpoint rule in terms of the function on the simplex. -/
theorem midpoint_error_cubes (r : ℕ) (hr : 1 ≤ r) (cells : List (List (Fin d → ℕ))) (hl : ∀ P ∈ cells, P.length = d + 1)
    (hdet : ∀ P ∈ cells, |(edges (cellVerts P)).det| = 1) (ht : LTiles cells (T d r)) (hN : cells.length = r ^ d)
    (hc : ∀ P ∈ cells, ∃ p, ∀ ξ : Fin d → ℝ, LIn P ξ → InCube p ξ)
    (v : Fin (d + 1) → Fin d → ℝ) (f : (Fin d → ℝ) → ℝ) (hf : ContinuousOn f (Spec.simplex v)) (ε : ℝ)
    (h : ∀ c ∈ Spec.simplex v, ∃ l : (Fin d → ℝ) →ₗ[ℝ] ℝ, ∀ x ∈ Spec.simplex v, len (x - c) ≤ (∑ k : Fin d, len (v k.succ - v 0)) / r →
      |f x - f c - l (x - c)| ≤ ε) :
    |(cells.map fun P => |(edges v).det| / (d.factorial : ℝ) / (r : ℝ) ^ d * f (pos v r (mid (cellVerts P)))).sum - ∫ x in Spec.simplex v, f x| ≤
      |(edges v).det| / (d.factorial : ℝ) * ε := by
  refine midpoint_error r hr cells hl hdet ht hN v f hf ε (fun P hP => ?_)
  have hin : ∀ ξ ∈ Spec.simplex (cellVerts P), ξ ∈ T d r := fun ξ hξ => ht.inside P hP ξ ((lin_iff P (hl P hP) ξ).2 hξ)
  obtain ⟨p, hp⟩ := hc P hP
  have hcube : ∀ ξ ∈ Spec.simplex (cellVerts P), InCube p ξ := fun ξ hξ => hp ξ ((lin_iff P (hl P hP) ξ).2 hξ)
  obtain ⟨l, hlin⟩ := h (pos v r (mid (cellVerts P))) (pos_mem v r hr _ (hin _ (mid_mem _)))
  let A : (Fin d → ℝ) →ₗ[ℝ] (Fin d → ℝ) :=
    { toFun := fun ζ => ∑ k, (1 / (r : ℝ) * ζ k) • (v k.succ - v 0)
      map_add' := fun x y => by
        simp only [Pi.add_apply, mul_add, add_smul, Finset.sum_add_distrib]
      map_smul' := fun c x => by
        simp only [Pi.smul_apply, smul_eq_mul, RingHom.id_apply, Finset.smul_sum, smul_smul]
        refine Finset.sum_congr rfl fun k _ => ?_
        congr 1
        ring }
  refine ⟨l.comp A, fun ξ hξ => ?_⟩
  have e : A (ξ - mid (cellVerts P)) = pos v r ξ - pos v r (mid (cellVerts P)) := (pos_sub v r ξ _).symm
  rw [LinearMap.comp_apply, e]
  exact hlin _ (pos_mem v r hr _ (hin _ hξ)) (pos_close v r p _ _ (hcube _ hξ) (hcube _ (mid_mem _)))

end General

/-! ## Triangles -/

theorem tri_cells (r : ℕ) (P : List (Fin 2 → ℕ)) (hP : P ∈ (triSquares r).flatMap (triCells r)) :
    P.length = 3 ∧ |(edges (cellVerts P)).det| = 1 ∧ ∃ p, ∀ ξ : Fin 2 → ℝ, LIn P ξ → InCube p ξ := by
  obtain ⟨-, ⟨p, -, hp⟩, -⟩ := tri_points hP
  rcases hp with rfl | ⟨rfl, -⟩
  · refine ⟨rfl, ?_, p, fun ξ hξ => ?_⟩
    · rw [Matrix.det_fin_two]
      simp [edges, cellVerts, lower]
    · rw [(bary_lower p).lin] at hξ
      simp at hξ
      intro k
      match k with
      | 0 => constructor <;> linarith
      | 1 => constructor <;> linarith
  · refine ⟨rfl, ?_, p, fun ξ hξ => ?_⟩
    · rw [Matrix.det_fin_two]
      simp [edges, cellVerts, upper]
    · rw [(bary_upper p).lin] at hξ
      simp at hξ
      intro k
      match k with
      | 0 => constructor <;> linarith
      | 1 => constructor <;> linarith

theorem tri_region (r : ℕ) : {ξ : Fin 2 → ℝ | 0 ≤ ξ 0 ∧ 0 ≤ ξ 1 ∧ ξ 0 + ξ 1 ≤ r} = T 2 r := by
  ext ξ
  simp [T, Fin.forall_fin_two, Fin.sum_univ_two, and_assoc]

theorem tri_length (r : ℕ) : ((triSquares r).flatMap (triCells r)).length = r ^ 2 := by
  have := triangleRows_length (r + 1) (by omega)
  rw [triangleRows_eq _ (by omega), List.length_map] at this
  exact this

theorem triangle_vertex (v : Fin 3 → Fin 2 → ℝ) (r : ℕ) (p : Fin 2 → ℕ) (hp : p 0 + p 1 < r + 1) :
    ((generalTriangleVertexRows (List.ofFn (v 0)) (List.ofFn (v 1)) (List.ofFn (v 2)) (r + 1)).map (vec 2))[triIdx (r + 1) p]? =
      some (pos v r fun k => (p k : ℝ)) := by
  rw [List.getElem?_map]
  unfold generalTriangleVertexRows
  rw [triIdx, get_triangle (r + 1) (fun row col => List.zipWith (· + ·) (List.zipWith (· + ·) ((List.ofFn (v 0)).map
      ((1 - (col : ℝ) / (((r + 1 : ℕ) : ℝ) - 1) - (row : ℝ) / (((r + 1 : ℕ) : ℝ) - 1)) * ·))
      ((List.ofFn (v 1)).map ((col : ℝ) / (((r + 1 : ℕ) : ℝ) - 1) * ·))) ((List.ofFn (v 2)).map ((row : ℝ) / (((r + 1 : ℕ) : ℝ) - 1) * ·))) (p 1) (p 0) hp,
    Option.map_some, Option.some.injEq]
  funext j
  rw [pos_apply, Fin.sum_univ_two]
  have e : ((r + 1 : ℕ) : ℝ) - 1 = r := by push_cast; ring
  rw [e]
  fin_cases j <;> simp [vec] <;> ring

/-- What `quadrature_triangle_midpoint_rule` computes. -/
theorem triangleMidpointRule_eq (f : ℝ → ℝ → ℝ) (v : Fin 3 → Fin 2 → ℝ) (r : ℕ) (hr : 1 ≤ r) :
    triangleMidpointRule f v r = .ok (((triSquares r).flatMap (triCells r)).map fun P =>
      |(edges v).det| / 2 / (r : ℝ) ^ 2 * f (pos v r (mid (cellVerts P)) 0) (pos v r (mid (cellVerts P)) 1)).sum := by
  have hlen : (generalTriangleVertexRows (List.ofFn (v 0)) (List.ofFn (v 1)) (List.ofFn (v 2)) (r + 1)).length = (r + 1) * (r + 1 + 1) / 2 := by
    unfold generalTriangleVertexRows
    rw [flatMap_rows_length (r + 1) (r + 1) le_rfl _ (fun i _ => by simp), off_self]
  have h1 : triangleTriangulation (r + 1) = .ok ((triangleRows (r + 1)).map some) := fillRows_exact _ _ (triangleRows_length (r + 1) (by omega))
  have h2 : generalTriangleVertices (List.ofFn (v 0)) (List.ofFn (v 1)) (List.ofFn (v 2)) (r + 1) =
      .ok ((generalTriangleVertexRows (List.ofFn (v 0)) (List.ofFn (v 1)) (List.ofFn (v 2)) (r + 1)).map some) := by
    unfold generalTriangleVertices
    rw [if_neg (by omega), fillRows_exact _ _ hlen]
  have h3 : Triangle.area v = .ok (|(edges v).det| / 2) := by
    have hd : |Triangle.cross2 (Triangle.edges v 0) (Triangle.edges v 1)| = |(edges v).det| := by
      congr 1
      rw [Matrix.det_fin_two]
      simp [Triangle.cross2, Triangle.edges, edges]
      ring
    show Except.ok (1 / 2 * |Triangle.cross2 (Triangle.edges v 0) (Triangle.edges v 1)|) = _
    rw [hd]
    congr 1
    ring
  unfold triangleMidpointRule
  rw [h1, Py.bind_ok, h2, Py.bind_ok, written_some, Py.bind_ok, written_some, Py.bind_ok, h3, Py.bind_ok]
  simp only
  rw [triangleRows_length (r + 1) (by omega), Nat.add_sub_cancel, triangleRows_eq _ (by omega), Nat.add_sub_cancel]
  rw [foldlM_sum _ (fun t => |(edges v).det| / 2 / (r : ℝ) ^ 2 *
    f (Simplex.centroid (corners ((generalTriangleVertexRows (List.ofFn (v 0)) (List.ofFn (v 1)) (List.ofFn (v 2)) (r + 1)).map (vec 2)) fun j => t.getD j 0) 0)
      (Simplex.centroid (corners ((generalTriangleVertexRows (List.ofFn (v 0)) (List.ofFn (v 1)) (List.ofFn (v 2)) (r + 1)).map (vec 2)) fun j => t.getD j 0) 1))]
  · rw [zero_add, List.map_map]
    congr 2
    refine List.map_congr_left (fun P hP => ?_)
    have hq := (tri_points hP).2.2
    have hl := (tri_cells r P hP).1
    have e : corners ((generalTriangleVertexRows (List.ofFn (v 0)) (List.ofFn (v 1)) (List.ofFn (v 2)) (r + 1)).map (vec 2))
        (fun j => (P.map (triIdx (r + 1))).getD j 0) = fun i => pos v r (cellVerts P i) := by
      funext i
      have hi : i.val < P.length := by rw [hl]; exact i.2
      have hget : (P.map (triIdx (r + 1))).getD i 0 = triIdx (r + 1) P[i.val] := by
        rw [TriMesh.getD_lt (by simpa using hi), List.getElem_map]
      unfold corners
      simp only
      rw [hget, List.getD, triangle_vertex v r P[i.val] (by have := hq _ (List.getElem_mem hi); omega), Option.getD_some]
      congr 1
      funext k
      unfold cellVerts
      rw [TriMesh.getD_lt hi]
    simp only [Function.comp]
    rw [e, pos_mid]
  · intro t ht s
    obtain ⟨P, hP, rfl⟩ := List.mem_map.1 ht
    have hl := (tri_cells r P hP).1
    unfold triangleStep
    rw [TriMesh.meshVertices_ok, Py.bind_ok]
    · simp [Py.pure_eq]
    · intro j
      have hj : j.val < P.length := by rw [hl]; exact j.2
      have hget : (P.map (triIdx (r + 1))).getD j 0 = triIdx (r + 1) P[j.val] := by
        rw [TriMesh.getD_lt (by simpa using hj), List.getElem_map]
      rw [hget, List.length_map, hlen]
      exact off_lt (r + 1) _ _ ((tri_points hP).2.2 _ (List.getElem_mem hj))

theorem vec2_eq (w : Fin 2 → ℝ) : ![w 0, w 1] = w := by
  funext i
  fin_cases i <;> rfl

theorem continuousOn_of_lipschitz {d : ℕ} (S : Set (Fin d → ℝ)) (f : (Fin d → ℝ) → ℝ) (L : ℝ)
    (h : ∀ x ∈ S, ∀ y ∈ S, |f x - f y| ≤ L * len (x - y)) : ContinuousOn f S := by
  intro c hc
  rw [ContinuousWithinAt, tendsto_iff_norm_sub_tendsto_zero]
  have h2 : Filter.Tendsto (fun x : Fin d → ℝ => L * len (x - c)) (nhdsWithin c S) (nhds 0) := by
    have hcont : Continuous (fun x : Fin d → ℝ => L * len (x - c)) := by unfold len; fun_prop
    have := (hcont.tendsto c).mono_left (nhdsWithin_le_nhds (s := S))
    simpa [len] using this
  refine squeeze_zero' (Filter.Eventually.of_forall fun x => norm_nonneg _) ?_ h2
  filter_upwards [self_mem_nhdsWithin] with x hx
  rw [Real.norm_eq_abs]
  exact h x hx c hc

/-- **C72** `quadrature_triangle_midpoint_rule(f, vertices, n)` for `n ≥ 1`, any triangle and any continuous function: if around every point of the
triangle, up to the distance (sum of the lengths of two edges) / `n`, the function differs by at most `ε` from an affine function with the same value
at that point, then the result differs from the integral over the triangle by at most `ε` times the area. -/
theorem C72_triangle (n : ℕ) (hn : 1 ≤ n) (v : Fin 3 → Fin 2 → ℝ) (f : (Fin 2 → ℝ) → ℝ) (hf : ContinuousOn f (Spec.simplex v)) (ε : ℝ)
    (h : ∀ c ∈ Spec.simplex v, ∃ l : (Fin 2 → ℝ) →ₗ[ℝ] ℝ, ∀ x ∈ Spec.simplex v, len (x - c) ≤ (len (v 1 - v 0) + len (v 2 - v 0)) / n →
      |f x - f c - l (x - c)| ≤ ε) :
    ∃ q, triangleMidpointRule (fun x y => f ![x, y]) v n = .ok q ∧ |q - ∫ x in Spec.simplex v, f x| ≤ |edgeDet v| / 2 * ε := by
  refine ⟨_, triangleMidpointRule_eq _ v n hn, ?_⟩
  have ht := tri_tiles (K := ℝ) n hn
  rw [tri_region] at ht
  have := midpoint_error_cubes n hn _ (fun P hP => (tri_cells n P hP).1) (fun P hP => (tri_cells n P hP).2.1) ht (tri_length n)
    (fun P hP => (tri_cells n P hP).2.2) v f hf ε (by
      rw [Fin.sum_univ_two]
      exact h)
  simp only [vec2_eq]
  exact this

/-- **C72** The rule is exact for affine functions. -/
theorem C72_triangle_affine (n : ℕ) (hn : 1 ≤ n) (v : Fin 3 → Fin 2 → ℝ) (a b c : ℝ) :
    triangleMidpointRule (fun x y => a + b * x + c * y) v n = .ok (∫ x in Spec.simplex v, (a + b * x 0 + c * x 1)) := by
  obtain ⟨q, h1, h2⟩ := C72_triangle n hn v (fun x => a + b * x 0 + c * x 1) (Continuous.continuousOn (by fun_prop)) 0 (fun p _ =>
    ⟨b • LinearMap.proj 0 + c • LinearMap.proj 1, fun x _ _ => by simp; ring_nf⟩)
  have : q = ∫ x in Spec.simplex v, (a + b * x 0 + c * x 1) := by
    rw [mul_zero] at h2
    exact sub_eq_zero.1 (abs_nonpos_iff.1 h2)
  rw [← this]
  exact h1

/-- **C72** For a function with Lipschitz constant `L` the error is at most the area times `L` times (sum of the lengths of two edges) / `n`. -/
theorem C72_triangle_lipschitz (n : ℕ) (hn : 1 ≤ n) (v : Fin 3 → Fin 2 → ℝ) (f : (Fin 2 → ℝ) → ℝ) (L : ℝ) (hL : 0 ≤ L)
    (hf : ∀ x ∈ Spec.simplex v, ∀ y ∈ Spec.simplex v, |f x - f y| ≤ L * len (x - y)) :
    ∃ q, triangleMidpointRule (fun x y => f ![x, y]) v n = .ok q ∧
      |q - ∫ x in Spec.simplex v, f x| ≤ |edgeDet v| / 2 * (L * ((len (v 1 - v 0) + len (v 2 - v 0)) / n)) :=
  C72_triangle n hn v f (continuousOn_of_lipschitz _ f L hf) _ fun c hc => ⟨0, fun x hx hxc => by
    rw [LinearMap.zero_apply, sub_zero]
    exact (hf x hx c hc).trans (mul_le_mul_of_nonneg_left hxc hL)⟩

/-- **C72** For a function that is approximated to second order by affine functions (a function with second derivatives bounded by `2 M`) the error
is at most the area times `M` times the square of (sum of the lengths of two edges) / `n`. -/
theorem C72_triangle_second_order (n : ℕ) (hn : 1 ≤ n) (v : Fin 3 → Fin 2 → ℝ) (f : (Fin 2 → ℝ) → ℝ) (hf : ContinuousOn f (Spec.simplex v)) (M : ℝ)
    (hM : 0 ≤ M) (h : ∀ c ∈ Spec.simplex v, ∃ l : (Fin 2 → ℝ) →ₗ[ℝ] ℝ, ∀ x ∈ Spec.simplex v, |f x - f c - l (x - c)| ≤ M * len (x - c) ^ 2) :
    ∃ q, triangleMidpointRule (fun x y => f ![x, y]) v n = .ok q ∧
      |q - ∫ x in Spec.simplex v, f x| ≤ |edgeDet v| / 2 * (M * ((len (v 1 - v 0) + len (v 2 - v 0)) / n) ^ 2) :=
  C72_triangle n hn v f hf _ fun c hc => by
    obtain ⟨l, hl⟩ := h c hc
    exact ⟨l, fun x hx hxc => (hl x hx).trans (mul_le_mul_of_nonneg_left (pow_le_pow_left₀ (Real.sqrt_nonneg _) hxc 2) hM)⟩

theorem uniform {d : ℕ} (S : Set (Fin d → ℝ)) (hS : IsCompact S) (f : (Fin d → ℝ) → ℝ) (hf : ContinuousOn f S) (ε : ℝ) (hε : 0 < ε) :
    ∃ δ > 0, ∀ x ∈ S, ∀ y ∈ S, len (x - y) ≤ δ → |f x - f y| ≤ ε := by
  have hu := hS.uniformContinuousOn_of_continuous hf
  rw [Metric.uniformContinuousOn_iff] at hu
  obtain ⟨δ, hδ, h⟩ := hu ε hε
  refine ⟨δ / 2, by linarith, fun x hx y hy hxy => ?_⟩
  have hd : dist x y < δ := by
    refine lt_of_le_of_lt ((dist_pi_le_iff (by linarith : (0 : ℝ) ≤ δ / 2)).2 fun j => ?_) (by linarith : δ / 2 < δ)
    rw [Real.dist_eq]
    refine le_trans ?_ hxy
    unfold len
    rw [← Real.sqrt_sq_eq_abs]
    exact Real.sqrt_le_sqrt (Finset.single_le_sum (f := fun a => (x - y) a ^ 2) (fun a _ => sq_nonneg _) (Finset.mem_univ j))
  have := h x hx y hy hd
  rw [Real.dist_eq] at this
  exact this.le

/-- **C72** For every continuous function the results converge to the integral. -/
theorem C72_triangle_converges (v : Fin 3 → Fin 2 → ℝ) (f : (Fin 2 → ℝ) → ℝ) (hf : ContinuousOn f (Spec.simplex v)) (ε : ℝ) (hε : 0 < ε) :
    ∃ N, ∀ n ≥ N, ∃ q, triangleMidpointRule (fun x y => f ![x, y]) v n = .ok q ∧ |q - ∫ x in Spec.simplex v, f x| ≤ ε := by
  have pa : (0 : ℝ) ≤ |edgeDet v| / 2 := by positivity
  obtain ⟨δ, hδ, h⟩ := uniform _ (isCompact_simplex v) f hf (ε / (|edgeDet v| / 2 + 1)) (by positivity)
  obtain ⟨N, hN⟩ := exists_nat_gt ((len (v 1 - v 0) + len (v 2 - v 0)) / δ)
  refine ⟨N + 1, fun n hn => ?_⟩
  have pn : (0 : ℝ) < n := by exact_mod_cast (by omega : 0 < n)
  have hle : (len (v 1 - v 0) + len (v 2 - v 0)) / n ≤ δ := by
    rw [div_lt_iff₀ hδ] at hN
    rw [div_le_iff₀ pn]
    have : (N : ℝ) ≤ n := by exact_mod_cast (by omega : N ≤ n)
    nlinarith
  obtain ⟨q, h1, h2⟩ := C72_triangle n (by omega) v f hf (ε / (|edgeDet v| / 2 + 1)) fun c hc => ⟨0, fun x hx hxc => by
    rw [LinearMap.zero_apply, sub_zero]
    exact h x hx c hc (hxc.trans hle)⟩
  refine ⟨q, h1, h2.trans ?_⟩
  rw [mul_div_assoc', div_le_iff₀ (by positivity)]
  nlinarith

/-- **C72** Without any subdivision the triangle rule divides by zero. -/
theorem C72_triangle_zero (f : ℝ → ℝ → ℝ) (v : Fin 3 → Fin 2 → ℝ) : triangleMidpointRule f v 0 = .error .zeroDivision := by
  unfold triangleMidpointRule
  have h1 : triangleTriangulation (0 + 1) = .ok ((triangleRows (0 + 1)).map some) := fillRows_exact _ _ (triangleRows_length (0 + 1) (by omega))
  rw [h1, Py.bind_ok]
  rfl

/-! ## Tetrahedra -/

theorem tet_cells (r : ℕ) (P : List (Fin 3 → ℕ)) (hP : P ∈ (tetCubes r).flatMap (tetCells r)) :
    P.length = 4 ∧ |(edges (cellVerts P)).det| = 1 ∧ (∃ p, ∀ ξ : Fin 3 → ℝ, LIn P ξ → InCube p ξ) ∧ ∀ q ∈ P, q 0 + q 1 + q 2 ≤ r := by
  obtain ⟨p, hp, hP⟩ := List.mem_flatMap.1 hP
  have hs := (tetCells_sublist r p).subset hP
  refine ⟨(sixTets_nodup p P hs).1, ?_, ⟨p, fun ξ hξ => sixTets_in p P hs ξ hξ⟩, ?_⟩
  · simp only [sixTets, List.mem_cons, List.not_mem_nil, or_false] at hs
    rcases hs with rfl | rfl | rfl | rfl | rfl | rfl <;> rw [Matrix.det_fin_three] <;>
      simp [edges, cellVerts, tet1, tet2, tet3, tet4, tet5, tet6]
  · intro q hq
    unfold tetCells at hP
    by_cases h1 : p 0 + p 1 + p 2 + 2 < r
    · rw [if_pos h1] at hP
      simp only [sixTets, List.mem_cons, List.not_mem_nil, or_false] at hP
      rcases hP with rfl | rfl | rfl | rfl | rfl | rfl <;>
        simp only [tet1, tet2, tet3, tet4, tet5, tet6, List.mem_cons, List.not_mem_nil, or_false] at hq <;>
        rcases hq with rfl | rfl | rfl | rfl <;> simp <;> omega
    · rw [if_neg h1] at hP
      by_cases h2 : p 0 + p 1 + p 2 + 2 = r
      · rw [if_pos h2] at hP
        simp only [fiveTets, List.mem_cons, List.not_mem_nil, or_false] at hP
        rcases hP with rfl | rfl | rfl | rfl | rfl <;>
          simp only [tet1, tet2, tet3, tet4, tet5, List.mem_cons, List.not_mem_nil, or_false] at hq <;>
          rcases hq with rfl | rfl | rfl | rfl <;> simp <;> omega
      · rw [if_neg h2] at hP
        by_cases h3 : p 0 + p 1 + p 2 + 1 = r
        · rw [if_pos h3, List.mem_singleton] at hP
          subst hP
          simp only [tet1, List.mem_cons, List.not_mem_nil, or_false] at hq
          rcases hq with rfl | rfl | rfl | rfl <;> simp <;> omega
        · rw [if_neg h3] at hP
          simp at hP

theorem tet_region (r : ℕ) : {ξ : Fin 3 → ℝ | 0 ≤ ξ 0 ∧ 0 ≤ ξ 1 ∧ 0 ≤ ξ 2 ∧ ξ 0 + ξ 1 + ξ 2 ≤ r} = T 3 r := by
  ext ξ
  simp [T, Fin.forall_fin_succ, Fin.sum_univ_three, and_assoc]

theorem tet_length (r : ℕ) : ((tetCubes r).flatMap (tetCells r)).length = r ^ 3 := by
  have := tetRows_length r
  rwa [tetRows, List.length_map] at this

/-- The vertices computed by `general_tetrahedron_vertices`. -/
noncomputable def tetVerts (v : Fin 4 → Fin 3 → ℝ) (r : ℕ) : List (Fin 3 → ℝ) :=
  (MI.mis 3 r).map fun mi => pos v r ![(mi.getD 0 0 : ℝ), (mi.getD 1 0 : ℝ), (mi.getD 2 0 : ℝ)]

theorem generalTetrahedronVertices_eq (v : Fin 4 → Fin 3 → ℝ) (r : ℕ) (hr : 1 ≤ r) : generalTetrahedronVertices v (r + 1) = .ok (tetVerts v r) := by
  unfold generalTetrahedronVertices tetrahedronVertices Simplex.affineFromUnit
  rw [decide_eq_true (by omega), pyAssert_true, Py.bind_ok, Py.bind_ok, fillRows_exact _ _ (tetrahedronVertexRows_length r), Py.bind_ok,
    written_some, Py.bind_ok]
  simp only [le_refl, decide_true, pyAssert_true, Py.bind_ok, Py.pure_eq]
  rw [tetrahedronVertexRows_eq, List.map_map, tetVerts]
  congr 1
  refine List.map_congr_left (fun mi _ => ?_)
  funext j
  rw [pos_apply]
  simp [vec, Matrix.mulVec, dotProduct, Fin.sum_univ_three]
  ring

theorem tet_vertex (v : Fin 4 → Fin 3 → ℝ) (r : ℕ) (p : Fin 3 → ℕ) (hp : p 0 + p 1 + p 2 ≤ r) :
    (tetVerts v r)[tetIdx r p]? = some (pos v r fun k => (p k : ℝ)) := by
  have hmem : [p 0, p 1, p 2] ∈ MI.mis 3 r := MI.mem_mis.2 ⟨rfl, by simp; omega⟩
  rw [tetVerts, List.getElem?_map, tetIdx, List.getElem?_idxOf hmem, Option.map_some, Option.some.injEq]
  congr 1
  funext k
  fin_cases k <;> simp

/-- What `quadrature_tetrahedron_midpoint_rule` computes. -/
theorem tetrahedronMidpointRule_eq (f : ℝ → ℝ → ℝ → ℝ) (v : Fin 4 → Fin 3 → ℝ) (r : ℕ) (hr : 1 ≤ r) :
    tetrahedronMidpointRule f v r = .ok (((tetCubes r).flatMap (tetCells r)).map fun P =>
      |(edges v).det| / 6 / (r : ℝ) ^ 3 *
        f (pos v r (mid (cellVerts P)) 0) (pos v r (mid (cellVerts P)) 1) (pos v r (mid (cellVerts P)) 2)).sum := by
  have hvol : Simplex.volume v = |(edges v).det| / 6 := by
    have e : (Nat.factorial 3 : ℝ) = 6 := by norm_num [Nat.factorial]
    show |(edges v).det / (Nat.factorial 3 : ℝ)| = _
    rw [e, abs_div, abs_of_pos (by norm_num : (0 : ℝ) < 6)]
  unfold tetrahedronMidpointRule
  rw [tetrahedronTriangulation_eq r hr, Py.bind_ok, generalTetrahedronVertices_eq v r hr, Py.bind_ok, written_some, Py.bind_ok]
  simp only
  rw [tetRows_length, hvol, tetRows]
  have hv : ∀ P ∈ (tetCubes r).flatMap (tetCells r), Complex.simplexVertices (P.map (tetIdx r)) (tetVerts v r) =
      .ok (P.map fun p => pos v r fun k => (p k : ℝ)) := by
    intro P hP
    obtain ⟨h1, -, -, h2⟩ := tet_cells r P hP
    have hget : ∀ p ∈ P, getE (tetVerts v r) (tetIdx r p) = .ok (pos v r fun k => (p k : ℝ)) := by
      intro p hp
      have := tet_vertex v r p (h2 p hp)
      obtain ⟨hlt, he⟩ := List.getElem?_eq_some_iff.1 this
      rw [getE_ok hlt, he]
    unfold Complex.simplexVertices
    have h0 : 0 < (tetVerts v r).length := by
      rw [tetVerts, List.length_map]
      exact List.length_pos_of_mem (MI.mem_mis.2 (⟨rfl, by simp⟩ : [0, 0, 0].length = 3 ∧ [0, 0, 0].sum ≤ r))
    rw [getE_ok h0, Py.bind_ok]
    have : (P.map (tetIdx r)).mapM (fun i => getE (tetVerts v r) i) = P.mapM (fun p => getE (tetVerts v r) (tetIdx r p)) := by
      rw [List.mapM_map]
      rfl
    rw [this]
    exact mapM_eq_ok _ _ hget
  rw [foldlM_sum _ (fun t => match Complex.simplexVertices t (tetVerts v r) with
    | .ok w => |(edges v).det| / 6 / ((r ^ 3 : ℕ) : ℝ) * f (Simplex.centroid (rows4 w) 0) (Simplex.centroid (rows4 w) 1) (Simplex.centroid (rows4 w) 2)
    | .error _ => 0)]
  · rw [zero_add, List.map_map]
    congr 2
    refine List.map_congr_left (fun P hP => ?_)
    obtain ⟨h1, -, -, h2⟩ := tet_cells r P hP
    simp only [Function.comp]
    rw [hv P hP]
    have e : rows4 (P.map fun p => pos v r fun k => (p k : ℝ)) = fun i => pos v r (cellVerts P i) := by
      funext i
      have hi : i.val < P.length := by rw [h1]; exact i.2
      unfold rows4
      rw [TriMesh.getD_lt (by simpa using hi), List.getElem_map]
      congr 1
      funext k
      unfold cellVerts
      rw [TriMesh.getD_lt hi]
    simp only
    rw [e, pos_mid]
    push_cast
    rfl
  · intro t ht s
    obtain ⟨P, hP, rfl⟩ := List.mem_map.1 ht
    unfold tetrahedronStep
    rw [hv P hP]
    rfl

theorem vec3_eq (w : Fin 3 → ℝ) : ![w 0, w 1, w 2] = w := by
  funext i
  fin_cases i <;> rfl

/-- **C72** `quadrature_tetrahedron_midpoint_rule(f, vertices, n)` for `n ≥ 1`, any tetrahedron and any continuous function, in the same way. -/
theorem C72_tetrahedron (n : ℕ) (hn : 1 ≤ n) (v : Fin 4 → Fin 3 → ℝ) (f : (Fin 3 → ℝ) → ℝ) (hf : ContinuousOn f (Spec.simplex v)) (ε : ℝ)
    (h : ∀ c ∈ Spec.simplex v, ∃ l : (Fin 3 → ℝ) →ₗ[ℝ] ℝ, ∀ x ∈ Spec.simplex v,
      len (x - c) ≤ (len (v 1 - v 0) + len (v 2 - v 0) + len (v 3 - v 0)) / n → |f x - f c - l (x - c)| ≤ ε) :
    ∃ q, tetrahedronMidpointRule (fun x y z => f ![x, y, z]) v n = .ok q ∧ |q - ∫ x in Spec.simplex v, f x| ≤ |edgeDet v| / 6 * ε := by
  refine ⟨_, tetrahedronMidpointRule_eq _ v n hn, ?_⟩
  have ht := tet_tiles (K := ℝ) n hn
  rw [tet_region] at ht
  have := midpoint_error_cubes n hn _ (fun P hP => (tet_cells n P hP).1) (fun P hP => (tet_cells n P hP).2.1) ht (tet_length n)
    (fun P hP => (tet_cells n P hP).2.2.1) v f hf ε (by
      rw [Fin.sum_univ_three]
      exact h)
  have e : (Nat.factorial 3 : ℝ) = 6 := by norm_num [Nat.factorial]
  rw [e] at this
  simp only [vec3_eq]
  exact this

/-- **C72** The rule is exact for affine functions. -/
theorem C72_tetrahedron_affine (n : ℕ) (hn : 1 ≤ n) (v : Fin 4 → Fin 3 → ℝ) (a b c e : ℝ) :
    tetrahedronMidpointRule (fun x y z => a + b * x + c * y + e * z) v n = .ok (∫ x in Spec.simplex v, (a + b * x 0 + c * x 1 + e * x 2)) := by
  obtain ⟨q, h1, h2⟩ := C72_tetrahedron n hn v (fun x => a + b * x 0 + c * x 1 + e * x 2) (Continuous.continuousOn (by fun_prop)) 0 (fun p _ =>
    ⟨b • LinearMap.proj 0 + c • LinearMap.proj 1 + e • LinearMap.proj 2, fun x _ _ => by simp; ring_nf⟩)
  have : q = ∫ x in Spec.simplex v, (a + b * x 0 + c * x 1 + e * x 2) := by
    rw [mul_zero] at h2
    exact sub_eq_zero.1 (abs_nonpos_iff.1 h2)
  rw [← this]
  exact h1

/-- **C72** For a function with Lipschitz constant `L` the error is at most the volume times `L` times (sum of the lengths of three edges) / `n`. -/
theorem C72_tetrahedron_lipschitz (n : ℕ) (hn : 1 ≤ n) (v : Fin 4 → Fin 3 → ℝ) (f : (Fin 3 → ℝ) → ℝ) (L : ℝ) (hL : 0 ≤ L)
    (hf : ∀ x ∈ Spec.simplex v, ∀ y ∈ Spec.simplex v, |f x - f y| ≤ L * len (x - y)) :
    ∃ q, tetrahedronMidpointRule (fun x y z => f ![x, y, z]) v n = .ok q ∧
      |q - ∫ x in Spec.simplex v, f x| ≤ |edgeDet v| / 6 * (L * ((len (v 1 - v 0) + len (v 2 - v 0) + len (v 3 - v 0)) / n)) :=
  C72_tetrahedron n hn v f (continuousOn_of_lipschitz _ f L hf) _ fun c hc => ⟨0, fun x hx hxc => by
    rw [LinearMap.zero_apply, sub_zero]
    exact (hf x hx c hc).trans (mul_le_mul_of_nonneg_left hxc hL)⟩

/-- **C72** For a function that is approximated to second order by affine functions the error is at most the volume times `M` times the square of
(sum of the lengths of three edges) / `n`. -/
theorem C72_tetrahedron_second_order (n : ℕ) (hn : 1 ≤ n) (v : Fin 4 → Fin 3 → ℝ) (f : (Fin 3 → ℝ) → ℝ) (hf : ContinuousOn f (Spec.simplex v)) (M : ℝ)
    (hM : 0 ≤ M) (h : ∀ c ∈ Spec.simplex v, ∃ l : (Fin 3 → ℝ) →ₗ[ℝ] ℝ, ∀ x ∈ Spec.simplex v, |f x - f c - l (x - c)| ≤ M * len (x - c) ^ 2) :
    ∃ q, tetrahedronMidpointRule (fun x y z => f ![x, y, z]) v n = .ok q ∧
      |q - ∫ x in Spec.simplex v, f x| ≤ |edgeDet v| / 6 * (M * ((len (v 1 - v 0) + len (v 2 - v 0) + len (v 3 - v 0)) / n) ^ 2) :=
  C72_tetrahedron n hn v f hf _ fun c hc => by
    obtain ⟨l, hl⟩ := h c hc
    exact ⟨l, fun x hx hxc => (hl x hx).trans (mul_le_mul_of_nonneg_left (pow_le_pow_left₀ (Real.sqrt_nonneg _) hxc 2) hM)⟩

/-- **C72** For every continuous function the results converge to the integral. -/
theorem C72_tetrahedron_converges (v : Fin 4 → Fin 3 → ℝ) (f : (Fin 3 → ℝ) → ℝ) (hf : ContinuousOn f (Spec.simplex v)) (ε : ℝ) (hε : 0 < ε) :
    ∃ N, ∀ n ≥ N, ∃ q, tetrahedronMidpointRule (fun x y z => f ![x, y, z]) v n = .ok q ∧ |q - ∫ x in Spec.simplex v, f x| ≤ ε := by
  have pa : (0 : ℝ) ≤ |edgeDet v| / 6 := by positivity
  obtain ⟨δ, hδ, h⟩ := uniform _ (isCompact_simplex v) f hf (ε / (|edgeDet v| / 6 + 1)) (by positivity)
  obtain ⟨N, hN⟩ := exists_nat_gt ((len (v 1 - v 0) + len (v 2 - v 0) + len (v 3 - v 0)) / δ)
  refine ⟨N + 1, fun n hn => ?_⟩
  have pn : (0 : ℝ) < n := by exact_mod_cast (by omega : 0 < n)
  have hle : (len (v 1 - v 0) + len (v 2 - v 0) + len (v 3 - v 0)) / n ≤ δ := by
    rw [div_lt_iff₀ hδ] at hN
    rw [div_le_iff₀ pn]
    have : (N : ℝ) ≤ n := by exact_mod_cast (by omega : N ≤ n)
    nlinarith
  obtain ⟨q, h1, h2⟩ := C72_tetrahedron n (by omega) v f hf (ε / (|edgeDet v| / 6 + 1)) fun c hc => ⟨0, fun x hx hxc => by
    rw [LinearMap.zero_apply, sub_zero]
    exact h x hx c hc (hxc.trans hle)⟩
  refine ⟨q, h1, h2.trans ?_⟩
  rw [mul_div_assoc', div_le_iff₀ (by positivity)]
  nlinarith

/-- **C72** Without any subdivision the tetrahedron rule is rejected. -/
theorem C72_tetrahedron_zero (f : ℝ → ℝ → ℝ → ℝ) (v : Fin 4 → Fin 3 → ℝ) : tetrahedronMidpointRule f v 0 = .error .assertion := by
  unfold tetrahedronMidpointRule
  rw [(C49_tetrahedron (0 + 1)).1 (by omega)]
  rfl

/-- **C72** `general_tetrahedron_vertices` with `tetrahedron_triangulation` for a tetrahedron that is not degenerate: `(n + 2) (n + 1) n / 6` vertices,
the small tetrahedra tile the tetrahedron, all with the same signed volume; resolutions below 2 are rejected. -/
theorem C72_general_tetrahedron (n : ℕ) (v : Fin 4 → Fin 3 → ℝ) (hv : edgeDet v ≠ 0) :
    (n < 2 → generalTetrahedronVertices v n = .error .assertion) ∧
    (2 ≤ n → ∃ T V, tetrahedronTriangulation n = .ok (T.map some) ∧ generalTetrahedronVertices v n = .ok V ∧ V.length = (n + 2) * (n + 1) * n / 6 ∧
      Tiles (V.map List.ofFn) T {x | ∃ y ∈ Spec.simplex v, x = List.ofFn y} ∧ AllVolume6 (V.map List.ofFn) T (edgeDet v / ((n : ℝ) - 1) ^ 3)) := by
  constructor
  · intro h
    unfold generalTetrahedronVertices
    rw [decide_eq_false (by omega)]
    rfl
  · intro h
    obtain ⟨r, rfl⟩ := Nat.exists_eq_add_of_le' (by omega : 1 ≤ n)
    have hr : 1 ≤ r := by omega
    have pr : (0 : ℝ) < r := by exact_mod_cast hr
    set o : Nat → ℝ := fun c => (List.ofFn (v 0)).getD c 0 with ho
    set a : Fin 3 → Nat → ℝ := fun k c => 1 / (r : ℝ) * ((List.ofFn (v k.succ)).getD c 0 - (List.ofFn (v 0)).getD c 0) with ha
    have hplace : ∀ ξ : Fin 3 → ℝ, place 3 o a ξ = List.ofFn (pos v r ξ) := by
      intro ξ
      unfold place
      rw [← List.map_coe_finRange_eq_range, List.map_map, ← List.ofFn_eq_map]
      congr 1
      funext c
      rw [pos_apply]
      simp only [Function.comp, ho, ha]
      fin_cases c <;> simp [Fin.sum_univ_three] <;> ring
    have hVp : ∀ P ∈ (tetCubes r).flatMap (tetCells r), ∀ p ∈ P, ((tetVerts v r).map List.ofFn)[tetIdx r p]? = some (place 3 o a fun k => (p k : ℝ)) := by
      intro P hP p hp
      rw [List.getElem?_map, tet_vertex v r p ((tet_cells r P hP).2.2.2 p hp), hplace]
      rfl
    have hinj : ∀ ξ ξ' : Fin 3 → ℝ, place 3 o a ξ = place 3 o a ξ' → ξ = ξ' := by
      intro ξ ξ' he
      rw [hplace, hplace] at he
      have he := List.ofFn_injective he
      rw [pos, pos, fromUnit_eq, fromUnit_eq] at he
      have h1 := Matrix.mulVec_injective_of_isUnit ((Matrix.isUnit_iff_isUnit_det _).2 (isUnit_iff_ne_zero.2 hv)) (add_right_cancel he)
      have h2 := congrArg (fun z => (r : ℝ) • z) h1
      simpa [smul_smul, pr.ne'] using h2
    have ht := tiles_of_lattice 3 o a ((tetVerts v r).map List.ofFn) (tetIdx r) _ _ (fun P hP => by
      intro h0
      have := (tet_cells r P hP).1
      rw [h0] at this
      simp at this) hVp hinj (tet_tiles (K := ℝ) r hr)
    rw [show ((tetCubes r).flatMap (tetCells r)).map (fun P => P.map (tetIdx r)) = tetRows r from rfl, tet_region] at ht
    refine ⟨tetRows r, tetVerts v r, tetrahedronTriangulation_eq r hr, generalTetrahedronVertices_eq v r hr, ?_, ?_, ?_⟩
    · have := tetrahedronVertexRows_length (K := ℝ) r
      rw [tetrahedronVertexRows_eq, List.length_map] at this
      rw [tetVerts, List.length_map]
      exact this
    · convert ht using 1
      ext x
      constructor
      · rintro ⟨y, hy, rfl⟩
        rw [simplex_eq_image] at hy
        obtain ⟨u, hu, rfl⟩ := hy
        refine ⟨(r : ℝ) • u, ⟨fun i => mul_nonneg pr.le (hu.1 i), ?_⟩, ?_⟩
        · show ∑ i, (r : ℝ) * u i ≤ r
          rw [← Finset.mul_sum]
          exact mul_le_of_le_one_right pr.le hu.2
        · rw [hplace, pos, smul_smul, one_div, inv_mul_cancel₀ pr.ne', one_smul]
      · rintro ⟨ξ, hξ, rfl⟩
        exact ⟨_, pos_mem v r hr ξ hξ, hplace ξ⟩
    · intro c hc
      obtain ⟨P, hP, rfl⟩ := List.mem_map.1 hc
      have hVP := hVp P hP
      obtain ⟨p, -, hp⟩ := List.mem_flatMap.1 hP
      have hs := (tetCells_sublist r p).subset hp
      have e : ((r + 1 : ℕ) : ℝ) - 1 = r := by push_cast; ring
      rw [e]
      have key : ∀ p0 p1 p2 p3 : Fin 3 → ℕ, (∀ q ∈ [p0, p1, p2, p3], ((tetVerts v r).map List.ofFn)[tetIdx r q]? = some (place 3 o a fun k => (q k : ℝ))) →
          (edges (cellVerts [p0, p1, p2, p3])).det = 1 →
          ∃ x y z w, ([p0, p1, p2, p3].map (tetIdx r)).map (fun i => ((tetVerts v r).map List.ofFn)[i]?) = [some x, some y, some z, some w] ∧
            volume6 x y z w = edgeDet v / (r : ℝ) ^ 3 := by
        intro p0 p1 p2 p3 hq hdet
        refine ⟨place 3 o a fun k => (p0 k : ℝ), place 3 o a fun k => (p1 k : ℝ), place 3 o a fun k => (p2 k : ℝ),
          place 3 o a fun k => (p3 k : ℝ), ?_, ?_⟩
        · simp only [List.map_cons, List.map_nil]
          rw [hq p0 (by simp), hq p1 (by simp), hq p2 (by simp), hq p3 (by simp)]
        · rw [hplace, hplace, hplace, hplace]
          have h3 : edgeDet v / (r : ℝ) ^ 3 = edgeDet v / (r : ℝ) ^ 3 * (edges (cellVerts [p0, p1, p2, p3])).det := by rw [hdet, mul_one]
          rw [h3]
          unfold volume6 edgeDet edges
          rw [Matrix.det_fin_three, Matrix.det_fin_three]
          simp [pos_apply, Fin.sum_univ_three, cellVerts]
          field_simp
          ring
      simp only [sixTets, List.mem_cons, List.not_mem_nil, or_false] at hs
      rcases hs with rfl | rfl | rfl | rfl | rfl | rfl
      all_goals
        refine key _ _ _ _ hVP ?_
        rw [Matrix.det_fin_three]
        simp [edges, cellVerts, tet1, tet2, tet3, tet4, tet5, tet6]

/-! The hypotheses are met, for example, by the distance to a corner: it has the Lipschitz constant 1 but is not affine. -/
example (n : ℕ) (hn : 1 ≤ n) : ∃ q, triangleMidpointRule (fun x y => len ![x, y]) ![![0, 0], ![1, 0], ![0, 1]] n = .ok q ∧
    |q - ∫ x in Spec.simplex ![![0, 0], ![1, 0], ![0, 1]], len x| ≤ 1 / n := by
  obtain ⟨q, h1, h2⟩ := C72_triangle_lipschitz n hn ![![0, 0], ![1, 0], ![0, 1]] len 1 zero_le_one (fun x _ y _ => by
    rw [one_mul, abs_le]
    have e1 := SimplexGeometry.len_triangle (x - y) y
    have e2 := SimplexGeometry.len_triangle ((-1 : ℝ) • (x - y)) x
    rw [SimplexGeometry.len_smul] at e2
    rw [sub_add_cancel] at e1
    rw [show (-1 : ℝ) • (x - y) + x = y by simp] at e2
    norm_num at e2
    constructor <;> linarith)
  refine ⟨q, h1, h2.trans (le_of_eq ?_)⟩
  have e1 : edgeDet (![![0, 0], ![1, 0], ![0, 1]] : Fin 3 → Fin 2 → ℝ) = 1 := by
    rw [edgeDet, Matrix.det_fin_two]; simp
  rw [e1]
  simp [len, Fin.sum_univ_two]
  ring

/-- The centroid of the unit triangle is used for `n = 1`. -/
example (f : ℝ → ℝ → ℝ) : triangleMidpointRule f ![![0, 0], ![1, 0], ![0, 1]] 1 = .ok (1 / 2 * f (1 / 3) (1 / 3)) := by
  rw [triangleMidpointRule_eq _ _ _ le_rfl]
  have e1 : (edges (![![0, 0], ![1, 0], ![0, 1]] : Fin 3 → Fin 2 → ℝ)).det = 1 := by
    rw [Matrix.det_fin_two]; simp [edges]
  have e2 : (triSquares 1).flatMap (triCells 1) = [lower ![0, 0]] := by decide
  rw [e1, e2]
  simp [pos_apply, mid, cellVerts, lower, Fin.sum_univ_two, Fin.sum_univ_three]

end Verif.Midpoint
