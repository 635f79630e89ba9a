import Verif.Model.VertexNormals
import Verif.Spec.SurfaceMesh
import Verif.Props.Triangle
import Mathlib.Analysis.SpecialFunctions.Pow.Deriv
/-!
# Lemmas on vertex normals
-/

namespace Verif.TriMesh
open Verif Matrix Verif.Linalg Verif.Spec Verif.SimplexGeometry Verif.Triangle Verif.Props

variable {n : ℕ}

theorem getD_lt {α : Type} {l : List α} {i : ℕ} {d : α} (h : i < l.length) : l.getD i d = l[i] := by
  simp [List.getD, h]

/-- The rows have been increased by `u`. -/
def Acc (rows rows' : List (Fin n → ℝ)) (u : ℕ → Fin n → ℝ) : Prop :=
  rows'.length = rows.length ∧ ∀ k, k < rows.length → rows'.getD k 0 = rows.getD k 0 + u k

theorem addRow_acc (rows : List (Fin n → ℝ)) (k : ℕ) (x : Fin n → ℝ) (hk : k < rows.length) :
    ∃ rows', addRow rows k x = .ok rows' ∧ Acc rows rows' (fun i => if i = k then x else 0) := by
  refine ⟨rows.set k (rows[k] + x), ?_, by simp, fun i hi => ?_⟩
  · unfold addRow
    rw [getE_ok hk, Py.bind_ok, setE_ok hk]
  · rw [getD_lt (by simpa using hi), getD_lt hi, List.getElem_set]
    by_cases h : k = i
    · subst h; simp
    · simp [h, Ne.symm h]

theorem Acc.trans {r r' r'' : List (Fin n → ℝ)} {u u' : ℕ → Fin n → ℝ} (h : Acc r r' u) (h' : Acc r' r'' u') :
    Acc r r'' (fun k => u k + u' k) :=
  ⟨h'.1.trans h.1, fun k hk => by rw [h'.2 k (h.1 ▸ hk), h.2 k hk, add_assoc]⟩

theorem foldlM_acc {α : Type} (f : List (Fin n → ℝ) → α → Py (List (Fin n → ℝ))) (u : α → ℕ → Fin n → ℝ) (N : ℕ) (l : List α) :
    (∀ a ∈ l, ∀ rows, rows.length = N → ∃ rows', f rows a = .ok rows' ∧ Acc rows rows' (u a)) →
    ∀ rows, rows.length = N → ∃ rows', l.foldlM f rows = .ok rows' ∧ Acc rows rows' (fun k => (l.map fun a => u a k).sum) := by
  induction l with
  | nil => exact fun _ rows _ => ⟨rows, rfl, rfl, fun k _ => by simp⟩
  | cons a l ih =>
    intro h rows hr
    obtain ⟨r1, h1, h2⟩ := h a (by simp) rows hr
    obtain ⟨r2, h3, h4⟩ := ih (fun b hb => h b (by simp [hb])) r1 (h2.1.trans hr)
    refine ⟨r2, ?_, ?_⟩
    · rw [List.foldlM_cons, h1, Py.bind_ok, h3]
    · have := h2.trans h4
      simpa using this

theorem meshVertices_ok (v : List (Fin n → ℝ)) (tri : Fin 3 → ℕ) (h : ∀ j, tri j < v.length) : meshVertices tri v = .ok (corners v tri) := by
  unfold meshVertices
  rw [getE_ok (Nat.lt_of_le_of_lt (Nat.zero_le _) (h 0)), Py.bind_ok]
  refine rows3_ok _ _ fun j => ?_
  rw [getE_ok (h j)]
  congr 1
  exact (getD_lt (h j)).symm

/-- The cotangent of an angle of a triangle. -/
theorem cot_eq (p : Tri n) (h : NonDegenerate p) (j : Fin 3) {θ : ℝ} (hθ : IsAngle (p (j + 1) - p j) (p (j + 2) - p j) θ) :
    cot θ = .ok (dd p j / √(gram p)) := by
  obtain ⟨h1, h2, h3⟩ := (isAngle_iff p h j θ).1 hθ
  have hc := abs_lt.1 (cauchy p h j)
  have l1 := el_pos p h (j + 1)
  have l2 := el_pos p h (j + 2)
  have hg := gram_pos p h
  have hne : θ ≠ 0 := by
    rintro rfl
    rw [Real.cos_zero] at h3
    linarith [hc.2]
  have hs : Real.sin θ = √(gram p) / (edgeLengths p (j + 1) * edgeLengths p (j + 2)) := by
    have hs0 := Real.sin_nonneg_of_nonneg_of_le_pi h1 h2
    have hsq : Real.sin θ ^ 2 = (√(gram p) / (edgeLengths p (j + 1) * edgeLengths p (j + 2))) ^ 2 := by
      rw [Real.sin_sq, h3, div_pow, div_pow, Real.sq_sqrt hg.le, mul_pow, el_sq, el_sq, f11, f12, f21, f22, gram_dd p j]
      have e1 := edge_pos p h (j + 1)
      have e2 := edge_pos p h (j + 2)
      rw [f11, f12] at e1
      rw [f21, f22] at e2
      field_simp
      ring
    exact (sq_eq_sq₀ hs0 (by positivity)).1 hsq
  unfold cot
  rw [if_neg hne, Real.tan_eq_sin_div_cos, one_div_div, hs, h3]
  congr 1
  field_simp

/-- What a triangle adds to vertex `k` in `vertex_normals_cotangent`. -/
noncomputable def cotInc (p : Tri n) (tri : Fin 3 → ℕ) (k : ℕ) : Fin n → ℝ :=
  ([0, 1, 2].map fun (j : Fin 3) => (if k = tri (j + 1) then (dd p j / √(gram p)) • Triangle.edges p j else 0) +
    if k = tri (j + 2) then -((dd p j / √(gram p)) • Triangle.edges p j) else 0).sum

theorem cotangentTriangle_acc (v : List (Fin n → ℝ)) (tri : Fin 3 → ℕ) (h : ∀ j, tri j < v.length) (hp : NonDegenerate (k := 2) (corners v tri))
    (hn : n ≠ 3 → ∀ i, 1 / 10 ^ 12 ≤ edgeLengths (corners v tri) i) (rows : List (Fin n → ℝ)) (hr : rows.length = v.length) :
    ∃ rows', cotangentTriangle v rows tri = .ok rows' ∧ Acc rows rows' (cotInc (corners v tri) tri) := by
  unfold cotangentTriangle
  rw [meshVertices_ok v tri h, Py.bind_ok]
  unfold cotInc
  refine foldlM_acc _ (fun (j : Fin 3) k => (if k = tri (j + 1) then (dd (corners v tri) j / √(gram (k := 2) (corners v tri))) • Triangle.edges (corners v tri) j
    else 0) + if k = tri (j + 2) then -((dd (corners v tri) j / √(gram (k := 2) (corners v tri))) • Triangle.edges (corners v tri) j) else 0)
    v.length [0, 1, 2] (fun j _ rows hr => ?_) rows hr
  unfold cotangentStep
  obtain ⟨θ, h1, h2⟩ := angle_ok (corners v tri) hp hn j
  rw [h1, Py.bind_ok, cot_eq _ hp j h2, Py.bind_ok]
  obtain ⟨r1, a1, a2⟩ := addRow_acc rows (tri (j + 1)) ((dd (corners v tri) j / √(gram (k := 2) (corners v tri))) • Triangle.edges (corners v tri) j)
    (hr ▸ h _)
  rw [a1, Py.bind_ok]
  obtain ⟨r2, a3, a4⟩ := addRow_acc r1 (tri (j + 2)) (-((dd (corners v tri) j / √(gram (k := 2) (corners v tri))) • Triangle.edges (corners v tri) j))
    (a2.1 ▸ hr ▸ h _)
  exact ⟨r2, a3, a2.trans a4⟩

/-- The derivative of the area of a triangle with respect to a vertex. -/
theorem triArea_deriv (p : Tri n) (h : NonDegenerate p) (j : Fin 3) (d : Fin n → ℝ) :
    HasDerivAt (fun s : ℝ => triArea (Function.update p j (p j + s • d)))
      (((1 / (2 * √(gram p))) • (dd p (j + 1) • (p j - p (j + 2)) + dd p (j + 2) • (p j - p (j + 1)))) ⬝ᵥ d) 0 := by
  have hg := gram_pos p h
  have hne : j + 2 ≠ j ∧ j + 1 ≠ j := by clear * -; revert j; decide
  have e0 : Triangle.edges p j = p (j + 2) - p (j + 1) := rfl
  have e1 : Triangle.edges p (j + 1) = p j - p (j + 2) := by simp only [Triangle.edges, f11, f12]
  set e := Triangle.edges p j with he
  set u := Triangle.edges p (j + 1) with hu
  have hgs : ∀ s : ℝ, gram (k := 2) (Function.update p j (p j + s • d)) =
      gram (k := 2) p + s * (2 * ((e ⬝ᵥ e) * (u ⬝ᵥ d) - (e ⬝ᵥ u) * (e ⬝ᵥ d))) + s ^ 2 * ((e ⬝ᵥ e) * (d ⬝ᵥ d) - (e ⬝ᵥ d) ^ 2) := by
    intro s
    have f0 : Triangle.edges (Function.update p j (p j + s • d)) j = e := by
      simp only [Triangle.edges]
      rw [Function.update_of_ne hne.1, Function.update_of_ne hne.2, e0]
    have f1 : Triangle.edges (Function.update p j (p j + s • d)) (j + 1) = u + s • d := by
      simp only [Triangle.edges, f11, f12]
      rw [Function.update_of_ne hne.1, Function.update_self, e1]
      abel
    rw [← gram_lag _ j, ← gram_lag p j, f0, f1, ← he, ← hu]
    simp only [add_dotProduct, dotProduct_add, smul_dotProduct, dotProduct_smul, smul_eq_mul]
    rw [dotProduct_comm d u]
    ring
  have hq : HasDerivAt (fun s : ℝ => gram (k := 2) p + s * (2 * ((e ⬝ᵥ e) * (u ⬝ᵥ d) - (e ⬝ᵥ u) * (e ⬝ᵥ d))) +
      s ^ 2 * ((e ⬝ᵥ e) * (d ⬝ᵥ d) - (e ⬝ᵥ d) ^ 2)) (2 * ((e ⬝ᵥ e) * (u ⬝ᵥ d) - (e ⬝ᵥ u) * (e ⬝ᵥ d))) 0 := by
    have h1 := ((hasDerivAt_id (0 : ℝ)).mul_const (2 * ((e ⬝ᵥ e) * (u ⬝ᵥ d) - (e ⬝ᵥ u) * (e ⬝ᵥ d)))).const_add (gram (k := 2) p)
    have h2 := ((hasDerivAt_id (0 : ℝ)).pow 2).mul_const ((e ⬝ᵥ e) * (d ⬝ᵥ d) - (e ⬝ᵥ d) ^ 2)
    have h3 := h1.add h2
    refine h3.congr_deriv ?_
    simp
  have hs := (hq.sqrt (by simpa using hg.ne')).div_const 2
  have hfun : (fun s : ℝ => triArea (Function.update p j (p j + s • d))) = fun s : ℝ => √(gram (k := 2) p + s * (2 * ((e ⬝ᵥ e) * (u ⬝ᵥ d) - (e ⬝ᵥ u) * (e ⬝ᵥ d))) +
      s ^ 2 * ((e ⬝ᵥ e) * (d ⬝ᵥ d) - (e ⬝ᵥ d) ^ 2)) / 2 := by
    funext s
    unfold triArea
    rw [hgs s]
  rw [hfun]
  refine hs.congr_deriv ?_
  have d2 : e ⬝ᵥ u = -dd p (j + 2) := edges_succ p j
  have d1 : e ⬝ᵥ e = dd p (j + 1) + dd p (j + 2) := edges_self p j
  have hv : p j - p (j + 1) = u + e := by rw [e1, e0]; abel
  rw [hv, ← e1, d1, d2]
  simp only [smul_dotProduct, add_dotProduct, smul_eq_mul]
  simp only [zero_mul, add_zero, ne_eq, OfNat.ofNat_ne_zero, not_false_eq_true, zero_pow]
  have := (Real.sqrt_pos.2 hg).ne'
  field_simp
  ring

theorem hasDerivAt_list_sum {α : Type} (f : α → ℝ → ℝ) (f' : α → ℝ) (x : ℝ) (l : List α) (h : ∀ a ∈ l, HasDerivAt (f a) (f' a) x) :
    HasDerivAt (fun s => (l.map fun a => f a s).sum) (l.map f').sum x := by
  induction l with
  | nil => simpa using hasDerivAt_const x (0 : ℝ)
  | cons a l ih =>
    simp only [List.map_cons, List.sum_cons]
    exact (h a (by simp)).add (ih fun b hb => h b (by simp [hb]))

theorem sum_dot {α : Type} (u : α → Fin n → ℝ) (d : Fin n → ℝ) (l : List α) : (l.map u).sum ⬝ᵥ d = (l.map fun a => u a ⬝ᵥ d).sum := by
  induction l with
  | nil => simp
  | cons a l ih => simp only [List.map_cons, List.sum_cons, add_dotProduct, ih]

theorem smul_list_sum {α : Type} (c : ℝ) (u : α → Fin n → ℝ) (l : List α) : c • (l.map u).sum = (l.map fun a => c • u a).sum := by
  induction l with
  | nil => simp
  | cons a l ih => simp only [List.map_cons, List.sum_cons, smul_add, ih]

theorem corners_move (v : List (Fin n → ℝ)) (k : ℕ) (x : Fin n → ℝ) (tri : Fin 3 → ℕ) (j : Fin 3) (hj : tri j < v.length) :
    corners (moveVertex v k x) tri j = corners v tri j + if tri j = k then x else 0 := by
  unfold corners moveVertex
  rw [getD_lt (by simpa using hj), getD_lt hj, List.getElem_modify]
  by_cases h : k = tri j
  · rw [if_pos h, if_pos h.symm]
  · rw [if_neg h, if_neg (fun e => h e.symm), add_zero]

/-- The corners of a non-degenerate triangle have different numbers. -/
theorem corners_injective (v : List (Fin n → ℝ)) (tri : Fin 3 → ℕ) (hp : NonDegenerate (k := 2) (corners v tri)) : Function.Injective tri := by
  have key : ∀ i : Fin 3, tri i ≠ tri (i + 1) := by
    intro i e
    have hl := el_pos (corners v tri) hp (i + 2)
    have : Triangle.edges (corners v tri) (i + 2) = 0 := by
      simp only [Triangle.edges, f21, f22, corners, e, sub_self]
    rw [show edgeLengths (corners v tri) (i + 2) = Linalg.norm (Triangle.edges (corners v tri) (i + 2)) from rfl, this, norm_eq_len] at hl
    simp [len] at hl
  intro i j hij
  have hc : i = j ∨ j = i + 1 ∨ i = j + 1 := by clear * -; revert i j; decide
  rcases hc with h | h | h
  · exact h
  · exact absurd (h ▸ hij) (key i)
  · exact absurd (h ▸ hij.symm) (key j)

theorem corners_move_at (v : List (Fin n → ℝ)) (tri : Fin 3 → ℕ) (h : ∀ j, tri j < v.length) (hi : Function.Injective tri) (j : Fin 3) (x : Fin n → ℝ) :
    corners (moveVertex v (tri j) x) tri = Function.update (corners v tri) j (corners v tri j + x) := by
  funext i
  rw [corners_move v _ x tri i (h i)]
  by_cases hij : i = j
  · subst hij; rw [if_pos rfl, Function.update_self]
  · rw [if_neg (fun e => hij (hi e)), Function.update_of_ne hij, add_zero]

theorem corners_move_none (v : List (Fin n → ℝ)) (tri : Fin 3 → ℕ) (h : ∀ j, tri j < v.length) (k : ℕ) (hk : ∀ j, tri j ≠ k) (x : Fin n → ℝ) :
    corners (moveVertex v k x) tri = corners v tri := by
  funext i
  rw [corners_move v _ x tri i (h i), if_neg (hk i), add_zero]

theorem list3 {α : Type} [AddCommMonoid α] (f : Fin 3 → α) (i : Fin 3) : ([0, 1, 2].map f).sum = f i + f (i + 1) + f (i + 2) := by
  have e : ([0, 1, 2].map f).sum = ∑ j, f j := by
    have e : ∑ i, f i = f 0 + f 1 + f 2 := Fin.sum_univ_three f
    rw [e]; simp [add_assoc]
  rw [e, sum3 f i]

theorem cotInc_at (p : Tri n) (tri : Fin 3 → ℕ) (hi : Function.Injective tri) (j : Fin 3) :
    cotInc p tri (tri j) = -(1 / √(gram (k := 2) p)) • (dd p (j + 1) • (p j - p (j + 2)) + dd p (j + 2) • (p j - p (j + 1))) := by
  have hne : j ≠ j + 1 ∧ j ≠ j + 2 := by clear * -; revert j; decide
  have h1 : tri j ≠ tri (j + 1) := fun e => hne.1 (hi e)
  have h2 : tri j ≠ tri (j + 2) := fun e => hne.2 (hi e)
  unfold cotInc
  rw [list3 _ j, f11, f12, f21, f22, if_neg h1, if_neg h2, if_neg h2, if_pos rfl, if_pos rfl, if_neg h1]
  have e1 : Triangle.edges p (j + 1) = p j - p (j + 2) := by simp only [Triangle.edges, f11, f12]
  have e2 : Triangle.edges p (j + 2) = p (j + 1) - p j := by simp only [Triangle.edges, f21, f22]
  rw [e1, e2]
  funext a
  simp only [Pi.add_apply, Pi.sub_apply, Pi.smul_apply, Pi.neg_apply, Pi.zero_apply, smul_eq_mul]
  ring

theorem cotInc_none (p : Tri n) (tri : Fin 3 → ℕ) (k : ℕ) (hk : ∀ j, tri j ≠ k) : cotInc p tri k = 0 := by
  unfold cotInc
  rw [list3 _ 0]
  simp only [if_neg (hk _).symm]
  simp

/-- A triangle adds minus twice the gradient of its area. -/
theorem area_grad (v : List (Fin n → ℝ)) (tri : Fin 3 → ℕ) (h : ∀ j, tri j < v.length) (hp : NonDegenerate (k := 2) (corners v tri)) (k : ℕ)
    (d : Fin n → ℝ) : HasDerivAt (fun s : ℝ => triArea (corners (moveVertex v k (s • d)) tri)) (((-1 / 2 : ℝ) • cotInc (corners v tri) tri k) ⬝ᵥ d) 0 := by
  by_cases hk : ∃ j, tri j = k
  · obtain ⟨j, rfl⟩ := hk
    have hi := corners_injective v tri hp
    simp only [corners_move_at v tri h hi j]
    rw [cotInc_at _ _ hi]
    refine (triArea_deriv (corners v tri) hp j d).congr_deriv ?_
    congr 1
    rw [smul_smul]
    congr 1
    ring
  · push Not at hk
    simp only [corners_move_none v tri h k hk]
    rw [cotInc_none _ _ _ hk, smul_zero, zero_dotProduct]
    exact hasDerivAt_const _ _

end Verif.TriMesh
