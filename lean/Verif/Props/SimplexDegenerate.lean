import Verif.Model.SimplexDegenerate
import Verif.Props.PiecewiseCall
import Verif.Props.SimplexGeometry
/-!
# C38, C39, C67, C81 for all simplices, also degenerate ones: barycentric coordinates with division by zero
-/

namespace Verif.Props
open Verif Verif.Spec Verif.Simplex Verif.SimplexGeometry

variable {k n : ℕ}

theorem foldl_barycentricStepNum (x : Fin n → ℝ) (vol : ℝ) (v : Vertices ℝ n n) (l : List (Fin (n + 1))) (b : Fin (n + 1) → Num) :
    l.foldl (barycentricStepNum x vol) (v, b) = (v, fun i => if i ∈ l then Num.quot (signedVolume (Function.update v i x)) vol else b i) := by
  induction l generalizing b with
  | nil => simp
  | cons a l ih =>
    rw [List.foldl_cons, barycentricStepNum]
    simp only [Function.update_idem, Function.update_eq_self]
    rw [ih]
    congr 1
    funext i
    by_cases h : i ∈ l
    · simp [h]
    · by_cases ha : i = a
      · subst ha; simp [h]
      · simp [h, ha]

theorem cartesianToBarycentricNum_eq (x : Fin n → ℝ) (v : Vertices ℝ n n) :
    cartesianToBarycentricNum x v = fun i => Num.quot (signedVolume (Function.update v i x)) (Simplex.volume v) := by
  unfold cartesianToBarycentricNum
  rw [foldl_barycentricStepNum]
  simp

theorem volume_zero_iff (v : Vertices ℝ n n) : Simplex.volume v = 0 ↔ edgeDet v = 0 := by
  unfold Simplex.volume
  rw [signedVolume_eq, abs_eq_zero, div_eq_zero_iff]
  simp [Nat.factorial_ne_zero]

/-- **C38** For a simplex that is not degenerate, `cartesian_to_barycentric` returns the numbers of C38: no division by zero occurs. For a degenerate simplex
none of the coordinates it returns is a finite number. -/
theorem C38_division (v : Vertices ℝ n n) (x : Fin n → ℝ) :
    (edgeDet v ≠ 0 → cartesianToBarycentricNum x v = fun i => .fin (cartesianToBarycentric x v i)) ∧
    (edgeDet v = 0 → ∀ i y, cartesianToBarycentricNum x v i ≠ .fin y) := by
  rw [cartesianToBarycentricNum_eq]
  constructor
  · intro h
    funext i
    unfold Num.quot cartesianToBarycentric
    rw [if_pos (mt (volume_zero_iff v).1 h), cartesianToBarycentricState_eq]
  · intro h i y
    unfold Num.quot
    simp only [(volume_zero_iff v).2 h, ne_eq, not_true_eq_false, if_false]
    split <;> simp

theorem insideOf_fin (w : Fin (k + 1) → ℝ) (b : Bool) (tol : ℝ) :
    insideOf (fun i => .fin (w i)) b tol = (if tol = 0 then
      if b then (List.finRange (k + 1)).all (fun i => inClosedRange (w i) 0 1) else (List.finRange (k + 1)).all (fun i => inOpenRange (w i) 0 1)
    else (List.finRange (k + 1)).all (fun i => inOpenRange (w i) (0 - tol) (1 + tol))) := by
  unfold insideOf inClosedRangeNum inOpenRangeNum inClosedRange inOpenRange
  by_cases h : tol = 0
  · rw [if_pos h]
  · rw [if_neg h]

theorem insideOf_notFin {w : Fin (k + 1) → Num} (hw : ∀ y, w 0 ≠ .fin y) (b : Bool) (tol : ℝ) : insideOf w b tol = false := by
  have h0 : ∀ lo hi, inClosedRangeNum (w 0) lo hi = false ∧ inOpenRangeNum (w 0) lo hi = false := by
    intro lo hi
    unfold inClosedRangeNum inOpenRangeNum
    cases h : w 0 with
    | fin y => exact absurd h (hw y)
    | inf s => simp
    | nan => simp
  have key : ∀ f : Fin (k + 1) → Bool, f 0 = false → (List.finRange (k + 1)).all f = false := by
    intro f hf
    rw [List.all_eq_false]
    exact ⟨0, List.mem_finRange _, by simp [hf]⟩
  unfold insideOf
  by_cases h : tol = 0
  · rw [if_pos h]
    cases b
    · simp only [Bool.false_eq_true, if_false]; exact key _ (h0 _ _).2
    · simp only [if_true]; exact key _ (h0 _ _).1
  · rw [if_neg h]
    exact key _ (h0 _ _).2

theorem insideSimplexNum_eq {v : Vertices ℝ n n} (hd : edgeDet v ≠ 0) (x : Fin n → ℝ) (b : Bool) (tol : ℝ) :
    insideSimplexNum x v b tol = insideSimplex x v b tol := by
  unfold insideSimplexNum insideSimplex
  rw [(C38_division v x).1 hd, insideOf_fin]

/-- **C39** A degenerate simplex contains no point according to `inside_simplex`, not even its own vertices, whatever the tolerance. -/
theorem C39_degenerate (v : Vertices ℝ n n) (hd : edgeDet v = 0) (x : Fin n → ℝ) (b : Bool) (tol : ℝ) : insideSimplexNum x v b tol = false :=
  insideOf_notFin ((C38_division v x).2 hd 0) b tol

/-- **C39** `inside_simplex(x, vertices)` for every simplex of full dimension: True exactly if the simplex is positively oriented and `x` is a convex combination of
its vertices. Without the boundary (dimension at least 1) the weights must be positive. -/
theorem C39_inside_exact (v : Vertices ℝ n n) (x : Fin n → ℝ) :
    (insideSimplexNum x v true 0 = true ↔ 0 < edgeDet v ∧ ∃ w : Fin (n + 1) → ℝ, (∀ i, 0 ≤ w i) ∧ IsBarycentric v x w) ∧
    (1 ≤ n → (insideSimplexNum x v false 0 = true ↔ 0 < edgeDet v ∧ ∃ w : Fin (n + 1) → ℝ, (∀ i, 0 < w i) ∧ IsBarycentric v x w)) := by
  rcases lt_trichotomy (edgeDet v) 0 with h | h | h
  · rw [insideSimplexNum_eq h.ne, insideSimplexNum_eq h.ne, C39_negative_orientation v h x, C39_negative_orientation v h x]
    simp [not_lt.2 h.le]
  · rw [C39_degenerate v h, C39_degenerate v h]
    simp [h]
  · rw [insideSimplexNum_eq h.ne', insideSimplexNum_eq h.ne', C39_inside_partial v h x]
    exact ⟨by simp [h], fun hn => by rw [C39_interior_partial hn v h x]; simp [h]⟩

/-- **C39** A point as a simplex of dimension 0: it is inside of itself, but not without the boundary. -/
theorem C39_point (v : Vertices ℝ 0 0) (x : Fin 0 → ℝ) : insideSimplexNum x v true 0 = true ∧ insideSimplexNum x v false 0 = false := by
  have hd : edgeDet v = 1 := by simp [edgeDet]
  refine ⟨((C39_inside_exact v x).1).2 ⟨by simp [hd], fun _ => 1, fun _ => zero_le_one, by simp, Subsingleton.elim _ _⟩, ?_⟩
  rw [insideSimplexNum_eq (by simp [hd])]
  have e := (C38_barycentric_partial v (by simp [hd]) x).1
  unfold insideSimplex
  simp only [if_true, Bool.false_eq_true, if_false]
  rw [List.all_eq_false]
  refine ⟨0, List.mem_finRange _, ?_⟩
  have : cartesianToBarycentric x v 0 = 1 := by simpa using e
  simp [inOpenRange, this]

/-- **C67** `inside_simplex` for a degenerate simplex in a space of larger dimension: False, if the check that the point is in the plane does not fail. -/
theorem C67_inside_degenerate (qr : QR) (hqr : QRContract qr) (v : Vertices ℝ (k + 1) n) (hkn : k + 1 < n) (h : ¬ NonDegenerate v) (p : Fin n → ℝ) (b : Bool)
    (tol : ℝ) :
    insideSimplexENum qr p v b tol = .ok false ∨ (insideSimplexENum qr p v b tol = .error .assertion ∧ inSubspace qr p v tol14 = .ok false) := by
  obtain ⟨c, u, w, h1, h2, h3, h4, h5, h6⟩ := localCoordinates_spec qr hqr v (Nat.succ_ne_zero k) hkn.le
  have hs : ∃ s, inSubspace qr p v tol14 = .ok s := by
    unfold inSubspace
    rw [if_neg (by omega), if_neg (by omega)]
    unfold basis subspaceProjectionMap Linalg.subspaceProjectionTransformation
    rw [if_neg (by omega), Py.bind_ok, decide_eq_true (show k + 1 ≤ n from hkn.le), pyAssert_true]
    exact ⟨_, rfl⟩
  have hw : edgeDet w = 0 := by
    have hg : gram v = 0 := by
      have := gram_nonneg v hkn.le
      have h' := mt (nonDegenerate_iff_gram v hkn.le).2 h
      linarith [not_lt.1 h']
    have e := volume_eq qr hqr v hkn.le
    unfold SimplexGeometry.volume at e
    rw [if_neg (by omega), if_pos hkn, h4, Py.bind_ok] at e
    unfold signedVolumeE at e
    rw [if_neg (by omega), if_neg (by omega), dif_pos rfl, hg] at e
    have e' : signedVolume w = 0 := by
      have : signedVolume (full rfl w) = _ := Except.ok.inj e
      rw [Real.sqrt_zero, zero_div] at this
      exact this
    rw [signedVolume_eq, div_eq_zero_iff] at e'
    simpa [Nat.factorial_ne_zero] using e'
  obtain ⟨s, hs⟩ := hs
  unfold insideSimplexENum cartesianToBarycentricENum
  rw [hs, Py.bind_ok]
  cases s with
  | false => right; exact ⟨rfl, rfl⟩
  | true =>
    left
    rw [pyAssert_true, Py.bind_ok, h1, Py.bind_ok, h4, Py.bind_ok]
    simp only [Py.pure_eq, Py.bind_ok]
    rw [insideOf_notFin ((C38_division w _).2 hw 0)]

/-- The degenerate triangle (0, 0), (1, 0), (2, 0) does not contain its vertex (1, 0). -/
example : edgeDet onLine2 = 0 ∧ insideSimplexNum (onLine2 1) onLine2 true 0 = false := by
  have h : edgeDet onLine2 = 0 := by simp [edgeDet, onLine2, Matrix.det_fin_two]
  exact ⟨h, C39_degenerate _ h _ _ _⟩

section
open Verif.PP Verif.L2G Verif.Poly Verif.PointCloud
variable [Sub (Kd.Ext ℝ)] [Mul (Kd.Ext ℝ)] [One (Kd.Ext ℝ)] {V : Type} [AddCommGroup V] [Module ℝ V] [DecidableEq V] {m : ℕ}

/-- **C81** Calling a piecewise polynomial on a mesh of simplices of any orientation, also degenerate ones: the value on a simplex of the support that is positively oriented
and contains the point; zero if there is none. Simplices that are negatively oriented or degenerate are never used. -/
theorem C81_any_orientation {p : PObj ℝ V m (Kd.MeshTree ℝ)} (h : WellFormed p) {S : List ℕ}
    (hr : Kd.MeshReachable (meshOf p.triangles p.vertices) (some S) p.tree) (hlt : ∀ j ∈ S, j < p.triangles.length) (x : Fin m → ℝ) :
    (∃ j ∈ S, (∃ v, cell p.triangles p.vertices j = .ok v ∧ 0 < edgeDet v) ∧ InCell p.triangles p.vertices j x ∧ p.callAtNum x = p.evaluateOnSimplex j x) ∨
    (p.callAtNum x = .ok 0 ∧ ∀ j ∈ S, ∀ v, cell p.triangles p.vertices j = .ok v → 0 < edgeDet v → ¬ InCell p.triangles p.vertices j x) := by
  obtain ⟨js, h1, h2, h3⟩ := leaf_spec hr x
  have hcells : ∀ j ∈ js, ∃ v, cell p.triangles p.vertices j = .ok v := fun j hj => by
    obtain ⟨v, hv, -⟩ := h.space.cells j (hlt j (h2 j hj))
    exact ⟨v, hv⟩
  unfold PObj.callAtNum PObj.call
  rw [h1, Py.bind_ok]
  have hin : ∀ v : Vertices ℝ m m, insideSimplexNum x v true 0 = true → 0 < edgeDet v := fun v hv => (((C39_inside_exact v x).1).1 hv).1
  rcases findCell_spec (inside := fun x v => insideSimplexNum x v true 0) (x := x) hcells with ⟨j, e1, v, e2, e3, e4⟩ | ⟨e1, e2⟩
  · left
    rw [e4, Py.bind_ok]
    have hp := hin v e3
    rw [insideSimplexNum_eq hp.ne'] at e3
    exact ⟨j, h2 j e1, ⟨v, e2, hp⟩, (inside_iff e2 hp x).1 e3, rfl⟩
  · right
    rw [e1, Py.bind_ok]
    refine ⟨rfl, fun j hj v hv hp hx => ?_⟩
    have := e2 j (h3 j hj hx) v hv
    simp only [insideSimplexNum_eq hp.ne', (inside_iff hv hp x).2 hx] at this
    cases this

/-- The hypotheses are met by the function on the square that is 1 in one vertex; at a point outside of the square its value is 0. -/
example {eigh : Eigh 2} (he : IsEigh eigh) : ∃ (p : PObj ℝ ℝ 2 (Kd.MeshTree ℝ)) (S : List ℕ), WellFormed p ∧
    Kd.MeshReachable (meshOf p.triangles p.vertices) (some S) p.tree ∧ (∀ j ∈ S, j < p.triangles.length) ∧ p.triangles = squareTriangles := by
  obtain ⟨M, hM, hn⟩ : ∃ M, genMap true squareTriangles 1 none false = .ok M ∧ M.numDofs = 4 := ⟨_, rfl, rfl⟩
  obtain ⟨p, h, hw, hcov, hc, ht, hv, hcall⟩ := C81_construct he (b := .bernstein) (by simp) (squareReal_space true 1 (by norm_num) none (by simp [AreSimplices]))
    (Or.inr (by norm_num)) hM (coeff := ([1, 0, 0, 0] : List ℝ)) hn (by simp) (tau := none) (Or.inl ⟨rfl, Or.inl rfl⟩)
  exact ⟨p, p.support, hw, hcov.1, hcov.2.2, ht⟩

end

end Verif.Props
