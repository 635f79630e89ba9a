import Verif.Model.SimplexInteger
import Verif.Props.Simplex
import Mathlib.Data.Rat.Floor
/-!
# C96: barycentric coordinates for arrays of vertices with integer entries
-/

namespace Verif.Props
open Verif Verif.Spec Verif.Simplex

variable {K : Type} [Field K] [LinearOrder K]

/-- Specification: the entries of the array are integers. -/
def IntegerVertices {n : ℕ} (v : Fin (n + 1) → Fin n → K) : Prop := ∀ i j, ∃ z : ℤ, v i j = z

/-- Specification: `y` is the point `x` with the fractional parts of the coordinates removed. -/
def RemovedFractions {n : ℕ} (x y : Fin n → K) : Prop :=
  ∀ j, (∃ z : ℤ, y j = z) ∧ |y j| ≤ |x j| ∧ |x j - y j| < 1 ∧ 0 ≤ x j * y j

omit [LinearOrder K] in
theorem barycentricStepA_eq {n : ℕ} {store : K → K} {v : Vertices K n n} (hv : ∀ i j, store (v i j) = v i j) (x : Fin n → K) (vol : K)
    (b : Fin (n + 1) → K) (i : Fin (n + 1)) :
    barycentricStepA store x vol (v, b) i = barycentricStep (fun j => store (x j)) vol (v, b) i := by
  unfold barycentricStepA barycentricStep
  simp only [hv]

omit [LinearOrder K] in
theorem barycentricStep_fst {n : ℕ} (v : Vertices K n n) (x : Fin n → K) (vol : K) (b : Fin (n + 1) → K) (i : Fin (n + 1)) :
    (barycentricStep x vol (v, b) i).1 = v := by
  simp [barycentricStep]

/-- For an array whose entries are kept by the conversion, the computation is the one with the converted point. -/
theorem cartesianToBarycentricStateA_eq {n : ℕ} {store : K → K} {v : Vertices K n n} (hv : ∀ i j, store (v i j) = v i j) (x : Fin n → K) :
    cartesianToBarycentricStateA store x v = cartesianToBarycentricState (fun j => store (x j)) v := by
  unfold cartesianToBarycentricStateA cartesianToBarycentricState
  generalize (fun _ : Fin (n + 1) => (0 : K)) = b
  generalize volume v = vol
  generalize List.finRange (n + 1) = l
  induction l generalizing b with
  | nil => rfl
  | cons i l ih =>
    rw [List.foldl_cons, List.foldl_cons, barycentricStepA_eq hv]
    have h := barycentricStep_fst v (fun j => store (x j)) vol b i
    obtain ⟨v', b', e⟩ : ∃ v' b', barycentricStep (fun j => store (x j)) vol (v, b) i = (v', b') := ⟨_, _, rfl⟩
    rw [e] at h ⊢
    obtain rfl : v' = v := h
    exact ih b'

theorem insideSimplexA_eq {n : ℕ} {store : K → K} {v : Vertices K n n} (hv : ∀ i j, store (v i j) = v i j) (x : Fin n → K) (b : Bool) (tol : K) :
    insideSimplexA store x v b tol = insideSimplex (fun j => store (x j)) v b tol := by
  unfold insideSimplexA insideSimplex cartesianToBarycentricA cartesianToBarycentric
  rw [cartesianToBarycentricStateA_eq hv]

/-- C96: with an array of floats, the functions are those of C38 and C39. -/
theorem C96_float {n : ℕ} (v : Vertices K n n) (x : Fin n → K) (b : Bool) (tol : K) :
    cartesianToBarycentricA id x v = cartesianToBarycentric x v ∧ insideSimplexA id x v b tol = insideSimplex x v b tol := by
  refine ⟨?_, insideSimplexA_eq (store := id) (v := v) (fun _ _ => rfl) x b tol⟩
  unfold cartesianToBarycentricA cartesianToBarycentric
  rw [cartesianToBarycentricStateA_eq (store := id) (v := v) (fun _ _ => rfl)]
  rfl

variable [IsStrictOrderedRing K] [FloorRing K]

theorem truncate_int (z : ℤ) : FinDiff.truncate (z : K) = z := by
  unfold FinDiff.truncate; split <;> simp

theorem truncate_spec (x : K) : (∃ z : ℤ, FinDiff.truncate x = z) ∧ |FinDiff.truncate x| ≤ |x| ∧ |x - FinDiff.truncate x| < 1 ∧
    0 ≤ x * FinDiff.truncate x := by
  unfold FinDiff.truncate
  split
  · rename_i h
    have h1 : (0 : K) ≤ (⌊x⌋ : K) := by exact_mod_cast Int.floor_nonneg.2 h
    have h2 := Int.floor_le x
    have h3 := Int.lt_floor_add_one x
    refine ⟨⟨_, rfl⟩, ?_, ?_, mul_nonneg h h1⟩
    · rw [abs_of_nonneg h1, abs_of_nonneg h]; exact h2
    · rw [abs_of_nonneg (by linarith)]; linarith
  · rename_i h
    push Not at h
    have h1 : ((⌈x⌉ : ℤ) : K) ≤ 0 := by exact_mod_cast Int.ceil_nonpos.2 h.le
    have h2 := Int.le_ceil x
    have h3 := Int.ceil_lt_add_one x
    refine ⟨⟨_, rfl⟩, ?_, ?_, mul_nonneg_of_nonpos_of_nonpos h.le h1⟩
    · rw [abs_of_nonpos h1, abs_of_nonpos h.le]; linarith
    · rw [abs_of_nonpos (by linarith)]; linarith

/-- The removed fractions determine the point. -/
theorem RemovedFractions.eq {n : ℕ} {x y : Fin n → K} (h : RemovedFractions x y) : y = fun j => FinDiff.truncate (x j) := by
  funext j
  obtain ⟨⟨z, hz⟩, h1, h2, h3⟩ := h j
  obtain ⟨⟨w, hw⟩, g1, g2, g3⟩ := truncate_spec (x j)
  rw [hw] at g1 g2 g3 ⊢
  rw [hz] at h1 h2 h3 ⊢
  congr 1
  rcases lt_trichotomy (x j) 0 with hx | hx | hx
  · rw [abs_of_neg hx] at h1 g1
    have a1 : (z : K) ≤ 0 := by by_contra hc; push Not at hc; nlinarith
    have a2 : (w : K) ≤ 0 := by by_contra hc; push Not at hc; nlinarith
    rw [abs_of_nonpos a1] at h1
    rw [abs_of_nonpos a2] at g1
    rw [abs_lt] at h2 g2
    have b1 : (z : K) < w + 1 := by linarith
    have b2 : (w : K) < z + 1 := by linarith
    have c1 : z < w + 1 := by exact_mod_cast b1
    have c2 : w < z + 1 := by exact_mod_cast b2
    omega
  · rw [hx, abs_zero] at h1 g1
    have a1 : (z : K) = 0 := abs_eq_zero.1 (le_antisymm h1 (abs_nonneg _))
    have a2 : (w : K) = 0 := abs_eq_zero.1 (le_antisymm g1 (abs_nonneg _))
    exact_mod_cast a1.trans a2.symm
  · rw [abs_of_pos hx] at h1 g1
    have a1 : 0 ≤ (z : K) := by by_contra hc; push Not at hc; nlinarith
    have a2 : 0 ≤ (w : K) := by by_contra hc; push Not at hc; nlinarith
    rw [abs_of_nonneg a1] at h1
    rw [abs_of_nonneg a2] at g1
    rw [abs_lt] at h2 g2
    have b1 : (z : K) < w + 1 := by linarith
    have b2 : (w : K) < z + 1 := by linarith
    have c1 : z < w + 1 := by exact_mod_cast b1
    have c2 : w < z + 1 := by exact_mod_cast b2
    omega

theorem IntegerVertices.keep {n : ℕ} {v : Vertices K n n} (h : IntegerVertices v) (i : Fin (n + 1)) (j : Fin n) :
    FinDiff.truncate (v i j) = v i j := by
  obtain ⟨z, hz⟩ := h i j
  rw [hz, truncate_int]

theorem cartesianToBarycentricA_int {n : ℕ} {v : Vertices K n n} (hi : IntegerVertices v) {x y : Fin n → K} (h : RemovedFractions x y) :
    cartesianToBarycentricA FinDiff.truncate x v = cartesianToBarycentric y v := by
  unfold cartesianToBarycentricA cartesianToBarycentric
  rw [cartesianToBarycentricStateA_eq hi.keep, h.eq]

/-- C96 (finding): with an array of integers as vertices of a positively oriented simplex, `cartesian_to_barycentric(x, vertices)` silently returns the
barycentric coordinates of another point, `x` with the fractional parts of its coordinates removed. The array of the caller is restored. -/
theorem C96_integer_vertices {n : ℕ} (v : Vertices K n n) (hi : IntegerVertices v) (hd : 0 < edgeDet v) (x : Fin n → K) :
    (cartesianToBarycentricStateA FinDiff.truncate x v).1 = v ∧
    ∃ y, RemovedFractions x y ∧ IsBarycentric v y (cartesianToBarycentricA FinDiff.truncate x v) ∧
      barycentricToCartesian (cartesianToBarycentricA FinDiff.truncate x v) v = y := by
  refine ⟨?_, fun j => FinDiff.truncate (x j), fun j => truncate_spec (x j), ?_⟩
  · rw [cartesianToBarycentricStateA_eq hi.keep]
    exact C38_vertices_restored v _
  · rw [cartesianToBarycentricA_int hi (fun j => truncate_spec (x j))]
    exact ⟨C38_barycentric_partial v hd _, C38_round_trip_partial v hd _⟩

/-- C96: so the result is right exactly for the points with integer coordinates. -/
theorem C96_integer_vertices_iff {n : ℕ} (v : Vertices K n n) (hi : IntegerVertices v) (hd : 0 < edgeDet v) (x : Fin n → K) :
    IsBarycentric v x (cartesianToBarycentricA FinDiff.truncate x v) ↔ ∀ j, ∃ z : ℤ, x j = z := by
  obtain ⟨-, y, hy, hb, -⟩ := C96_integer_vertices v hi hd x
  constructor
  · intro h j
    rw [h.2, ← hb.2]
    exact (hy j).1
  · intro h
    have : x = y := by
      rw [hy.eq]
      funext j
      obtain ⟨z, hz⟩ := h j
      rw [hz, truncate_int]
    rw [this] at hb ⊢
    exact hb

/-- C96 (finding): with an array of integers, `inside_simplex(x, vertices)` is True exactly if the simplex contains `x` without the fractional parts of its
coordinates. -/
theorem C96_integer_inside {n : ℕ} (v : Vertices K n n) (hi : IntegerVertices v) (hd : 0 < edgeDet v) (x y : Fin n → K) (hy : RemovedFractions x y) :
    (insideSimplexA FinDiff.truncate x v true 0 = true ↔ ∃ w : Fin (n + 1) → K, (∀ i, 0 ≤ w i) ∧ IsBarycentric v y w) ∧
    (1 ≤ n → (insideSimplexA FinDiff.truncate x v false 0 = true ↔ ∃ w : Fin (n + 1) → K, (∀ i, 0 < w i) ∧ IsBarycentric v y w)) ∧
    ∀ b tol, 0 < tol → (insideSimplexA FinDiff.truncate x v b tol = true ↔
      ∃ w : Fin (n + 1) → K, IsBarycentric v y w ∧ ∀ i, -tol < w i ∧ w i < 1 + tol) := by
  simp only [insideSimplexA_eq hi.keep, ← hy.eq]
  exact ⟨C39_inside_partial v hd y, fun hn => C39_interior_partial hn v hd y, fun b tol ht => C39_tolerance_partial v hd y tol ht b⟩

omit [LinearOrder K] [IsStrictOrderedRing K] [FloorRing K] in
theorem unit_integer (n : ℕ) : IntegerVertices (Simplex.unit K n) := by
  intro i j
  unfold Simplex.unit
  split
  · exact ⟨1, by simp⟩
  · exact ⟨0, by simp⟩

omit [LinearOrder K] [IsStrictOrderedRing K] [FloorRing K] in
theorem unit_edgeDet (n : ℕ) : edgeDet (Simplex.unit K n) = 1 := by
  unfold edgeDet
  have : (Matrix.of fun (j i : Fin n) => Simplex.unit K n i.succ j - Simplex.unit K n 0 j) = 1 := by
    ext j i
    simp [Simplex.unit, Fin.succ_inj, Matrix.one_apply, eq_comm]
  rw [this, Matrix.det_one]

/-- C96 (finding): for the unit simplex as an array of integers, all points with coordinates of absolute value less than 1 get the barycentric coordinates
of the origin: the points inside of the simplex as well as points outside, which are reported to be inside. No point is reported to be in the interior. -/
theorem C96_unit_simplex (n : ℕ) (x : Fin n → K) (hx : ∀ j, |x j| < 1) :
    cartesianToBarycentricA FinDiff.truncate x (Simplex.unit K n) = (fun i => if i = 0 then 1 else 0) ∧
    insideSimplexA FinDiff.truncate x (Simplex.unit K n) true 0 = true ∧
    insideSimplexA FinDiff.truncate x (Simplex.unit K n) false 0 = false := by
  have hy : RemovedFractions x (fun _ => 0) := fun j => ⟨⟨0, by simp⟩, by simp, by simpa using hx j, by simp⟩
  have hd : 0 < edgeDet (Simplex.unit K n) := by rw [unit_edgeDet]; exact one_pos
  have hb : IsBarycentric (Simplex.unit K n) (fun _ => 0) (fun i : Fin (n + 1) => if i = 0 then (1 : K) else 0) := by
    refine ⟨by simp, ?_⟩
    funext j
    rw [Finset.sum_apply]
    simp [Simplex.unit]
  have e : cartesianToBarycentricA FinDiff.truncate x (Simplex.unit K n) = (fun i => if i = 0 then 1 else 0) := by
    rw [cartesianToBarycentricA_int (unit_integer n) hy, (isBarycentric_iff _ hd.ne' _ _).1 hb]
    exact (isBarycentric_iff _ hd.ne' _ _).1 (C38_barycentric_partial _ hd _)
  refine ⟨e, ?_, ?_⟩
  · rw [(C96_integer_inside _ (unit_integer n) hd x _ hy).1]
    exact ⟨_, fun i => by split <;> simp, hb⟩
  · rw [Bool.eq_false_iff]
    intro h
    unfold insideSimplexA at h
    rw [if_pos rfl, e] at h
    simp only [Bool.false_eq_true, if_false, List.all_eq_true, List.mem_finRange, true_implies, inOpenRange, Bool.and_eq_true, decide_eq_true_eq] at h
    have := (h 0).2
    simp at this

/-- The triangle (1, 0), (3, 1), (1, 2) has integer vertices and is positively oriented. -/
example : IntegerVertices (![![1, 0], ![3, 1], ![1, 2]] : Fin 3 → Fin 2 → ℚ) ∧ 0 < edgeDet (![![1, 0], ![3, 1], ![1, 2]] : Fin 3 → Fin 2 → ℚ) := by
  refine ⟨fun i j => ?_, by norm_num [edgeDet, Matrix.det_fin_two]⟩
  fin_cases i <;> fin_cases j
  · exact ⟨1, by simp⟩
  · exact ⟨0, by simp⟩
  · exact ⟨3, by simp⟩
  · exact ⟨1, by simp⟩
  · exact ⟨1, by simp⟩
  · exact ⟨2, by simp⟩

/-- The point (9/10, 9/10) is not in the unit triangle, but its coordinates are less than 1. -/
example : (∀ j, |(![9/10, 9/10] : Fin 2 → ℚ) j| < 1) ∧
    ¬ ∃ w : Fin 3 → ℚ, (∀ i, 0 ≤ w i) ∧ IsBarycentric (Simplex.unit ℚ 2) ![9/10, 9/10] w := by
  constructor
  · intro j
    fin_cases j <;> norm_num [abs_lt]
  · rintro ⟨w, h0, h1, h2⟩
    have e0 := congrFun h2 0
    have e1 := congrFun h2 1
    simp [Fin.sum_univ_three, Simplex.unit, Fin.ext_iff] at e0 e1 h1
    have := h0 0
    linarith

/-- The coordinates 3/2 and -1/2 without their fractional parts. -/
example : RemovedFractions (![3/2, -1/2] : Fin 2 → ℚ) ![1, 0] := by
  intro j
  fin_cases j
  · exact ⟨⟨1, by simp⟩, by norm_num [abs_le], by norm_num [abs_lt], by norm_num⟩
  · exact ⟨⟨0, by simp⟩, by norm_num, by norm_num [abs_lt], by norm_num⟩

end Verif.Props
