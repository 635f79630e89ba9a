import Verif.Lemmas.AffineMap
import Verif.Props.SimplexGeometry
/-!
# C93: affine maps as numpy values

`pointArr x` is the number or array that stands for the point `x`, `RepMatrix A a` says that the value `a` stands for the matrix `A`
(`Verif/Spec/AffineMap.lean`).
-/

namespace Verif.Props
open Verif Verif.Spec Verif.AffineMap Matrix

variable {K : Type} [Field K]

/-- **C93** `create_affine_map(a, b)(x)` is `A x + b`, for all dimensions and every value `a` that stands for `A`; with `multiple_arguments` the
map takes the coordinates as separate arguments. -/
theorem C93_create {n m : ℕ} (A : Matrix (Fin n) (Fin m) K) (b : Fin n → K) (a : Arr K) (hA : RepMatrix A a) :
    (∃ f, createAffineMap a (pointArr b) false = .ok f ∧ ∀ x, f [pointArr x] = .ok (pointArr (A *ᵥ x + b))) ∧
    ∃ f, createAffineMap a (pointArr b) true = .ok f ∧
      ∀ x : Fin m → K, f (List.ofFn fun i => .num (x i)) = .ok (pointArr (A *ᵥ x + b)) := by
  obtain ⟨f, h1, h2, _⟩ := createAffineMap_rep hA b false
  obtain ⟨g, h3, _, h4⟩ := createAffineMap_rep hA b true
  exact ⟨⟨f, h1, h2 rfl⟩, g, h3, h4 rfl⟩

/-- **C93** A map created without `multiple_arguments` takes exactly one argument. -/
theorem C93_arity (a b : Arr K) (f : List (Arr K) → Py (Arr K)) (hf : createAffineMap a b false = .ok f) (args : List (Arr K)) (h : args.length ≠ 1) :
    f args = .error .type := by
  have hs : ∀ g : Arr K → Py (Arr K), single g args = .error .type := by
    intro g
    match args, h with
    | [], _ => rfl
    | [x], h => exact absurd rfl h
    | _ :: _ :: _, _ => rfl
  have hc : ∀ g : Arr K → Py (Arr K), callWith false g args = .error .type := fun g => hs g
  cases a with
  | num x =>
    simp only [createAffineMap] at hf
    cases b <;> simp [isNumber, pyAssert] at hf
    subst hf; exact hs _
  | vec n x =>
    simp only [createAffineMap] at hf
    split at hf <;> (obtain rfl := Except.ok.inj hf; exact hs _)
  | mat n m x =>
    simp only [createAffineMap] at hf
    split at hf
    · split at hf
      · exact absurd hf (by simp)
      · cases b <;> simp [npLen, pyAssert] at hf
        all_goals (split at hf <;> simp at hf)
        all_goals (subst hf; exact hs _)
    · split at hf
      · cases b <;> simp [isNumber, pyAssert] at hf
        subst hf; exact hc _
      · cases b <;> simp [npLen, pyAssert] at hf
        all_goals (split at hf <;> simp at hf)
        all_goals (subst hf; exact hc _)

/-- **C93** `create_affine_map` rejects a matrix with one row and one column, and an offset that does not fit: AssertionError (TypeError for a
number where an array is needed). -/
theorem C93_create_rejects {n m l : ℕ} (A : Matrix (Fin n) (Fin m) K) (b : Arr K) (c : Fin l → K) (y : K) (multi : Bool) :
    (n = 1 → m = 1 → createAffineMap (.mat n m A) b multi = .error .assertion) ∧
    (n ≠ 1 → l ≠ n → createAffineMap (.mat n m A) (.vec l c) multi = .error .assertion) ∧
    (n ≠ 1 → createAffineMap (.mat n m A) (.num y) multi = .error .type) ∧
    (n = 1 → m ≠ 1 → createAffineMap (.mat n m A) (.vec l c) multi = .error .assertion) := by
  refine ⟨fun h1 h2 => ?_, fun h1 h2 => ?_, fun h1 => ?_, fun h1 h2 => ?_⟩
  · simp [createAffineMap, h1, h2]
  · by_cases hm : m = 1 <;> simp [createAffineMap, h1, hm, npLen, h2]
  · by_cases hm : m = 1 <;> simp [createAffineMap, h1, hm, npLen]
  · simp [createAffineMap, h1, h2, isNumber]

/-- **C93** `inverse_affine_transformation` returns values that stand for the inverse map. -/
theorem C93_inverse [DecidableEq K] {n : ℕ} (A : Matrix (Fin n) (Fin n) K) (b : Fin n → K) (a : Arr K) (hA : RepMatrix A a) :
    (A.det ≠ 0 → ∃ ab B d, inverseAffine a (pointArr b) = .ok ab ∧ RepMap B d ab ∧
      (∀ x, B *ᵥ (A *ᵥ x + b) + d = x) ∧ ∀ x, A *ᵥ (B *ᵥ x + d) + b = x) ∧
    (A.det = 0 → inverseAffine a (pointArr b) = .error (if n = 1 then .zeroDivision else .value)) := by
  obtain rfl := rep_square hA
  refine ⟨fun h => ⟨_, A⁻¹, -(A⁻¹ *ᵥ b), inverse_rep A b h, ⟨matArr_rep _, rfl⟩, fun x => ?_, fun x => ?_⟩, inverse_singular A b⟩
  · rw [mulVec_add, mulVec_mulVec, nonsing_inv_mul _ (isUnit_iff_ne_zero.2 h), one_mulVec]
    abel
  · rw [mulVec_add, mulVec_neg, mulVec_mulVec, mulVec_mulVec, mul_nonsing_inv _ (isUnit_iff_ne_zero.2 h), one_mulVec, one_mulVec]
    abel

/-- **C93** `pseudoinverse_affine_transformation` of a map to a space of dimension other than one: values that stand for a left inverse, if the
columns of the matrix are linearly independent, AssertionError otherwise. -/
theorem C93_pseudoinverse {n m : ℕ} (hn : n ≠ 1) (A : Matrix (Fin n) (Fin m) ℝ) (b : Fin n → ℝ) (a : Arr ℝ) (hA : RepMatrix A a) :
    ((∀ x, A *ᵥ x = 0 → x = 0) → ∃ ab B d, pseudoinverseAffine a (pointArr b) = .ok ab ∧ RepMap B d ab ∧
      ∀ x, B *ᵥ (A *ᵥ x + b) + d = x) ∧
    (¬ (∀ x, A *ᵥ x = 0 → x = 0) → pseudoinverseAffine a (pointArr b) = .error .assertion) := by
  have hg := SimplexGeometry.indepColumns_iff_gram A
  refine ⟨fun h => ?_, fun h => ?_⟩
  · have hd := hg.1 h
    refine ⟨_, Linalg.pinv A, -(Linalg.pinv A *ᵥ b), (pseudo_rep hA b hn).trans (if_neg hd), ⟨.matrix (Or.inr hn) _, rfl⟩, fun x => ?_⟩
    have : Linalg.pinv A * A = 1 := by
      unfold Linalg.pinv
      rw [Matrix.mul_assoc, nonsing_inv_mul _ (isUnit_iff_ne_zero.2 hd)]
    rw [mulVec_add, mulVec_mulVec, this, one_mulVec]
    abel
  · rw [pseudo_rep hA b hn, if_pos (not_not.1 fun h' => h (hg.2 h'))]

/-- **C93** `affine_composition(phi1, phi2)` returns values that stand for `x ↦ phi2(phi1(x))` in exactly the following cases; here `phi1` maps
from dimension `l` to dimension `m` and `phi2` from `m` to `n`. -/
theorem C93_composition {l m n : ℕ} (A1 : Matrix (Fin m) (Fin l) K) (c1 : Fin m → K) (A2 : Matrix (Fin n) (Fin m) K) (c2 : Fin n → K)
    (a1 a2 : Arr K) (h1 : RepMatrix A1 a1) (h2 : RepMatrix A2 a2) :
    (∃ ab A c, affineComposition (a1, pointArr c1) (a2, pointArr c2) = .ok ab ∧ RepMap A c ab ∧ ∀ x, A *ᵥ x + c = A2 *ᵥ (A1 *ᵥ x + c1) + c2) ↔
      (m = 1 → n = 1 ∨ (l = 1 ∧ ∃ k v, a2 = .vec k v)) ∧
      (m ≠ 1 → n = 1 → (∃ k v, a2 = .vec k v) ∧ (l = 1 → ∃ k v, a1 = .vec k v)) := by
  have hv : ∀ a : Arr K, IsVec a ↔ ∃ k v, a = .vec k v := fun a => by
    cases a <;> simp [IsVec]
  simp only [← hv]
  constructor
  · rintro ⟨ab, A, c, h3, h4, _⟩
    exact comp_fits c1 c2 h1 h2 h3 h4
  · intro h
    obtain ⟨ab, h3, h4⟩ := comp_ok c1 c2 h1 h2 h
    refine ⟨ab, _, _, h3, h4, fun x => ?_⟩
    rw [mulVec_add, mulVec_mulVec, add_assoc]

section
open Simplex SimplexGeometry

/-- **C93** `affine_transformation_from_unit` and `affine_transformation_to_unit` return values that stand for maps which take the vertices of
the unit simplex to the vertices and back. -/
theorem C93_unit {k n : ℕ} (v : Vertices ℝ k n) (hk : 1 ≤ k) (h : NonDegenerate v) :
    ∃ ab A b cd C d, fromUnit v = .ok ab ∧ RepMap A b ab ∧ toUnit v = .ok cd ∧ RepMap C d cd ∧
      (∀ i, A *ᵥ Simplex.unit ℝ k i + b = v i) ∧ ∀ x, C *ᵥ (A *ᵥ x + b) + d = x := by
  have hk' : k ≠ 0 := by omega
  have hkn := nonDegenerate_le v h
  obtain ⟨phi, h1, h2⟩ := toUnit_arr v hk' h
  obtain ⟨phi', h3, h4⟩ := toUnit_eq v hk' h
  rw [h1] at h3
  cases h3
  refine ⟨_, edgeM v, v 0, _, phi.1, phi.2, fromUnit_arr v hk' hkn, ⟨matArr_rep _, rfl⟩, h2, ⟨matArr_rep _, rfl⟩, fun i => ?_, fun x => ?_⟩
  · obtain ⟨psi, h5, h6⟩ := C37_from_unit_vertices v hk hkn
    have h7 : affineFromUnit v = .ok (edgeM v, v 0) := by unfold affineFromUnit; simp [hkn]; rfl
    rw [h7] at h5
    cases h5
    exact h6 i
  · have := h4 (edgeM v *ᵥ x + v 0)
    rw [add_sub_cancel_right, pinv_edge v h] at this
    exact this

/-- **C93** `affine_transformation(vertices1, vertices2)`, unless the second simplex is a line in a space of dimension greater than one: values
that stand for a map which takes each vertex of the first simplex to the corresponding vertex of the second. -/
theorem C93_between {k n m : ℕ} (v1 : Vertices ℝ k n) (v2 : Vertices ℝ k m) (hk : 1 ≤ k) (h : NonDegenerate v1) (hm : k ≤ m)
    (hl : 2 ≤ k ∨ m = 1) :
    ∃ ab A b, AffineMap.affineTransformation v1 v2 = .ok ab ∧ RepMap A b ab ∧ (∀ i, A *ᵥ v1 i + b = v2 i) ∧
      ∃ f, AffineMap.createAffineMap ab.1 ab.2 false = .ok f ∧ ∀ i, f [pointArr (v1 i)] = .ok (pointArr (v2 i)) := by
  obtain ⟨phi, _, h2, h3⟩ := transformation_arr v1 v2 (by omega) h hm
  obtain ⟨ab', h4, h5, _⟩ := affineTransformationE_between v1 v2 hk h hm
  rw [h2] at h4
  cases h4
  have hf : Fits n k m (matArr phi.1) (matArr (edgeM v2)) := ⟨fun hk1 => Or.inl (by omega), fun _ hm1 => by omega⟩
  obtain ⟨ab, h6, h7⟩ := comp_ok phi.2 (v2 0) (matArr_rep phi.1) (matArr_rep (edgeM v2)) hf
  obtain ⟨⟨f, h8, h9⟩, _⟩ := C93_create _ (edgeM v2 *ᵥ phi.2 + v2 0) _ h7.1
  refine ⟨ab, _, _, h3.trans h6, h7, h5, f, ?_, fun i => ?_⟩
  · rw [h7.2]
    exact h8
  · rw [h9]
    exact congrArg _ (congrArg pointArr (h5 i))

/-- **C93** For two lines, the second in a space of dimension `m > 1`, the offset returned by `affine_transformation` is a matrix with `m` rows
and columns instead of a point. The map created from it returns such a matrix for every point; its diagonal is the right point `A x + b`,
and the other entries differ from it unless the origin is mapped to vertex 0 or the line has the same increment in both coordinates. -/
theorem C93_line {n m : ℕ} (v1 : Vertices ℝ 1 n) (v2 : Vertices ℝ 1 m) (h : NonDegenerate v1) (hm : 2 ≤ m) :
    ∃ (a : Arr ℝ) (b : Matrix (Fin m) (Fin m) ℝ), AffineMap.affineTransformation v1 v2 = .ok (a, .mat m m b) ∧
      ∃ (A : Matrix (Fin m) (Fin n) ℝ) (c : Fin m → ℝ) (t : ℝ), (∀ i, A *ᵥ v1 i + c = v2 i) ∧ c = v2 0 + t • (v2 1 - v2 0) ∧
        ∃ f, AffineMap.createAffineMap a (.mat m m b) false = .ok f ∧
          ∀ x, ∃ y : Matrix (Fin m) (Fin m) ℝ, f [pointArr x] = .ok (.mat m m y) ∧
            ∀ i j, y i j = (A *ᵥ x + c) j + t * ((v2 1 i - v2 0 i) - (v2 1 j - v2 0 j)) := by
  have hm1 : m ≠ 1 := by omega
  obtain ⟨phi, _, h2, h3⟩ := transformation_arr v1 v2 (by omega) h (by omega)
  obtain ⟨ab', h4, h5, _⟩ := affineTransformationE_between v1 v2 le_rfl h (by omega)
  rw [h2] at h4
  cases h4
  rw [line_comp hm1] at h3
  obtain ⟨f, h6, h7⟩ := create_matrix_offset hm1 (edgeM v2 * phi.1) (Matrix.of fun i j => edgeM v2 i 0 * phi.2 0 + v2 0 j)
  refine ⟨_, _, h3, edgeM v2 * phi.1, edgeM v2 *ᵥ phi.2 + v2 0, phi.2 0, h5, ?_, f, h6, fun x => ⟨_, h7 x, fun i j => ?_⟩⟩
  · funext i
    simp [mulVec, dotProduct, edgeM]
    ring
  · simp [mulVec, dotProduct, edgeM]
    ring


/-- The line from 1 to 2 is not degenerate. -/
theorem line_nonDegenerate : NonDegenerate (![![1], ![2]] : Fin 2 → Fin 1 → ℝ) := by
  intro w h1 h2
  have h3 := congrFun h2 0
  simp [Fin.sum_univ_two] at h1 h3
  funext i
  fin_cases i <;> simp <;> linarith

/-- The values for the line from 1 to 2 and the line from (0, 0) to (1, 2): the offset should be (-1, -2). -/
example : AffineMap.affineTransformation (![![1], ![2]] : Fin 2 → Fin 1 → ℝ) (![![0, 0], ![1, 2]] : Fin 2 → Fin 2 → ℝ) =
    .ok (.mat 2 1 !![1; 2], .mat 2 2 !![-1, -1; -2, -2]) := by
  have h1 : toUnit (![![1], ![2]] : Fin 2 → Fin 1 → ℝ) = .ok (matArr !![1], pointArr ![-1]) := by
    rw [matArr_one, pointArr_one]
    unfold toUnit AffineMap.fromUnit
    simp [AffineMap.inverseAffine, npMul, npOp, npNeg]
    norm_num
  unfold AffineMap.affineTransformation
  rw [h1, fromUnit_arr _ (by omega) (by omega)]
  simp only [Py.bind_ok]
  rw [line_comp (by omega)]
  congr 3
  · ext i j
    fin_cases i <;> fin_cases j <;> simp [edgeM, Matrix.mul_apply]
  · ext i j
    fin_cases i <;> fin_cases j <;> simp [edgeM]

/-- Examples for `C93_composition`: the case of two lines, and maps between planes. -/
example : RepMatrix (!![1; 2] : Matrix (Fin 2) (Fin 1) ℚ) (.mat 2 1 !![1; 2]) ∧ RepMatrix (!![3] : Matrix (Fin 1) (Fin 1) ℚ) (.num 3) :=
  ⟨.matrix (Or.inl (by omega)) _, .number _⟩

end

end Verif.Props
