import Verif.Props.AffineMap
import Verif.Props.Projection
import Verif.Props.MultiIndexAlgebra
import Verif.Props.SimplexPolynomial
import Verif.Props.StrUtils
import Verif.Props.Representation
/-!
# Further functions of the interface: Cartesian products, texts appended to code, Lagrange points of a simplex, sub simplices, projection maps
-/

namespace Verif.Props
open Verif Verif.Spec Verif.Simplex Verif.Poly Verif.SPoly

/-! ## C11 -/

/-- **C11** `cartesian_product(s, t)` is the set of the pairs of an element of `s` and an element of `t`. -/
theorem C11_cartesian_product [DecidableEq α] (s t : List α) :
    (SetTheory.cartesianProduct s t).Nodup ∧ ∀ y, y ∈ SetTheory.cartesianProduct s t ↔ ∃ a ∈ s, ∃ b ∈ t, y = [a, b] :=
  ⟨SetTheory.nodup_foldl_setAdd (fun x => x) _ [] List.nodup_nil, SetTheory.mem_cartesianProduct s t⟩

example : SetTheory.cartesianProduct [1, 2] [3, 4] = [[1, 3], [1, 4], [2, 3], [2, 4]] := by decide

/-! ## C32 -/

/-- **C32** `al` and `verbatim` append the text as it is, `ws` appends the names of the open scopes. -/
theorem C32_append (w : Str.Writer) (s : Str.Str) :
    (w.al s).code = w.code ++ s ∧ ((w.pushScope s).ws).code = w.code ++ w.getScope ++ s ++ w.delimiter := by
  refine ⟨rfl, ?_⟩
  show w.code ++ (w.pushScope s).getScope = _
  rw [(Str.C32_scope w s).1]
  simp

/-! ## C62 -/

/-- **C62** `generate_lagrange_points_simplex(v, r)` lists the points with the barycentric coordinates `ν / r`, in the order of the multi-indices
`ν` generated by `generate_all(m, r)`. -/
theorem C62_lagrange_points {K : Type} [Field K] [DecidableEq K] {m : ℕ} (v : Vertices K m m) (r : ℕ) :
    ∃ xs, lagrangePointsSimplex v r = .ok xs ∧ xs.length = getDimension r m ∧
      ∀ (i : ℕ) (ν : Fin m → ℕ), (MI.generateAll m r)[i]? = some (List.ofFn ν) →
        ∃ x c, xs[i]? = some x ∧ IsBarycentric v x c ∧ ∀ j, c j.succ = (ν j : K) / (r : K) := by
  refine ⟨_, by unfold lagrangePointsSimplex; rw [fromUnit_eq]; rfl, ?_, fun i ν hi => ?_⟩
  · rw [List.length_map, length_lagrangePoints, length_mis_eq]
  · rw [MI.generateAll_eq_mis] at hi
    refine ⟨_, _, ?_, up_bary v (fun j => (ν j : K) / (r : K)), fun j => by simp⟩
    rw [lagrangePoints_eq, List.map_map, List.getElem?_map, hi, Option.map_some, Function.comp]
    congr 2
    funext j
    simp

example : (MI.generateAll 2 2)[4]? = some (List.ofFn ![1, 1]) := by decide

/-! ## C67 -/

/-- **C67** `sub_simplex(v, f)` consists of the vertices with the indices in `f`, in this order, and fails if one of them is too large. -/
theorem C67_sub_simplex {K : Type} [Field K] {k n : ℕ} (v : Vertices K k n) (f : List ℕ) :
    (∀ g : List (Fin (k + 1)), f = g.map Fin.val → subSimplex v f = .ok (g.map v)) ∧
      ((∃ i ∈ f, k < i) → subSimplex v f = .error .index) := by
  have hget : ∀ i : Fin (k + 1), getE (List.ofFn v) (i : ℕ) = .ok (v i) := fun i => by
    have : (List.ofFn v)[(i : ℕ)]? = some (v i) := by rw [List.getElem?_ofFn, dif_pos i.2]
    unfold getE
    rw [this]
  constructor
  · rintro g rfl
    unfold subSimplex
    rw [List.mapM_map]
    exact mapM_eq_ok _ _ fun i _ => hget i
  · rintro ⟨i, hi, hk⟩
    unfold subSimplex
    induction f with
    | nil => simp at hi
    | cons a f ih =>
      rw [List.mapM_cons]
      by_cases ha : a < k + 1
      · rw [show a = ((⟨a, ha⟩ : Fin (k + 1)) : ℕ) from rfl, hget, Py.bind_ok, ih ((List.mem_cons.1 hi).resolve_left (by omega))]
        rfl
      · rw [show getE (List.ofFn v) a = .error .index by unfold getE; simp [ha]]
        rfl

example : ∃ i ∈ [0, 3], 2 < i := by decide

/-! ## C60 -/

open Matrix in
/-- **C60** `subspace_projection_map(basis, origin)` is a function that maps a point to the point of the affine subspace (through the origin,
spanned by the basis) that is nearest to it. -/
theorem C60_subspace_projection_map {n m : ℕ} (hn : n ≠ 1) (basis q : Matrix (Fin n) (Fin m) ℝ) (r : Matrix (Fin m) (Fin m) ℝ)
    (h : Linalg.IsQR basis q r) (hb : Linalg.IndepColumns basis) (hmn : m ≤ n) (origin : Option (Fin n → ℝ)) :
    ∃ f, AffineMap.subspaceProjectionMap basis q origin = .ok f ∧
      ∀ x, ∃ c, f [.vec n x] = .ok (.vec n (origin.getD 0 + basis *ᵥ c)) ∧
        ∀ d, len (x - (origin.getD 0 + basis *ᵥ c)) ≤ len (x - (origin.getD 0 + basis *ᵥ d)) := by
  obtain ⟨a, b, h1, h2⟩ := Linalg.C60_subspace_projection basis q r h hb hmn origin
  obtain ⟨⟨f, h3, h4⟩, -⟩ := C93_create a b (.mat n n a) (.matrix (Or.inl hn) a)
  have hp : ∀ x : Fin n → ℝ, pointArr x = .vec n x := fun x => by unfold pointArr; rw [dif_neg hn]
  rw [hp] at h3
  refine ⟨f, by unfold AffineMap.subspaceProjectionMap; rw [h1]; exact h3, fun x => ?_⟩
  obtain ⟨⟨c, hc⟩, ho⟩ := h2 x
  refine ⟨c, by rw [← hp, ← hp, h4, hc], fun d => ?_⟩
  rw [hc] at ho
  set y := origin.getD 0 + basis *ᵥ c with hy
  unfold len
  apply Real.sqrt_le_sqrt
  have e : x - (origin.getD 0 + basis *ᵥ d) = (x - y) + basis *ᵥ (c - d) := by
    rw [hy, mulVec_sub]
    abel
  have horth : (x - y) ⬝ᵥ (basis *ᵥ (c - d)) = 0 := by
    rw [dotProduct_mulVec, ← mulVec_transpose, ho, zero_dotProduct]
  rw [e]
  have : ∑ i, ((x - y) + basis *ᵥ (c - d)) i ^ 2 = ∑ i, (x - y) i ^ 2 + 2 * ((x - y) ⬝ᵥ (basis *ᵥ (c - d))) + ∑ i, (basis *ᵥ (c - d)) i ^ 2 := by
    rw [dotProduct, Finset.mul_sum, ← Finset.sum_add_distrib, ← Finset.sum_add_distrib]
    exact Finset.sum_congr rfl fun i _ => by rw [Pi.add_apply]; ring
  rw [this, horth]
  have : 0 ≤ ∑ i, (basis *ᵥ (c - d)) i ^ 2 := Finset.sum_nonneg fun i _ => sq_nonneg _
  linarith

/-- **C60** In a space of dimension one the function fails. -/
theorem C60_subspace_projection_map_line {m : ℕ} (basis q : Matrix (Fin 1) (Fin m) ℝ) (origin : Option (Fin 1 → ℝ)) :
    AffineMap.subspaceProjectionMap basis q origin = .error .assertion := by
  unfold AffineMap.subspaceProjectionMap Linalg.subspaceProjectionTransformation
  simp only [pyAssert]
  split
  · simp only [Py.bind_ok, Py.pure_eq]
    exact (C93_create_rejects _ _ (fun _ => (0 : ℝ)) (l := 0) 0 false).1 rfl rfl
  · rfl

end Verif.Props
