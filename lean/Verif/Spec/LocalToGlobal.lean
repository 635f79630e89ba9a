import Mathlib.Data.List.Nodup
/-!
# Specification of numberings of degrees of freedom on meshes

A pair (simplex `T`, multi-index `ν` with norm at most `r`) stands for the point of `T` whose barycentric coordinates are `(r - |ν|) / r` for
the first vertex and `ν i / r` for the vertex `i + 1`.
-/

namespace Verif.Spec

/-- `ν` is a multi-index with `n` components and norm at most `r`. -/
def IsIndex (n r : ℕ) (ν : List ℕ) : Prop := ν.length = n ∧ ν.sum ≤ r

/-- The point of a pair as a function of the vertices of the mesh: `r` times its barycentric coordinate, zero for the vertices that are not in the
simplex. Pairs of different simplices denote the same point if the functions are the same. -/
def latticePoint (r : ℕ) (T ν : List ℕ) (v : ℕ) : ℕ := ((r - ν.sum) :: ν).getD (T.idxOf v) 0

/-- The point is in one of the given simplices: it is a combination of vertices of this simplex. A degree of freedom of degree zero belongs
to the whole simplex `T`. -/
def OnBoundary (bs : List (List ℕ)) (r : ℕ) (T ν : List ℕ) : Prop :=
  ∃ b ∈ bs, ∀ v ∈ T, (r = 0 ∨ latticePoint r T ν v ≠ 0) → v ∈ b

/-- A non-empty list of `n`-dimensional simplices (`n + 1` different vertices). -/
structure IsMesh (n : ℕ) (triangles : List (List ℕ)) : Prop where
  ne : triangles ≠ []
  simplex : ∀ T ∈ triangles, T.length = n + 1 ∧ T.Nodup

/-- No simplex (set of vertices) occurs twice. -/
def NoDuplicates (triangles : List (List ℕ)) : Prop := triangles.Pairwise (fun S T => ¬ ∀ v, v ∈ S ↔ v ∈ T)

/-- A list of simplices of any dimension. -/
def AreSimplices (bs : List (List ℕ)) : Prop := ∀ b ∈ bs, b ≠ [] ∧ b.Nodup

end Verif.Spec
