import Verif.Model.SimplexCounts
import Verif.Props.SimplicialComplex
/-!
# C36: the numbers of vertices and of boundary simplices of a simplex
-/

namespace Verif.Props
open Verif Verif.Complex

/-- **C36** `num_simplex_vertices` of the dimension of a simplex is the number of its vertices, and the number of its zero dimensional sub simplices. -/
theorem C36_num_vertices (s : List Nat) (h0 : s ≠ []) (hn : s.Nodup) :
    numSimplexVertices (dimension s) = s.length ∧
      ∃ l, subSimplicesFixedDimension s 0 = .ok l ∧ l.Nodup ∧ (l.length : Int) = numSimplexVertices (dimension s) := by
  have hl : 0 + 1 ≤ s.length := List.length_pos_iff.2 h0
  have e : numSimplexVertices (dimension s) = s.length := by unfold numSimplexVertices dimension; omega
  obtain ⟨l, h1, h2, -, h3⟩ := C36_fixed_dimension s 0 hn hl
  refine ⟨e, l, h1, h2, ?_⟩
  rw [e, h3]; simp

/-- **C36** For a simplex of dimension at least one `num_simplex_boundary_simplices` is the number of simplices in `simplex_boundary`, and the number of sub
simplices of one dimension less. -/
theorem C36_num_boundary_simplices (s : List Nat) (hn : s.Nodup) (h : 2 ≤ s.length) :
    (∃ fs, simplexBoundary s = .ok fs ∧ (fs.length : Int) = numSimplexBoundarySimplices (dimension s)) ∧
      ∃ l, subSimplicesFixedDimension s (dimension s - 1) = .ok l ∧ l.Nodup ∧ (l.length : Int) = numSimplexBoundarySimplices (dimension s) := by
  have e : numSimplexBoundarySimplices (dimension s) = s.length := by unfold numSimplexBoundarySimplices dimension; omega
  refine ⟨?_, ?_⟩
  · obtain ⟨fs, h1, h2, -⟩ := C35_simplex_boundary s hn h
    exact ⟨fs, h1, by rw [e, h2]⟩
  · obtain ⟨l, h1, h2, -, h3⟩ := C36_fixed_dimension s (s.length - 2) hn (by omega)
    refine ⟨l, ?_, h2, ?_⟩
    · rw [← h1]; congr 1; unfold dimension; omega
    · rw [e, h3, show s.length - 2 + 1 = s.length - 1 by omega, Nat.choose_symm (by omega : 1 ≤ s.length), Nat.choose_one_right]

/-- **C36** A vertex has no boundary simplices, but `num_simplex_boundary_simplices(0)` is one. -/
theorem C36_num_boundary_simplices_vertex (v : Nat) :
    simplexBoundary [v] = .ok [] ∧ numSimplexBoundarySimplices (dimension [v]) = 1 := ⟨rfl, rfl⟩

/-- A tetrahedron meets the hypotheses. -/
example : (∃ fs, simplexBoundary [3, 1, 7, 5] = .ok fs ∧ (fs.length : Int) = 4) ∧ numSimplexVertices (dimension [3, 1, 7, 5]) = 4 := by
  obtain ⟨⟨fs, h1, h2⟩, -⟩ := C36_num_boundary_simplices [3, 1, 7, 5] (by decide) (by decide)
  exact ⟨⟨fs, h1, h2⟩, (C36_num_vertices [3, 1, 7, 5] (by decide) (by decide)).1⟩

end Verif.Props
