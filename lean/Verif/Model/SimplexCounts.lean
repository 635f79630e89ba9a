import Verif.Model.SimplicialComplex
/-!
# Model of the counting functions of `geometry/mesh/simplicial_complex.py`
-/

namespace Verif.Complex

/-- `num_simplex_vertices` (160-167). -/
def numSimplexVertices (n : Int) : Int := n + 1

/-- `num_simplex_boundary_simplices` (170-184). -/
def numSimplexBoundarySimplices (n : Int) : Int := n + 1

end Verif.Complex
