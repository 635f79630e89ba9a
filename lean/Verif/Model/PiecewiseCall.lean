import Verif.Model.Piecewise
import Verif.Model.MeshKdTree
/-!
# Model of the evaluation of piecewise polynomials at points, together with the search tree

Joins the models of `piecewise_polynomial/piecewise_polynomial.py` (PP), `kd_mesh_tree/simplicial_mesh_kd_tree.py`, `kd_tree.py` and
`inside_simplex`. As in `MeshKdTree`, the choice of the splitting planes is a parameter `split`; points are arrays also in one dimension.
-/

namespace Verif.PP
open Verif Verif.Poly Verif.Simplex Verif.SPoly Verif.L2G

variable {K V : Type} {m : Nat}

/-- The triangulation as the search tree sees it. -/
def meshOf (triangles : List (List Nat)) (vertices : List (Fin m → K)) : Kd.Mesh K := ⟨triangles, vertices.map List.ofFn⟩

section
variable [LinearOrder K] [Sub (Kd.Ext K)] [Mul (Kd.Ext K)] [One (Kd.Ext K)]

/-- The call of `create_kd_tree` in the constructor (PP 563-565). -/
def buildTree (split : List Nat → Py (List K × Int)) (triangles : List (List Nat)) (vertices : List (Fin m → K)) (support : List Nat) :
    Py (Kd.MeshTree K) :=
  Kd.createMeshTree (meshOf triangles vertices) split false 10 (some 5) (some support)

end

variable [Field K] [LinearOrder K] [AddCommGroup V] [DecidableEq V] [Module K V]

/-- `find_leaf_containing_point(self._bsp_tree, x).potentially_intersecting_simplices` (PP 628-630). -/
def leafOf (t : Kd.MeshTree K) (x : Fin m → K) : Py (List Nat) := do
  let n ← Kd.findLeaf t.h 0 (List.ofFn x)
  getE t.pis n

/-- `__call__` (PP 618-644) of an object that holds a tree built by `create_kd_tree`. -/
noncomputable def PObj.callAt (p : PObj K V m (Kd.MeshTree K)) (x : Fin m → K) : Py V :=
  p.call leafOf (fun x v => insideSimplex x v true 0) x

end Verif.PP
