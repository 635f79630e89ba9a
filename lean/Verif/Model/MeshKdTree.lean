import Verif.Model.KdTree
import Verif.Model.SimplicialComplex
/-!
# Model of `geometry/space_partitioning/kd_mesh_tree/simplicial_mesh_kd_tree.py`

The nodes are those of `KdTree`; the field `potentially_intersecting_simplices` of each node is kept in a second list. Vertices are points
(lists); in one dimension numbers as vertices give the same as lists of length one, because only their dimension (26-31) and `simplex_vertices`, which
returns an n x 1 array (simplicial_complex.py:279-288), are used. The arithmetic of infinite floats is only used to compute a volume that is then compared with None; it
is a parameter (the type class arguments `Sub`, `Mul`, `One` on `Ext K`). How `create_kd_tree` chooses the splitting plane (median of the centroids, axis of
largest variance, 111-116 and 129-134) is a parameter `split` here; it is modelled by `PointCloud.splitPlane`.
-/

namespace Verif.Kd
open Verif Verif.Aabb

variable {K : Type}

/-- All node objects with their lists of potentially intersecting simplices. -/
structure MeshTree (K : Type) where
  h : Heap K
  pis : List (List Nat)

/-- A mesh. -/
structure Mesh (K : Type) where
  simplices : List (List Nat)
  vertices : List (List K)

/-- `_get_potentially_intersecting_simplices` (159-164) for the root node. -/
def rootPis (m : Mesh K) (interest : Option (List Nat)) : List Nat :=
  match interest with
  | none => List.range m.simplices.length
  | some l => l

/-- `KdTreeSMNode.__init__` (26-48) for the root node. -/
def meshRoot (m : Mesh K) (interest : Option (List Nat)) : Py (MeshTree K) := do
  let v ← getE m.vertices 0
  return ⟨createKdTree v.length, [rootPis m interest]⟩

/-- `cut_subtree` (inherited, kd_tree.py 96-104). -/
def meshCut (t : MeshTree K) (id : Nat) : Py (MeshTree K) := do
  let h' ← cutSubtree t.h id
  return ⟨h', t.pis⟩

/-- `recurse` (kd_tree.py 106-117) with a function that changes the tree. The first argument bounds the depth of the recursion. -/
def recurseRec (fn : MeshTree K → Nat → Py (MeshTree K)) : Nat → MeshTree K → Nat → Py (MeshTree K)
  | 0, _, _ => .error .runtime
  | f + 1, t, id => do
    let t1 ← fn t id
    let nd ← getE t1.h id
    match nd.children with
    | none => return t1
    | some (a, b) => do
      let t2 ← recurseRec fn f t1 a
      recurseRec fn f t2 b

variable [LinearOrder K] [Sub (Ext K)] [Mul (Ext K)] [One (Ext K)]

/-- The loop of `_get_potentially_intersecting_simplices` (168-172) for a node with the given box. -/
def intersectLoop (m : Mesh K) (aabb : Box (Ext K)) : List Nat → Py (List Nat)
  | [] => .ok []
  | i :: is => do
    let s ← getE m.simplices i
    let v ← Complex.simplexVertices s m.vertices
    let b ← create v
    let c ← intersection aabb (b.1.map fin, b.2.map fin)
    let e ← isEmpty c
    let rest ← intersectLoop m aabb is
    return if !e then i :: rest else rest

/-- `_get_potentially_intersecting_simplices` (141-173) for a non-root node. -/
def potentiallyIntersecting (m : Mesh K) (h : Heap K) (id : Nat) (parentPis : List Nat) : Py (List Nat) := do
  let aabb ← nodeAabb h id
  intersectLoop m aabb parentPis

/-- `KdTreeSMNode.subdivide` (50-72): like `KdTreeNode.subdivide`, and the lists of the two children are computed. -/
def meshSubdivide (m : Mesh K) (t : MeshTree K) (id : Nat) (pp : List K) (i : Int) : Py (MeshTree K) := do
  let h' ← subdivide t.h id pp i
  let p ← getE t.pis id
  let l ← potentiallyIntersecting m h' t.h.length p
  let r ← potentiallyIntersecting m h' (t.h.length + 1) p
  return ⟨h', t.pis ++ [l, r]⟩

/-- The test in lines 125-127, which is absent for `fixed_depth`. Comparing with None raises TypeError. -/
def stopTest (fixedDepth : Bool) (maxSimplices : Option Nat) (n : Nat) : Py Bool :=
  if fixedDepth then .ok false else match maxSimplices with
    | none => .error .type
    | some k => .ok (decide (n ≤ k))

/-- `subdivide_fn` (103-116 for `fixed_depth`, 118-134 otherwise). With `max_simplices_in_leaf = None` the comparison in line 125 raises TypeError. -/
def subdivideFn (m : Mesh K) (split : List Nat → Py (List K × Int)) (fixedDepth : Bool) (maxDepth : Nat) (maxSimplices : Option Nat)
    (t : MeshTree K) (id : Nat) : Py (MeshTree K) := do
  let d ← depth t.h id
  if d = maxDepth then return t
  let p ← getE t.pis id
  if p.isEmpty then return t
  let stop ← stopTest fixedDepth maxSimplices p.length
  if stop then return t
  let (pp, axis) ← split p
  meshSubdivide m t id pp axis

/-- `create_kd_tree` (75-138). -/
def createMeshTree (m : Mesh K) (split : List Nat → Py (List K × Int)) (fixedDepth : Bool) (maxDepth : Nat) (maxSimplices : Option Nat)
    (interest : Option (List Nat)) : Py (MeshTree K) := do
  let t ← meshRoot m interest
  recurseRec (subdivideFn m split fixedDepth maxDepth maxSimplices) (maxDepth + 1) t 0

/-- Mesh trees that can be built by any sequence of subdivisions and cuts. -/
inductive MeshReachable (m : Mesh K) (interest : Option (List Nat)) : MeshTree K → Prop
  | root {t : MeshTree K} : meshRoot m interest = .ok t → MeshReachable m interest t
  | subdivide {t t' : MeshTree K} (id : Nat) (pp : List K) (i : Int) : MeshReachable m interest t → meshSubdivide m t id pp i = .ok t' →
      MeshReachable m interest t'
  | cut {t t' : MeshTree K} (id : Nat) : MeshReachable m interest t → meshCut t id = .ok t' → MeshReachable m interest t'

end Verif.Kd
