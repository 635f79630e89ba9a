import Mathlib.Order.WithBot
import Mathlib.Algebra.Group.Basic
import Mathlib.Algebra.Order.Group.Unbundled.Basic
import Verif.Model.Aabb
/-!
# Model of `geometry/space_partitioning/kd_tree.py` and `tree_traversal.py`

The node objects live in a heap (a list; a node is identified by its position, the root is node 0), because the objects refer to their parent
and are changed in place. A node that has been removed by `cut_subtree` stays in the heap: Python code may still hold a reference to it.
Recursive functions take the number of nodes in the heap as a bound on the recursion depth; running out of it stands for RecursionError.
-/

namespace Verif.Kd
open Verif Verif.Aabb

variable {K : Type}

/-- The fields of a `KdTreeNode` (kd_tree.py 23-42). -/
structure Node (K : Type) where
  parent : Option Nat
  side : Nat
  children : Option (Nat × Nat)
  planePoint : Option (List K)
  planeIdx : Option Nat
  k : Nat
  deriving DecidableEq

/-- All node objects. -/
abbrev Heap (K : Type) := List (Node K)

/-- `KdTreeNode.__init__` (23-42). -/
def newNode (parent : Option Nat) (k side : Nat) : Node K := ⟨parent, side, none, none, none, k⟩

/-- `create_kd_tree` (159-167): the heap with just the root. -/
def createKdTree (k : Nat) : Heap K := [newNode none k 0]

/-- `subdivide` (73-94) on node `id`. In one dimension a number may be passed as plane point (85-87), here it is always a list. -/
def subdivide (h : Heap K) (id : Nat) (planePoint : List K) (planeNormalIdx : Int) : Py (Heap K) := do
  let nd ← getE h id
  if nd.children.isSome then throw .runtime
  pyAssert (decide (planeNormalIdx ≥ 0))
  pyAssert (decide (planeNormalIdx < nd.k))
  pyAssert (decide (planePoint.length = nd.k))
  let nd' : Node K := { nd with planePoint := some planePoint, planeIdx := some planeNormalIdx.toNat, children := some (h.length, h.length + 1) }
  return h.set id nd' ++ [newNode (some id) nd.k 0, newNode (some id) nd.k 1]

/-- `cut_subtree` (96-104) on node `id`. -/
def cutSubtree (h : Heap K) (id : Nat) : Py (Heap K) := do
  let nd ← getE h id
  return h.set id { nd with planePoint := none, planeIdx := none, children := none }

/-- `sibling` (58-71); `self.parent.children` is None if the parent has been cut: TypeError. -/
def sibling (h : Heap K) (id : Nat) : Py (Option Nat) := do
  let nd ← getE h id
  match nd.parent with
  | none => return none
  | some p => do
    let pn ← getE h p
    match pn.children with
    | none => .error .type
    | some (a, b) => if nd.side = 0 then return some b else return some a

/-- `address` (119-136). -/
def addressRec (h : Heap K) : Nat → Nat → Py (List Nat)
  | 0, _ => .error .runtime
  | f + 1, id => do
    let nd ← getE h id
    match nd.parent with
    | none => return [0]
    | some p => do
      let a ← addressRec h f p
      return a ++ [nd.side]

/-- `address` (119-136). -/
def address (h : Heap K) (id : Nat) : Py (List Nat) := addressRec h h.length id

/-- `depth` (138-147). -/
def depthRec (h : Heap K) : Nat → Nat → Py Nat
  | 0, _ => .error .runtime
  | f + 1, id => do
    let nd ← getE h id
    match nd.parent with
    | none => return 0
    | some p => do
      let d ← depthRec h f p
      return d + 1

/-- `depth` (138-147). -/
def depth (h : Heap K) (id : Nat) : Py Nat := depthRec h h.length id

/-- A field that is None on a node without splitting plane: indexing with it or into it raises TypeError. -/
def typeE {β : Type} : Option β → Py β
  | some x => .ok x
  | none => .error .type

/-- `_find_leaf_containing_point_recursive` (233-250). -/
def findLeafRec [LinearOrder K] [Sub K] [Zero K] (h : Heap K) (point : List K) : Nat → Nat → Py Nat
  | 0, _ => .error .runtime
  | f + 1, id => do
    let nd ← getE h id
    match nd.children with
    | none => return id
    | some (a, b) => do
      let i ← typeE nd.planeIdx
      let pp ← typeE nd.planePoint
      let x ← getE point i
      let y ← getE pp i
      if x - y < 0 then findLeafRec h point f a else findLeafRec h point f b

/-- `find_leaf_containing_point` (170-180). -/
def findLeaf [LinearOrder K] [Sub K] [Zero K] (h : Heap K) (root : Nat) (point : List K) : Py Nat := findLeafRec h point h.length root

/-- `in_node_space` (183-206). -/
def inNodeSpaceRec [LinearOrder K] [Sub K] [Zero K] (h : Heap K) (point : List K) : Nat → Nat → Py Bool
  | 0, _ => .error .runtime
  | f + 1, id => do
    let nd ← getE h id
    match nd.parent with
    | none => return true
    | some p => do
      let pn ← getE h p
      let i ← typeE pn.planeIdx
      let pp ← typeE pn.planePoint
      let x ← getE point i
      let y ← getE pp i
      let s := if nd.side = 0 then decide (x - y ≤ 0) else decide (x - y ≥ 0)
      if s then inNodeSpaceRec h point f p else return false

/-- `in_node_space` (183-206). -/
def inNodeSpace [LinearOrder K] [Sub K] [Zero K] (h : Heap K) (id : Nat) (point : List K) : Py Bool := inNodeSpaceRec h point h.length id

/-- Floating point numbers including the infinities. -/
abbrev Ext (K : Type) := WithBot (WithTop K)

/-- A finite number. -/
def fin (x : K) : Ext K := ((x : WithTop K) : WithBot (WithTop K))

/-- `node_aabb` (209-230). -/
def nodeAabbRec [LinearOrder K] (h : Heap K) : Nat → Nat → Py (Box (Ext K))
  | 0, _ => .error .runtime
  | f + 1, id => do
    let nd ← getE h id
    match nd.parent with
    | none => return full nd.k
    | some p => do
      let aabb ← nodeAabbRec h f p
      let pn ← getE h p
      let i ← typeE pn.planeIdx
      let pp ← typeE pn.planePoint
      let y ← getE pp i
      if nd.side = 0 then do
        let hi ← setE aabb.2 i (fin y)
        return (aabb.1, hi)
      else do
        let lo ← setE aabb.1 i (fin y)
        return (lo, aabb.2)

/-- `node_aabb` (209-230). -/
def nodeAabb [LinearOrder K] (h : Heap K) (id : Nat) : Py (Box (Ext K)) := nodeAabbRec h h.length id

/-- `get_descendant_by_address` (tree_traversal.py 4-20): the children of a leaf are None (TypeError), a node has two children. -/
def getDescendant (h : Heap K) : Nat → List Nat → Py Nat
  | id, [] => .ok id
  | id, i :: is => do
    let nd ← getE h id
    let (a, b) ← typeE nd.children
    let c ← getE [a, b] i
    getDescendant h c is

/-- `get_node_by_address` (tree_traversal.py 23-40). -/
def getNodeByAddress (h : Heap K) (root : Nat) (address : List Nat) : Py Nat := do
  let a0 ← getE address 0
  pyAssert (decide (a0 = 0))
  if address.length = 1 then return root
  getDescendant h root (address.drop 1)

/-- `recurse` (106-117) as the list of the nodes in the order in which they are visited by a function that does not change the tree. -/
def visitRec (h : Heap K) : Nat → Nat → Py (List Nat)
  | 0, _ => .error .runtime
  | f + 1, id => do
    let nd ← getE h id
    match nd.children with
    | none => return [id]
    | some (a, b) => do
      let l ← visitRec h f a
      let r ← visitRec h f b
      return id :: (l ++ r)

/-- `recurse` (106-117). -/
def visit (h : Heap K) (id : Nat) : Py (List Nat) := visitRec h h.length id

/-- The trees that can be built: any sequence of subdivisions and cuts, on any nodes (also those that were cut off earlier). -/
inductive Reachable (k : Nat) : Heap K → Prop
  | create : Reachable k (createKdTree k)
  | subdivide {h h' : Heap K} (id : Nat) (pp : List K) (i : Int) : Reachable k h → subdivide h id pp i = .ok h' → Reachable k h'
  | cut {h h' : Heap K} (id : Nat) : Reachable k h → cutSubtree h id = .ok h' → Reachable k h'

end Verif.Kd
