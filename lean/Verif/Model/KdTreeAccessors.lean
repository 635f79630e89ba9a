import Verif.Model.KdTree
/-!
# Model of the accessors of kd-tree nodes (`geometry/space_partitioning/kd_tree.py`)
-/

namespace Verif.Kd
open Verif

variable {K : Type}

/-- `is_root` (44-49). -/
def isRoot (h : Heap K) (id : Nat) : Py Bool := do
  let nd ← getE h id
  return nd.parent.isNone

/-- `is_leaf` (51-56). -/
def isLeaf (h : Heap K) (id : Nat) : Py Bool := do
  let nd ← getE h id
  return nd.children.isNone

/-- `sibling_index` (149-156). -/
def siblingIndex (h : Heap K) (id : Nat) : Py Nat := do
  let nd ← getE h id
  return nd.side

end Verif.Kd
