import Verif.Model.KdTree
/-!
# Model of `KdTreeNode.recurse` with a function that changes the tree

`create_kd_tree` in mesh_kd_tree.py builds its tree in this way: the function subdivides the node it is called on.
-/

namespace Verif.Kd
open Verif

variable {K σ : Type}

/-- `recurse` (kd_tree.py 106-117) on node `id`. The function gets a node and may change the tree and other objects (the state `σ`). The third part
of the result is the list of the nodes the function was called on, in this order. The children are read after the function has been called on the
node, and once more before the second child is visited (117): if they are gone by then, `None[1]` raises TypeError. The first argument bounds
the depth of the recursion, running out of it stands for RecursionError. -/
def recurseWith (fn : σ → Heap K → Nat → Py (σ × Heap K)) : Nat → σ → Heap K → Nat → Py (σ × Heap K × List Nat)
  | 0, _, _, _ => .error .runtime
  | f + 1, s, h, id => do
    let (s, h) ← fn s h id
    let nd ← getE h id
    match nd.children with
    | none => return (s, h, [id])
    | some (a, _) => do
      let (s, h, l) ← recurseWith fn f s h a
      let nd ← getE h id
      let (_, b) ← typeE nd.children
      let (s, h, r) ← recurseWith fn f s h b
      return (s, h, id :: (l ++ r))

/-- What a function that works on its own node can do to the tree: any number of calls of `subdivide` and `cut_subtree` on the node. -/
inductive OwnChanges (id : Nat) : Heap K → Heap K → Prop
  | refl (h : Heap K) : OwnChanges id h h
  | subdivide {h h' h'' : Heap K} (pp : List K) (i : Int) : OwnChanges id h h' → subdivide h' id pp i = .ok h'' → OwnChanges id h h''
  | cut {h h' h'' : Heap K} : OwnChanges id h h' → cutSubtree h' id = .ok h'' → OwnChanges id h h''

end Verif.Kd
