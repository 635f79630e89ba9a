import Verif.Model.KdTree
/-!
# Specification of k-d trees: which nodes belong to the tree, and the part of space that a node stands for
-/

namespace Verif.Kd
open Verif

variable {K : Type}

/-- Node `n` belongs to the tree and is reached from the root by the given address. -/
inductive At (h : Heap K) : Nat → List Nat → Prop
  | root : At h 0 [0]
  | left {i : Nat} {l : List Nat} {nd : Node K} {a b : Nat} : At h i l → h[i]? = some nd → nd.children = some (a, b) → At h a (l ++ [0])
  | right {i : Nat} {l : List Nat} {nd : Node K} {a b : Nat} : At h i l → h[i]? = some nd → nd.children = some (a, b) → At h b (l ++ [1])

/-- The cell of a node: all half spaces on the way from the root. -/
inductive Cell [LE K] (h : Heap K) (x : List K) : Nat → Prop
  | root : Cell h x 0
  | left {i : Nat} {nd : Node K} {a b j : Nat} {pp : List K} {y z : K} : Cell h x i → h[i]? = some nd → nd.children = some (a, b) →
      nd.planeIdx = some j → nd.planePoint = some pp → x[j]? = some y → pp[j]? = some z → y ≤ z → Cell h x a
  | right {i : Nat} {nd : Node K} {a b j : Nat} {pp : List K} {y z : K} : Cell h x i → h[i]? = some nd → nd.children = some (a, b) →
      nd.planeIdx = some j → nd.planePoint = some pp → x[j]? = some y → pp[j]? = some z → z ≤ y → Cell h x b

end Verif.Kd
