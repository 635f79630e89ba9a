import Mathlib.Algebra.Order.Field.Basic
import Mathlib.Algebra.BigOperators.Group.List.Basic
/-!
# Specification: meshes that tile a domain
-/

namespace Verif.Spec

variable {K : Type} [Field K] [LinearOrder K]

/-- `x` is the combination of the vertices of the cell with the weights `w`. -/
def IsComb (V : List (List K)) (cell : List Nat) (w : List K) (x : List K) : Prop :=
  ∃ ps : List (List K), cell.map (fun i => V[i]?) = ps.map some ∧ (∀ p ∈ ps, p.length = x.length) ∧ w.length = ps.length ∧
    ∀ c < x.length, ((w.zip ps).map (fun q => q.1 * q.2.getD c 0)).sum = x.getD c 0

/-- `x` lies in the closed cell: it is a convex combination of the vertices. -/
def InCell (V : List (List K)) (cell : List Nat) (x : List K) : Prop :=
  ∃ w : List K, (∀ a ∈ w, 0 ≤ a) ∧ w.sum = 1 ∧ IsComb V cell w x

/-- `x` lies in the interior of the cell (relative to the plane of the cell): all weights are positive. -/
def InInterior (V : List (List K)) (cell : List Nat) (x : List K) : Prop :=
  ∃ w : List K, (∀ a ∈ w, 0 < a) ∧ w.sum = 1 ∧ IsComb V cell w x

/-- The cells cover exactly the domain, no two of them (at different positions of the list) have a common interior point, and the mesh is conforming:
the points that two cells have in common are convex combinations of their common vertices. -/
structure Tiles (V : List (List K)) (cells : List (List Nat)) (D : Set (List K)) : Prop where
  cover : ∀ x ∈ D, ∃ c ∈ cells, InCell V c x
  inside : ∀ c ∈ cells, ∀ x, InCell V c x → x ∈ D
  disjoint : cells.Pairwise fun c c' => ¬∃ x, InInterior V c x ∧ InInterior V c' x
  faces : ∀ c ∈ cells, ∀ c' ∈ cells, ∀ x, InCell V c x → InCell V c' x → InCell V (c.filter (· ∈ c')) x

/-- Every cell has `k` different vertices that exist. -/
def WellFormed (numVertices k : Nat) (cells : List (List Nat)) : Prop :=
  ∀ c ∈ cells, c.length = k ∧ c.Nodup ∧ ∀ v ∈ c, v < numVertices

/-- Twice the signed area of the projection of a triangle to the first two coordinates. -/
def area2 (p q r : List K) : K :=
  (q.getD 0 0 - p.getD 0 0) * (r.getD 1 0 - p.getD 1 0) - (r.getD 0 0 - p.getD 0 0) * (q.getD 1 0 - p.getD 1 0)

/-- Six times the signed volume of a tetrahedron. -/
def volume6 (p q r s : List K) : K :=
  let e (x : List K) (c : Nat) : K := x.getD c 0 - p.getD c 0
  e q 0 * (e r 1 * e s 2 - e r 2 * e s 1) - e q 1 * (e r 0 * e s 2 - e r 2 * e s 0) + e q 2 * (e r 0 * e s 1 - e r 1 * e s 0)

/-- All triangles have twice the signed area `A`. -/
def AllArea2 (V : List (List K)) (cells : List (List Nat)) (A : K) : Prop :=
  ∀ c ∈ cells, ∃ p q r, c.map (fun i => V[i]?) = [some p, some q, some r] ∧ area2 p q r = A

/-- All tetrahedra have six times the signed volume `A`. -/
def AllVolume6 (V : List (List K)) (cells : List (List Nat)) (A : K) : Prop :=
  ∀ c ∈ cells, ∃ p q r s, c.map (fun i => V[i]?) = [some p, some q, some r, some s] ∧ volume6 p q r s = A

/-- The three points are not on a line. -/
def NotCollinear (d : Nat) (v0 v1 v2 : List K) : Prop :=
  ∀ s t : K, (∀ c < d, s * (v1.getD c 0 - v0.getD c 0) + t * (v2.getD c 0 - v0.getD c 0) = 0) → s = 0 ∧ t = 0

/-- All triangles have a positive area. -/
def AllPositive2 (V : List (List K)) (cells : List (List Nat)) : Prop :=
  ∀ c ∈ cells, ∃ p q r, c.map (fun i => V[i]?) = [some p, some q, some r] ∧ 0 < area2 p q r

/-- The directed edges of the triangles. -/
def triangleEdges (cells : List (List Nat)) : List (Nat × Nat) :=
  cells.flatMap fun c => match c with
    | [a, b, c] => [(a, b), (b, c), (c, a)]
    | _ => []

/-- The triangles form an oriented surface with the boundary `boundary`: every directed edge belongs to one triangle only, the edges of the boundary
are edges of triangles, and exactly the edges that are not in the boundary are shared with a second triangle, which has them in the opposite
direction. -/
structure OrientedSurface (cells : List (List Nat)) (boundary : List (Nat × Nat)) : Prop where
  single : (triangleEdges cells).Nodup
  edges : ∀ e ∈ boundary, e ∈ triangleEdges cells
  shared : ∀ e ∈ triangleEdges cells, e.swap ∈ triangleEdges cells ↔ e ∉ boundary

/-- The edges of the circle through the vertices `start, ..., start + n - 1`. -/
def circle (start n : Nat) : List (Nat × Nat) := (List.range n).map fun (j : Nat) => (start + j, start + (j + 1) % n)

/-- The points `ρ i * u j` of `r` circles with `a` points each, circle by circle. -/
def polarPoints (ρ : Nat → K) (u : Nat → K × K) (r a : Nat) : List (List K) :=
  (List.range r).flatMap fun (i : Nat) => (List.range a).map fun (j : Nat) => [ρ i * (u j).1, ρ i * (u j).2]

/-- The `n` directions are ordered counterclockwise, and consecutive ones are less than half a turn apart. -/
def Counterclockwise (u : Nat → K × K) (n : Nat) : Prop :=
  ∀ j < n, 0 < (u j).1 * (u ((j + 1) % n)).2 - (u j).2 * (u ((j + 1) % n)).1

end Verif.Spec
