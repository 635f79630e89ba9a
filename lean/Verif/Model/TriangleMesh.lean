import Mathlib.Data.Fin.VecNotation
import Verif.Py
/-!
# Model of the combinatorial functions of `geometry/mesh/triangle_mesh.py`

A mesh is an array of shape (number of triangles, 3) of vertex indices; a triangle is a function `Fin 3 → Nat`. The geometric functions
of the file (normals, centroids) are in `Model/VertexNormals.lean`.
-/

namespace Verif.TriMesh
open Verif

/-- An indexed triangle. -/
abbrev Tri := Fin 3 → Nat

/-- `tri[i % 3]`. -/
def Tri.at (t : Tri) (i : Nat) : Nat := t ⟨i % 3, Nat.mod_lt _ (by decide)⟩

/-- `v in tri` for a row of the array. -/
def Tri.has (t : Tri) (v : Nat) : Bool := t 0 == v || t 1 == v || t 2 == v

/-- `edge_index` (50-78): the first edge equal to the given one in either direction; AssertionError if there is none. -/
def edgeIndex (t : Tri) (edge : Nat × Nat) : Py Nat :=
  match [0, 1, 2].find? (fun i =>
    let e := (t.at (i + 1), t.at (i + 2))
    decide (e = edge) || decide ((e.2, e.1) = edge)) with
  | some i => .ok i
  | none => .error .assertion

/-- `neighbour` (185-202). -/
def neighbour (t : List Tri) (i j : Nat) : Py (Option Nat) := do
  let ti ← getE t i
  let v0 := ti.at (j + 1)
  let v1 := ti.at (j + 2)
  return (t.zipIdx.find? (fun x => decide (x.2 ≠ i) && x.1.has v0 && x.1.has v1)).map Prod.snd

/-- `has_vertex` (205-217). -/
def hasVertex (t : List Tri) (tri vertex : Nat) : Py Bool := do
  let ti ← getE t tri
  return [0, 1, 2].any (fun i => ti i == vertex)

/-- `vertex_position` (220-232). -/
def vertexPosition (t : Tri) (vertex : Nat) : Option Nat := [0, 1, 2].find? (fun i => t.at i == vertex)

/-- The loop of `opposite_vertex` (248-252). -/
def oppositeVertexLoop (t : List Tri) (tri : Nat) (tn : Tri) : List (Fin 3) → Py (Option Nat)
  | [] => .ok none
  | i :: is => do
    let h ← hasVertex t tri (tn i)
    if !h then return some (tn i) else oppositeVertexLoop t tri tn is

/-- `opposite_vertex` (235-252). -/
def oppositeVertex (t : List Tri) (tri edge : Nat) : Py (Option Nat) := do
  let tn ← neighbour t tri edge
  match tn with
  | none => return none
  | some k => do
    let tk ← getE t k
    oppositeVertexLoop t tri tk [0, 1, 2]

/-- The position of a vertex as used in `has_same_orientation`: subtracting from `None` raises TypeError. -/
def positionE (t : Tri) (v : Nat) : Py Int :=
  match vertexPosition t v with
  | some i => .ok (i : Int)
  | none => .error .type

/-- `has_same_orientation` (255-275). `common` is the list of the common vertices in the (unspecified) iteration order of the set;
fewer than two common vertices raise IndexError. -/
def hasSameOrientation (t1 t2 : Tri) (common : List Nat) : Py Bool := do
  let c0 ← getE common 0
  let idx10 ← positionE t1 c0
  let c1 ← getE common 1
  let idx11 ← positionE t1 c1
  let idx20 ← positionE t2 c0
  let idx21 ← positionE t2 c1
  return decide ((idx10 - idx11) % 3 ≠ (idx20 - idx21) % 3)

/-- `has_same_edge_orientation` (278-302). -/
def hasSameEdgeOrientation (t : List Tri) (i edge : Nat) : Py Bool := do
  let n ← neighbour t i edge
  match n with
  | none => return true
  | some k => do
    let ti ← getE t i
    let tk ← getE t k
    let v0 := ti.at (edge + 1)
    let idx : Int := match vertexPosition tk v0 with
      | some p => (p : Int)
      | none => -1
    let v1 := ti.at (edge + 2)
    return decide (tk.at ((idx - 1) % 3).toNat = v1)

/-- `swap_orientation` (305-313): in place, the result is the array after the call. -/
def swapOrientation (t : List Tri) (i : Nat) : Py (List Tri) := do
  let ti ← getE t i
  setE t i ![ti 0, ti 2, ti 1]

/-- The two loops of `has_consistent_orientation` (324-328) over the remaining pairs (triangle, edge). -/
def consistentLoop (t : List Tri) : List (Nat × Nat) → Py Bool
  | [] => .ok true
  | (i, e) :: rest => do
    let h ← hasSameEdgeOrientation t i e
    if !h then return false else consistentLoop t rest

/-- `has_consistent_orientation` (316-328). -/
def hasConsistentOrientation (t : List Tri) : Py Bool :=
  consistentLoop t ((List.range t.length).flatMap (fun i => [(i, 0), (i, 1), (i, 2)]))

end Verif.TriMesh
