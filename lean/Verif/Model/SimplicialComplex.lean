import Verif.Model.Permutations
/-!
# Model of `geometry/mesh/simplicial_complex.py`

A simplex is the list of its vertex indices (non-negative integers). Numpy integer arrays and tuples are lists; a Python set of
tuples is a duplicate free list, and a dictionary is an association list.
-/

namespace Verif.Complex
open Verif Verif.Perm

/-- `l[-1], l[-2] = l[-2], l[-1]` (42, 331): IndexError for fewer than two entries. -/
def swapLastTwo (l : List α) : Py (List α) := do
  let a ← pyGet l (-2)
  let b ← pyGet l (-1)
  let l1 ← pySet l (-1) a
  pySet l1 (-2) b

/-- Body of the loop of `simplex_boundary` (40-43). -/
def facet (s : List Nat) (i : Nat) : Py (List Nat) :=
  let b := s.eraseIdx i
  if i % 2 = 1 ∧ b.length > 1 then swapLastTwo b else .ok b

/-- `simplex_boundary` (9-44). For the empty simplex `np.empty((0, -1))` raises ValueError. -/
def simplexBoundary (s : List Nat) : Py (List (List Nat)) :=
  if s.length = 1 then .ok []
  else if s.length = 0 then .error .value
  else (List.range s.length).mapM (facet s)

/-- `simplex_boundary_map` (47-64): the facets and their coefficients; for a vertex the coefficients are the number 0 instead of
an array, here `none`. -/
def simplexBoundaryMap (s : List Nat) : Py (List (List Nat) × Option (List Int)) :=
  if s.length = 1 then .ok ([], none)
  else if s.length = 0 then .error .value
  else .ok ((List.range s.length).map (fun (i : Nat) => s.eraseIdx i), some ((List.range s.length).map (fun (i : Nat) => (-1 : Int) ^ i)))

/-- `tuple(sorted(simplex))`. -/
def sorted (s : List Nat) : List Nat := s.insertionSort (· ≤ ·)

/-- `simplex_sub_simplices` (67-91). The recursion removes one vertex at a time; the fuel is the number of vertices. -/
def subSimplicesAux : Nat → List Nat → Bool → Py (List (List Nat))
  | 0, s, includeSelf => .ok (if includeSelf then [sorted s] else [])
  | fuel + 1, s, includeSelf =>
    let start := if includeSelf then [sorted s] else []
    if s.length > 1 then do
      let bs ← simplexBoundary s
      bs.foldlM (fun (acc : List (List Nat)) b => do
        let nested ← subSimplicesAux fuel b true
        return acc ∪ nested) start
    else .ok start

/-- `simplex_sub_simplices` (67-91). -/
def subSimplices (s : List Nat) (includeSelf : Bool) : Py (List (List Nat)) := subSimplicesAux s.length s includeSelf

/-- `simplex_dimension` (149-157). -/
def dimension (s : List Nat) : Int := (s.length : Int) - 1

/-- `simplex_sub_simplices_fixed_dimension` (94-115). -/
def subSimplicesFixedDimension (s : List Nat) (k : Int) : Py (List (List Nat)) := do
  pyAssert (decide (k ≥ 0))
  pyAssert (decide (k ≤ dimension s))
  let subs ← subSimplices s true
  return subs.filter (fun t => dimension t = k)

/-- `opposite_sub_simplex` (118-146). The assertion on line 141 asserts a generator object, which is always true. -/
def oppositeSubSimplex (s sub : List Nat) : List Nat :=
  s.foldl (fun acc i => if i ∉ sub then acc ++ [i] else acc) []

/-- The variables of `boundary` (215-218): the set, the dictionary and the running index. -/
structure BoundaryState where
  /-- `boundary_set` -/
  set : List (List Nat)
  /-- `boundary_dictionary` -/
  dict : List (List Nat × (List Nat × Nat))
  /-- `idx` -/
  idx : Nat

/-- Body of the inner loop of `boundary` (221-230). -/
def boundaryStep (st : BoundaryState) (bs : List Nat) : Py BoundaryState :=
  let sbs := sorted bs
  if sbs ∈ st.set then do
    let _ ← keyE (st.dict.find? (fun e => e.1 = sbs))
    return ⟨st.set.erase sbs, st.dict.filter (fun e => e.1 ≠ sbs), st.idx + 1⟩
  else
    .ok ⟨st.set ++ [sbs], st.dict.filter (fun e => e.1 ≠ sbs) ++ [(sbs, (bs, st.idx))], st.idx + 1⟩

/-- `boundary` (187-233). The input is a two-dimensional array, so all simplices have the same number of vertices; for a list of
simplices of different dimensions numpy may refuse to build the resulting array, which is not modelled. -/
def boundary (simplices : List (List Nat)) : Py (List (List Nat)) := do
  let st ← simplices.foldlM (fun st s => do
    let bs ← simplexBoundary s
    bs.foldlM boundaryStep st) (⟨[], [], 0⟩ : BoundaryState)
  return (((st.dict.map Prod.snd).insertionSort (fun a b => a.2 ≤ b.2)).map Prod.fst)

/-- A `scipy.sparse.coo_matrix`: entries as (row, column, value), and the shape. -/
structure Coo where
  entries : List (Nat × Nat × Int)
  rows : Nat
  cols : Nat

/-- The matrix element (i, j) of a coo_matrix: repeated positions are summed (scipy documentation). -/
def Coo.at (m : Coo) (i j : Nat) : Int := ((m.entries.filter (fun e => e.1 = i ∧ e.2.1 = j)).map (fun e => e.2.2)).sum

/-- One boundary simplex `bs` with coefficient `a` in `boundary_map_matrix` (260-264). -/
def matrixEntry (prev : List (List Nat)) (j : Nat) (bs : List Nat) (a : Int) : Py (Nat × Nat × Int) := do
  let i ← keyE (elementIndex (prev.map sorted) (sorted bs))
  let t ← getE prev i
  let p ← constructPermutationGeneral t bs true
  let sg ← sign p
  return (i, j, sg * a)

/-- One column of `boundary_map_matrix` (257-264): iterating over the number 0 (boundary map of a vertex) raises TypeError. -/
def matrixColumn (prev : List (List Nat)) (s : List Nat) (j : Nat) : Py (List (Nat × Nat × Int)) := do
  let chain ← simplexBoundaryMap s
  match chain.2 with
  | none => .error .type
  | some cs => (chain.1.zip cs).mapM (fun x => matrixEntry prev j x.1 x.2)

/-- `boundary_map_matrix` (236-266). -/
def boundaryMapMatrix (simplices : List (List (List Nat))) (k : Int) : Py Coo := do
  let prev ← pyGet simplices (k - 1)
  let cur ← pyGet simplices k
  let cols ← cur.zipIdx.mapM (fun x => matrixColumn prev x.1 x.2)
  return ⟨cols.flatten, prev.length, cur.length⟩

/-- `simplex_vertices` (269-288): an empty vertex list raises IndexError (`vertex_list[0]`). -/
def simplexVertices {P : Type} (s : List Nat) (vertices : List P) : Py (List P) := do
  let _ ← getE vertices 0
  s.mapM (fun i => getE vertices i)

/-- `swap_simplex_orientation` (322-332). -/
def swapSimplexOrientation (s : List Nat) : Py (List Nat) := swapLastTwo s

/-- `swap_orientation` (335-343): the simplices are replaced in place; the result is the list after the call. -/
def swapOrientation (simplices : List (List Nat)) : Py (List (List Nat)) :=
  (List.range simplices.length).foldlM (fun (l : List (List Nat)) i => do
    let s ← getE l i
    let t ← swapSimplexOrientation s
    setE l i t) simplices

/-- `_find_boundary_simplex` (346-363). -/
def findBoundarySimplex (s b : List Nat) : Py (Option (List Nat)) := do
  let bs ← simplexBoundary s
  return bs.find? (fun c => c.all (fun i => i ∈ b))

/-- The inner loop of `_substitute_vertex_indices` (382-385): replace at the first position holding `old`. -/
def substituteFirst (orig updated : List Nat) (old new : Nat) : List Nat :=
  match orig.idxOf? old with
  | some n => updated.set n new
  | none => updated

/-- `_substitute_vertex_indices` (366-386). -/
def substituteVertexIndices (s : List Nat) (map : List (Nat × Nat)) : List Nat :=
  map.foldl (fun updated on => substituteFirst s updated on.1 on.2) s

/-- `simplex_boundary_orientation` (291-319). -/
def simplexBoundaryOrientation (s b : List Nat) : Py Int := do
  pyAssert (decide (b.length + 1 = s.length))
  let found ← findBoundarySimplex s b
  match found with
  | none => .error .value
  | some f =>
    let map := (sorted b).zipIdx
    let f' := substituteVertexIndices f map
    let b' := substituteVertexIndices b map
    let p ← constructPermutation b' f' s.length
    sign p

end Verif.Complex
