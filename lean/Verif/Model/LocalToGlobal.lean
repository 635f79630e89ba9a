import Verif.Model.MultiIndex
import Verif.Model.SubSimplex
import Verif.Model.SimplicialComplex
/-!
# Model of the local-to-global maps of spaces of piecewise polynomials

`polynomials_on_simplices/piecewise_polynomial/piecewise_polynomial.py` (PP below) and
`polynomials_on_simplices/piecewise_polynomial/continuous_piecewise_polynomial.py` (CP below).

Dictionaries are association lists in insertion order, sets are lists. A multi-index used as a key is its list of components (`MultiIndex.__hash__`
and `__eq__` agree with those of tuples). Vertex indices and the degree are natural numbers (for a negative degree `generate_all` and
the assertion on CP 138 reject the call), the simplex index `j`, the component index `k` and the global indices are integers.
-/

namespace Verif.L2G
open Verif

/-! ## Dictionaries -/

/-- `d[k]` if the key is present. -/
def dget? [DecidableEq α] (d : List (α × β)) (k : α) : Option β :=
  match d with
  | [] => none
  | (k', v) :: d => if k' = k then some v else dget? d k

/-- `d[k] = v`: an existing key keeps its position. -/
def dset [DecidableEq α] (d : List (α × β)) (k : α) (v : β) : List (α × β) :=
  match d with
  | [] => [(k, v)]
  | (k', v') :: d => if k' = k then (k', v) :: d else (k', v') :: dset d k v

/-- A local-to-global dictionary of one simplex: multi-index to global index. -/
abbrev Dict := List (List Nat × Int)

/-! ## The numbering -/

/-- The variables of the loops in the two functions `generate_local_to_global_map_as_dictionaries` (PP 141-148, CP 141-153). The variable
`sub` is used by the continuous version only. -/
structure State where
  /-- `local_to_global_map`: the dictionaries of the finished simplices -/
  maps : List Dict
  /-- `tri_local_to_global`: the dictionary of the simplex that is being treated -/
  tri : Dict
  /-- `sub_simplex_basis_fns` -/
  sub : List (List Nat × List (List Nat × Int))
  /-- `global_basis_fn_counter` -/
  next : Int
  /-- `boundary_basis_fn_counter` -/
  nextB : Int
  deriving DecidableEq

/-- What the functions return: the dictionaries, the number of degrees of freedom and (only with `keep_boundary_dofs_last`) the number of
degrees of freedom that are not on the boundary. -/
structure Result where
  maps : List Dict
  numDofs : Int
  numInterior : Option Int
  deriving DecidableEq

/-- The set of sub simplices of the boundary simplices (PP 137-140, CP 142-145); `none` is Python's `None`. -/
def boundarySet (boundary : Option (List (List Nat))) : Py (List (List Nat)) :=
  match boundary with
  | none => .ok []
  | some bs => bs.foldlM (fun acc b => do
      let subs ← Complex.subSimplices b true
      return acc ∪ subs) []

/-- The order of pairs (tuples) of numbers. -/
def pairLe (p q : Nat × Nat) : Prop := p.1 < q.1 ∨ (p.1 = q.1 ∧ p.2 ≤ q.2)

instance : DecidableRel pairLe := fun p q => by unfold pairLe; infer_instance

/-- `zip(*sorted(zip(sub_simplex, sub_mi)))` unpacked into two variables (PP 155, CP 159); unpacking an empty result raises ValueError. -/
def sortPairs (subSimplex subMi : List Nat) : Py (List Nat × List Nat) :=
  let l := (subSimplex.zip subMi).insertionSort pairLe
  if l = [] then .error .value else .ok (l.map Prod.fst, l.map Prod.snd)

/-- The sorted sub simplex of the discontinuous version (PP 151-157). -/
def discSubSimplex (r : Nat) (triangle mi : List Nat) : Py (List Nat) :=
  if r > 0 then do
    let s ← SubSimplex.getAssociatedSubSimplex (.multi mi) r (some triangle)
    let t ← sortPairs s.1 s.2
    return t.1
  else .ok (Complex.sorted triangle)

/-- The body of the inner loop of the discontinuous version (PP 149-171). -/
def discStep (bset : List (List Nat)) (keepLast : Bool) (r : Nat) (triangle : List Nat) (st : State) (mi : List Nat) : Py State := do
  let sub ← discSubSimplex r triangle mi
  if sub ∈ bset then
    if !keepLast then .ok st
    else .ok { st with tri := dset st.tri mi st.nextB, nextB := st.nextB - 1 }
  else .ok { st with tri := dset st.tri mi st.next, next := st.next + 1 }

/-- The inner loop over the multi-indices followed by appending the dictionary (PP 145-172, CP 150-186), with the body as parameter. -/
def triangleLoop (step : List Nat → State → List Nat → Py State) (mis : List (List Nat)) (st : State) (triangle : List Nat) : Py State := do
  let st ← mis.foldlM (step triangle) { st with tri := [] }
  return { st with maps := st.maps ++ [st.tri] }

/-- The second pass (PP 174-189, CP 188-203). It assigns to existing keys of the dictionaries while iterating over them, which changes the values in
place. -/
def finish (keepLast : Bool) (st : State) : Result :=
  if keepLast then
    let numNonBoundary := st.next
    let numBoundary := st.maps.foldl (fun acc d => d.foldl (fun acc kv => if kv.2 < 0 then max acc (-kv.2) else acc) acc) (0 : Int)
    { maps := st.maps.map (fun d => d.map (fun kv => (kv.1, if kv.2 < 0 then numNonBoundary + (-kv.2) - 1 else kv.2)))
      numDofs := st.next + numBoundary
      numInterior := some numNonBoundary }
  else { maps := st.maps, numDofs := st.next, numInterior := none }

/-- The initial values of the variables (PP 141-143, CP 141-148). -/
def State.init : State := { maps := [], tri := [], sub := [], next := 0, nextB := -1 }

/-- `generate_local_to_global_map_as_dictionaries` of the discontinuous spaces (PP 110-189). The dimension `len(triangles[0]) - 1` is cut off
at 0. -/
def discDictionaries (triangles : List (List Nat)) (r : Nat) (boundary : Option (List (List Nat))) (keepLast : Bool) : Py Result := do
  let first ← getE triangles 0
  let n := first.length - 1
  let bset ← boundarySet boundary
  let mis := MI.generateAll n r
  let st ← triangles.foldlM (triangleLoop (discStep bset keepLast r) mis) State.init
  return finish keepLast st

/-- The part of the inner loop of the continuous version for a sub simplex that may be shared (CP 166-185); `s` and `m` are the sorted sub simplex and
multi-index. -/
def sharedStep (bset : List (List Nat)) (s m mi : List Nat) (st : State) : Py State :=
  let sub := if (dget? st.sub s).isSome then st.sub else dset st.sub s []
  match dget? sub s with
  | none => .error .key
  | some inner =>
    match dget? inner m with
    | some v => .ok { st with tri := dset st.tri mi v, sub := sub }
    | none =>
      if s ∉ bset then
        .ok { st with tri := dset st.tri mi st.next, sub := dset sub s (dset inner m st.next), next := st.next + 1 }
      else
        .ok { st with tri := dset st.tri mi st.nextB, sub := dset sub s (dset inner m st.nextB), nextB := st.nextB - 1 }

/-- The body of the inner loop of the continuous version (CP 154-185). -/
def contStep (bset : List (List Nat)) (keepLast : Bool) (n r : Nat) (triangle : List Nat) (st : State) (mi : List Nat) : Py State := do
  let s ← SubSimplex.getAssociatedSubSimplex (.multi mi) r (some triangle)
  let t ← sortPairs s.1 s.2
  if t.1 ∈ bset ∧ keepLast = false then .ok st
  else if s.1.length = n + 1 then .ok { st with tri := dset st.tri mi st.next, next := st.next + 1 }
  else sharedStep bset t.1 t.2 mi st

/-- `generate_local_to_global_map_as_dictionaries` of the continuous spaces (CP 113-203). -/
def contDictionaries (triangles : List (List Nat)) (r : Nat) (boundary : Option (List (List Nat))) (keepLast : Bool) : Py Result := do
  pyAssert (decide (r ≥ 1))
  let first ← getE triangles 0
  let n := first.length - 1
  let bset ← boundarySet boundary
  let mis := MI.generateAll n r
  let st ← triangles.foldlM (triangleLoop (contStep bset keepLast n r) mis) State.init
  return finish keepLast st

/-- The callable `tau` (PP 95-102, CP 98-105). -/
def tauOf (numTriangles : Nat) (maps : List Dict) (j : Int) (nu : List Nat) : Py Int := do
  pyAssert (decide (j ≥ 0))
  pyAssert (decide (j < numTriangles))
  let d ← pyGet maps j
  match dget? d nu with
  | some v => return v
  | none => return -1

/-- A local-to-global map as returned to the caller: the callable and the numbers. -/
structure Map where
  tau : Int → List Nat → Py Int
  numDofs : Int
  numInterior : Option Int

/-- `generate_local_to_global_map` of the discontinuous spaces (PP 35-107). -/
def discMap (triangles : List (List Nat)) (r : Nat) (boundary : Option (List (List Nat))) (keepLast : Bool) : Py Map := do
  let res ← discDictionaries triangles r boundary keepLast
  return { tau := tauOf triangles.length res.maps, numDofs := res.numDofs, numInterior := res.numInterior }

/-- `generate_local_to_global_map` of the continuous spaces (CP 29-110). -/
def contMap (triangles : List (List Nat)) (r : Nat) (boundary : Option (List (List Nat))) (keepLast : Bool) : Py Map := do
  let res ← contDictionaries triangles r boundary keepLast
  return { tau := tauOf triangles.length res.maps, numDofs := res.numDofs, numInterior := res.numInterior }

/-! ## Vector valued maps -/

/-- A vector valued local-to-global map. -/
structure VMap where
  tau : Int → List Nat → Int → Py Int
  numDofs : Int
  numInterior : Option Int

/-- The callable `tau` of the vector valued maps (PP 267-286, CP 290-309). -/
def vectorTau (numTriangles : Nat) (n : Int) (interleaved : Bool) (scalar : Map) (j : Int) (nu : List Nat) (k : Int) : Py Int := do
  pyAssert (decide (j ≥ 0))
  pyAssert (decide (j < numTriangles))
  pyAssert (decide (k ≥ 0))
  pyAssert (decide (k < n))
  let vs ← scalar.tau j nu
  if vs = -1 then return -1
  else if interleaved then return n * vs + k
  else return k * scalar.numDofs + vs

/-- `generate_vector_valued_local_to_global_map` (PP 192-291, CP 206-314), with the scalar version `generate_local_to_global_map` called in it as
parameter; `ordering == "interleaved"` is the flag. -/
def vectorMap (gen : List (List Nat) → Nat → Option (List (List Nat)) → Bool → Py Map) (triangles : List (List Nat)) (r : Nat) (n : Int)
    (boundary : Option (List (List Nat))) (keepLast interleaved : Bool) : Py VMap := do
  pyAssert (decide (n > 1))
  let s ← gen triangles r boundary keepLast
  return { tau := vectorTau triangles.length n interleaved s, numDofs := n * s.numDofs, numInterior := s.numInterior.map (n * ·) }

/-! ## Inverse and preimage maps -/

/-- The pairs in the order of the loops (PP 321-322, CP 346-347). -/
def pairs (numTriangles : Nat) (mis : List (List Nat)) : List (Int × List Nat) :=
  (List.range numTriangles).flatMap (fun (j : Nat) => mis.map (fun nu => ((j : Int), nu)))

/-- The triples in the order of the loops (PP 365-367, CP 398-400). -/
def triples (numTriangles : Nat) (mis : List (List Nat)) (n : Nat) : List (Int × List Nat × Int) :=
  (List.range numTriangles).flatMap (fun (j : Nat) => mis.flatMap (fun nu => (List.range n).map (fun (k : Nat) => ((j : Int), nu, (k : Int)))))

/-- The loop that fills `global_to_local_map` (PP 319-326 and 363-371); the pairs or triples and the map are parameters. -/
def inverseDict (tau : α → Py Int) (args : List α) : Py (List (Int × α)) :=
  args.foldlM (fun d a => do
    let dof ← tau a
    if dof = -1 then return d
    else return dset d dof a) []

/-- The callable `tau_inv` (PP 329-332 and 374-377). -/
def inverseOf (numDofs : Int) (d : List (Int × α)) (i : Int) : Py α := do
  pyAssert (decide (i ≥ 0))
  pyAssert (decide (i < numDofs))
  keyE (dget? d i)

/-- `generate_inverse_local_to_global_map` (PP 294-334). -/
def inverseMap (tau : Int → List Nat → Py Int) (numTriangles : Nat) (numDofs : Int) (r m : Nat) : Py (Int → Py (Int × List Nat)) := do
  let d ← inverseDict (fun a => tau a.1 a.2) (pairs numTriangles (MI.generateAll m r))
  return inverseOf numDofs d

/-- `generate_inverse_vector_valued_local_to_global_map` (PP 337-379). -/
def inverseVectorMap (tau : Int → List Nat → Int → Py Int) (numTriangles : Nat) (numDofs : Int) (r m n : Nat) :
    Py (Int → Py (Int × List Nat × Int)) := do
  let d ← inverseDict (fun a => tau a.1 a.2.1 a.2.2) (triples numTriangles (MI.generateAll m r) n)
  return inverseOf numDofs d

/-- The loop that fills `preimage_map_dict` (CP 344-354 and 396-407). -/
def preimageDict [DecidableEq α] (tau : α → Py Int) (args : List α) : Py (List (Int × List α)) :=
  args.foldlM (fun d a => do
    let dof ← tau a
    if dof = -1 then return d
    else
      match dget? d dof with
      | some s => return dset d dof (s ∪ [a])
      | none => return dset d dof [a]) []

/-- The callable `preimage_map` (CP 357-363 and 410-416), for the indices in the order in which the argument yields them. -/
def preimageOf [DecidableEq α] (numDofs : Int) (d : List (Int × List α)) (si : List Int) : Py (List α) :=
  si.foldlM (fun value i => do
    pyAssert (decide (i ≥ 0))
    pyAssert (decide (i < numDofs))
    let s ← keyE (dget? d i)
    return value ∪ s) []

/-- `generate_local_to_global_preimage_map` (CP 317-365). -/
def preimageMap (tau : Int → List Nat → Py Int) (numTriangles : Nat) (numDofs : Int) (r m : Nat) : Py (List Int → Py (List (Int × List Nat))) := do
  let d ← preimageDict (fun a => tau a.1 a.2) (pairs numTriangles (MI.generateAll m r))
  return preimageOf numDofs d

/-- `generate_vector_valued_local_to_global_preimage_map` (CP 368-418). -/
def preimageVectorMap (tau : Int → List Nat → Int → Py Int) (numTriangles : Nat) (numDofs : Int) (r m n : Nat) :
    Py (List Int → Py (List (Int × List Nat × Int))) := do
  let d ← preimageDict (fun a => tau a.1 a.2.1 a.2.2) (triples numTriangles (MI.generateAll m r) n)
  return preimageOf numDofs d

end Verif.L2G
