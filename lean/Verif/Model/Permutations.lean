import Mathlib.Data.List.Sort
import Mathlib.Data.Nat.Factorial.Basic
import Mathlib.Data.Nat.Choose.Basic
import Verif.Py
/-!
# Model of `algebra/permutations.py`

A permutation in one-line notation (a tuple of the numbers 0 .. n-1) is a `List Nat`. The class `Permutation` (50-206) is a
wrapper around such a tuple: `__mul__` (156-164) is `composition`, `**-1` (166-176) is `inverse`, `__call__`/`__getitem__`
(118-126, 178-189) is indexing.
-/

namespace Verif.Perm
open Verif

/-- `to_two_line_notation` (209-224). -/
def toTwoLine (p : List Nat) : List Nat × List Nat := (List.range p.length, p)

/-- Python's comparison `<=` of two pairs of integers. -/
def pairLe (a b : Nat × Nat) : Prop := a.1 < b.1 ∨ (a.1 = b.1 ∧ a.2 ≤ b.2)

instance : DecidableRel pairLe := fun a b => by unfold pairLe; infer_instance

/-- `tuple(zip(*pairs))[1]`: the second line; for no pairs the outer tuple is empty and indexing raises IndexError. -/
def secondLine (pairs : List (Nat × Nat)) : Py (List Nat) :=
  if pairs.isEmpty then .error .index else .ok (pairs.map Prod.snd)

/-- `from_two_line_notation` (227-244). -/
def fromTwoLine (p : List Nat × List Nat) : Py (List Nat) :=
  secondLine ((p.1.zip p.2).insertionSort pairLe)

/-- The `while` loop of `cycle` (262-267). `acc` is `cycle_list` reversed. Running out of fuel stands for an endless loop;
`C13_cycle` shows that it does not happen for permutations. -/
def cycleLoop (p : List Nat) (start : Nat) : Nat → List Nat → Nat → Py (List Nat)
  | 0, _, _ => .error .runtime
  | fuel + 1, acc, nxt =>
    if nxt ≠ start then do
      let nxt' ← getE p nxt
      cycleLoop p start fuel (nxt :: acc) nxt'
    else .ok acc.reverse

/-- `cycle` (247-267). -/
def cycle (p : List Nat) (start : Nat) : Py (List Nat) := do
  let nxt ← getE p start
  cycleLoop p start p.length [start] nxt

/-- Mark the elements of a cycle as visited (289-290). -/
def markVisited (visited : List Bool) (c : List Nat) : Py (List Bool) := c.foldlM (fun v j => setE v j true) visited

/-- Body of the loop of `to_cycle_notation` (285-291); the state is `(visited, cycles)`. -/
def toCycleStep (p : List Nat) (st : List Bool × List (List Nat)) (i : Nat) : Py (List Bool × List (List Nat)) := do
  let v ← getE st.1 i
  if v then return st
  else do
    let c ← cycle p i
    let visited ← markVisited st.1 c
    return (visited, st.2 ++ [c])

/-- `to_cycle_notation` (270-292). -/
def toCycleNotation (p : List Nat) : Py (List (List Nat)) := do
  let st ← (List.range p.length).foldlM (toCycleStep p) (List.replicate p.length false, [])
  return st.2

/-- Record the images of the elements of one cycle (311-313); an empty cycle raises IndexError (`perm_cycle[-1]`). -/
def recordCycle (image : List Int) (c : List Nat) : Py (List Int) := do
  let image ← (List.range (c.length - 1)).foldlM (fun (im : List Int) i => do
    let a ← getE c i
    let b ← getE c (i + 1)
    setE im a (b : Int)) image
  let l ← pyGet c ((c.length : Int) - 1)
  let f ← getE c 0
  setE image l (f : Int)

/-- `from_cycle_notation` (295-318). -/
def fromCycleNotation (cycles : List (List Nat)) (n : Nat) : Py (List Int) := do
  let image ← cycles.foldlM recordCycle (List.replicate n (-1))
  return image.mapIdx (fun i x => if x = -1 then (i : Int) else x)

/-- `to_transpositions` (321-338). -/
def toTranspositions (p : List Nat) : Py (List (Nat × Nat)) := do
  let cycles ← toCycleNotation p
  cycles.foldlM (fun ts c => (List.range' 1 (c.length - 1)).foldlM (fun ts i => do
    let a ← getE c 0
    let b ← getE c i
    return ts ++ [(a, b)]) ts) []

/-- `swap` (497-520). -/
def swap (p : List Nat) (t : Nat × Nat) : Py (List Nat) := do
  let a ← getE p t.2
  let b ← getE p t.1
  let q ← setE p t.1 a
  setE q t.2 b

/-- `from_transpositions` (341-358). -/
def fromTranspositions (ts : List (Nat × Nat)) (n : Nat) : Py (List Nat) := ts.reverse.foldlM swap (List.range n)

/-- `to_one_based` (361-380). -/
def toOneBased (p : List Int) : List Int := p.map (· + 1)

/-- `from_one_based` (383-402). -/
def fromOneBased (p : List Int) : List Int := p.map (· - 1)

/-- `identity` (405-417). -/
def identity (n : Nat) : List Nat := List.range n

/-- `inverse` (420-434). -/
def inverse (p : List Nat) : Py (List Nat) :=
  let two := toTwoLine p
  fromTwoLine (two.2, two.1)

/-- `composition` (437-452): sort the pairs `(i, sigma[i])` by the position of `i` in `pi`. The keys are computed first
(as Python does); a missing element raises ValueError. -/
def composition (sigma pi : List Nat) : Py (List Nat) := do
  let two := toTwoLine sigma
  let keyed ← (two.1.zip two.2).mapM (fun x => do let k ← indexE pi x.1; return (k, x))
  secondLine ((keyed.insertionSort (fun a b => a.1 ≤ b.1)).map Prod.snd)

/-- `sign` (455-475). -/
def sign (p : List Nat) : Py Int := do
  let cycles ← toCycleNotation p
  let numEven := cycles.foldl (fun k c => if c.length % 2 = 0 then k + 1 else k) 0
  return (-1) ^ numEven

/-- `num_fixed_points` (478-494). -/
def numFixedPoints (p : List Nat) : Nat :=
  (p.zipIdx).foldl (fun n x => if x.1 = x.2 then n + 1 else n) 0

/-- `permute_values` (523-544). -/
def permuteValues (p : List Nat) (s : List α) : Py (List α) :=
  (List.range p.length).foldlM (fun (out : List α) i => do
    let pi ← getE p i
    let x ← getE s pi
    setE out i x) s

/-- `permute_positions` (547-564). -/
def permutePositions (p : List Nat) (s : List α) : Py (List α) := do
  let q ← inverse p
  permuteValues q s

/-- `permutation_matrix_values` (567-591). -/
def matrixValues (p : List Nat) : Py (List (List Int)) :=
  (List.range p.length).foldlM (fun (m : List (List Int)) i => do
    let row ← getE m i
    let pi ← getE p i
    let row' ← setE row pi 1
    setE m i row') (List.replicate p.length (List.replicate p.length 0))

/-- `permutation_matrix_positions` (594-614): the transpose. -/
def matrixPositions (p : List Nat) : Py (List (List Int)) := do
  let m ← matrixValues p
  return (List.range p.length).map (fun j => m.map (fun row => (row[j]?).getD 0))

/-- `cyclic_permutations` (617-630): `permutation[i - j]` with Python's negative indices. -/
def cyclicPermutations (p : List α) : Py (List (List α)) :=
  (List.range p.length).mapM (fun (j : Nat) => (List.range p.length).mapM (fun (i : Nat) => pyGet p ((i : Int) - (j : Int))))

/-- `circularly_equivalent` (633-649). -/
def circularlyEquivalent [DecidableEq α] (p1 p2 : List α) : Py Bool := do
  let cs ← cyclicPermutations p2
  return decide (p1 ∈ cs)

/-- `generate_subset_permutations` (748-761) as the list of yielded tuples. -/
def generateSubset (array : List Nat) : Nat → List (List Nat)
  | 0 => [[]]
  | k + 1 => (List.range array.length).flatMap fun i =>
      match array[i]? with
      | none => []
      | some x => (generateSubset (array.take i ++ array.drop (i + 1)) k).map (x :: ·)

/-- `generate_increasing_subset_permutations` (764-780); `range(len(array) - k + 1)` is empty when `k > len(array)`. -/
def generateIncreasing (array : List Nat) : Nat → List (List Nat)
  | 0 => [[]]
  | k + 1 => (List.range (array.length + 1 - (k + 1))).flatMap fun i =>
      match array[i]? with
      | none => []
      | some x => (generateIncreasing (array.drop (i + 1)) k).map (x :: ·)

/-- `subset_permutations` (679-694). -/
def subsetPermutations (n : Nat) (k : Int) : List (List Nat) :=
  if k ≤ 0 ∨ k > n then [] else generateSubset (List.range n) k.toNat

/-- `permutations` (652-664). -/
def permutations (n : Nat) : List (List Nat) := subsetPermutations n n

/-- `increasing_subset_permutations` (711-730). -/
def increasingSubsetPermutations (n : Nat) (k : Int) : List (List Nat) :=
  if k ≤ 0 ∨ k > n then [] else generateIncreasing (List.range n) k.toNat

/-- `num_permutations` (667-676). -/
def numPermutations (n : Nat) : Nat := n.factorial

/-- `num_subset_permutations` (697-708): the quotient is exact; `k > n` makes `math.factorial` raise ValueError. -/
def numSubsetPermutations (n k : Nat) : Py Nat :=
  if k > n then .error .value else .ok (n.factorial / (n - k).factorial)

/-- `num_increasing_subset_permutations` (733-745) with the exact binomial coefficient. -/
def numIncreasingSubsetPermutations (n k : Nat) : Nat := n.choose k

/-- `array[i], array[j] = array[j], array[i]`. -/
def swapEntries (a : List α) (i j : Nat) : Py (List α) := do
  let x ← getE a j
  let y ← getE a i
  let b ← setE a i x
  setE b j y

/-- The Knuth shuffle loop of `generate_random_permutation` (792-794), for the remaining positions `i, i+1, ...`; `draws` are the
successive values of `random.randint(0, n - 1 - i)`. -/
def shuffleLoop (n : Nat) : Nat → List Nat → List Nat → Py (List Nat)
  | _, [], a => .ok a
  | i, d :: ds, a => do
    let a' ← swapEntries a i (d + i)
    shuffleLoop n (i + 1) ds a'

/-- `generate_random_permutation` (783-795) for given random draws (`n - 1` of them). -/
def randomPermutation (n : Nat) (draws : List Nat) : Py (List Nat) := shuffleLoop n 0 draws (List.range n)

/-- `generate_random_subset_permutation` (798-806). -/
def randomSubset (n k : Nat) (draws : List Nat) : Py (List Nat) := do
  let p ← randomPermutation n draws
  return p.take k

/-- `generate_random_increasing_subset_permutation` (809-821). -/
def randomIncreasing (n k : Nat) (draws : List Nat) : Py (List Nat) := do
  let p ← randomSubset n k draws
  return p.insertionSort (· ≤ ·)

/-- Loop body of `construct_permutation` (845-848). -/
def constructStep (p : List Nat) (dc : Nat × Nat) : Py (List Nat) := do
  let x ← getE p dc.1
  if x ≠ dc.2 then do
    let idx ← indexE p dc.2
    swapEntries p dc.1 idx
  else return p

/-- `construct_permutation` (824-849). -/
def constructPermutation (domain codomain : List Nat) (n : Nat) : Py (List Nat) :=
  if domain.length = codomain.length then (domain.zip codomain).foldlM constructStep (List.range n) else .error .assertion

/-- The dictionary of `construct_permutation_general` (874-876): later positions overwrite earlier ones. -/
def elementIndex [DecidableEq α] (domain : List α) (x : α) : Option Nat :=
  domain.zipIdx.foldl (fun d p => if p.1 = x then some p.2 else d) none

/-- `construct_permutation_general` (852-886). -/
def constructPermutationGeneral [DecidableEq α] (domain codomain : List α) (byValue : Bool) : Py (List Nat) := do
  let p ← codomain.mapM (fun c => keyE (elementIndex domain c))
  if byValue then return p else inverse p

end Verif.Perm
