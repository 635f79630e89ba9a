import Verif.Model.Permutations
import Verif.Model.MultiIndex
/-!
# Model of the random functions of `algebra/permutations.py` and `algebra/multiindex.py` with their calls of the generator

`rnd i a b` is the result of call number `i` of the random number generator, if it is called with the arguments `a` and `b`.
-/

namespace Verif.Perm
open Verif

/-- `generate_random_permutation` (permutations.py 783-795): call number `i` is `random.randint(0, n - 1 - i)`. -/
def generateRandomPermutation (rnd : Nat → Nat → Nat → Nat) (n : Nat) : Py (List Nat) :=
  randomPermutation n ((List.range (n - 1)).map fun i => rnd i 0 (n - 1 - i))

/-- `generate_random_subset_permutation` (permutations.py 798-806). -/
def generateRandomSubsetPermutation (rnd : Nat → Nat → Nat → Nat) (n k : Nat) : Py (List Nat) := do
  let p ← generateRandomPermutation rnd n
  return p.take k

/-- `generate_random_increasing_subset_permutation` (permutations.py 809-821). -/
def generateRandomIncreasingSubsetPermutation (rnd : Nat → Nat → Nat → Nat) (n k : Nat) : Py (List Nat) := do
  let p ← generateRandomSubsetPermutation rnd n k
  return p.insertionSort (· ≤ ·)

end Verif.Perm

namespace Verif.MI
open Verif

/-- `random_multiindex` (multiindex.py 587-599): one call `np.random.randint(0, dim)`. -/
def randomMultiindexCall (rnd : Nat → Nat → Nat → Nat) (n r : Nat) : Py (List Nat) :=
  let dim := numMultiindices n r
  let i := rnd 0 0 dim
  generate n r i

end Verif.MI
