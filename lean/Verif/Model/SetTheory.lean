/-!
# Model of `set_theory.py`

A Python set is modelled by the duplicate free list of its elements in some iteration order.
-/

namespace Verif.SetTheory

/-- `product.add(x)` on a set. -/
def setAdd [DecidableEq α] (p : List α) (x : α) : List α := if x ∈ p then p else p ++ [x]

/-- `set(iterable)`. -/
def toSet [DecidableEq α] (l : List α) : List α := l.foldl setAdd []

/-- `cartesian_product` (set_theory.py:7-20) for two sets with elements of the same type; the pairs `(x, y)` produced by
`itertools.product` are lists `[x, y]`. -/
def cartesianProduct [DecidableEq α] (s t : List α) : List (List α) :=
  toSet (s.flatMap fun x => t.map fun y => [x, y])

/-- The result of `nfold_cartesian_product`: a set of plain elements or a set of tuples. -/
inductive NFold (α : Type) where
  | elems (s : List α)
  | tuples (ts : List (List α))
  deriving DecidableEq, Repr

/-- The double loop of lines 46-49. -/
def prependAll [DecidableEq α] (s : List α) (p0 : List (List α)) : List (List α) :=
  p0.foldl (fun product sub => s.foldl (fun product element => setAdd product (element :: sub)) product) []

/-- The tuple case (`n ≥ 2`) of `nfold_cartesian_product` (set_theory.py:42-50); the argument is `n - 2`. -/
def nfoldTuples [DecidableEq α] (s : List α) : Nat → List (List α)
  | 0 => cartesianProduct s s
  | k + 1 => prependAll s (nfoldTuples s k)

/-- `nfold_cartesian_product` (set_theory.py:23-50) for `n ≥ 0` (a negative `n` recurses for ever). -/
def nfoldCartesianProduct [DecidableEq α] (s : List α) : Nat → NFold α
  | 0 => .tuples []
  | 1 => .elems s
  | k + 2 => .tuples (nfoldTuples s k)

end Verif.SetTheory
