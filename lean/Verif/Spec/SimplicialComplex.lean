import Mathlib.GroupTheory.Perm.Sign
import Mathlib.Data.List.OfFn
import Mathlib.Algebra.BigOperators.Group.List.Basic
/-!
# Specification of oriented simplices and chains
-/

namespace Verif.Spec

/-- `u` is `t` with its entries rearranged by a permutation of sign `ε`. -/
def Reorders (t u : List Nat) (ε : ℤ) : Prop :=
  ∃ e : Equiv.Perm (Fin t.length), u = List.ofFn (fun i => t[e i]) ∧ ε = ((Equiv.Perm.sign e : ℤˣ) : ℤ)

/-- A chain is a formal sum of simplices with integer coefficients. -/
abbrev Chain := List (List Nat × ℤ)

/-- The total coefficient of the simplex `t` in a chain. -/
def Chain.coeff (c : Chain) (t : List Nat) : ℤ := (c.map (fun x => if x.1 = t then x.2 else 0)).sum

/-- The simplices `prev` and `cur` of two consecutive dimensions are part of a simplicial complex: no simplex repeats a vertex, no two of
the simplices in `prev` have the same vertices, the simplices in `cur` have at least two vertices, and all their facets are in `prev`. -/
structure Closed (prev cur : List (List Nat)) : Prop where
  nodup : ∀ t ∈ prev, t.Nodup
  distinct : prev.Pairwise (fun a b => ¬ a.Perm b)
  curNodup : ∀ s ∈ cur, s.Nodup
  two : ∀ s ∈ cur, 2 ≤ s.length
  facets : ∀ s ∈ cur, ∀ i < s.length, ∃ t ∈ prev, (s.eraseIdx i).Perm t

end Verif.Spec
