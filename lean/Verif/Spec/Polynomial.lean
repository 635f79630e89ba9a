import Mathlib.Algebra.Field.Defs
import Mathlib.Algebra.Module.Basic
import Mathlib.Algebra.BigOperators.Group.List.Basic
import Mathlib.Data.Nat.Factorial.Basic
/-!
# Specification: the function that a polynomial object stands for

A point is the list of its coordinates. The multi-indices are listed in the order of the enumeration (properties C01, C02).
-/

namespace Verif.Spec

variable {K V : Type} [Field K] [AddCommGroup V] [Module K V]

/-- The monomial `x^ν = x₁^ν₁ ⋯ xₙ^νₙ`. -/
def monomial (x : List K) (ν : List Nat) : K := (List.zipWith (· ^ ·) x ν).prod

/-- The multinomial coefficient `r! / (ν₁! ⋯ νₙ! (r - |ν|)!)`. -/
def multinomial (r : Nat) (ν : List Nat) : Nat :=
  r.factorial / ((ν.map Nat.factorial).prod * (r - ν.sum).factorial)

/-- The Bernstein basis polynomial `multinomial(r, ν) x^ν (1 - Σ xᵢ)^(r - |ν|)`. -/
def bernstein (r : Nat) (x : List K) (ν : List Nat) : K :=
  (multinomial r ν : K) * monomial x ν * (1 - x.sum) ^ (r - ν.sum)

/-- `t (t - 1) ⋯ (t - k + 1) / k!`: the polynomial of degree `k` that vanishes at `0, …, k - 1` and is one at `k`. -/
def fallingBinomial (t : K) (k : Nat) : K := ((List.range k).map (fun (j : Nat) => (t - j) / ((k : K) - j))).prod

/-- The Lagrange basis polynomial of degree `r` for the lattice point `ν / r`. -/
def lagrange (r : Nat) (x : List K) (ν : List Nat) : K :=
  fallingBinomial ((r : K) * (1 - x.sum)) (r - ν.sum) *
    (List.zipWith (fun xi k => fallingBinomial ((r : K) * xi) k) x ν).prod

/-- `Σᵢ b(νᵢ) cᵢ` for multi-indices `ν₀, ν₁, …` and coefficients `c₀, c₁, …`. -/
def linComb (b : List Nat → K) (νs : List (List Nat)) (c : List V) : V :=
  (List.zipWith (fun ν a => b ν • a) νs c).sum

end Verif.Spec
