import Verif.Model.MultiIndex
/-!
# Model of `get_associated_sub_simplex`

The functions in `polynomials_unit_simplex_bernstein_basis.py` (1044-1089) and `polynomials_unit_simplex_lagrange_basis.py` (958-1004) have the same
code.
-/

namespace Verif.SubSimplex
open Verif

/-- A multi-index argument: an int or a sequence. -/
inductive NuArg where
  | int (k : Nat)
  | multi (nu : List Nat)

/-- The loop (bernstein 1085-1088, lagrange 1000-1003) over the entries of the exact multi-index, `i` is the loop variable. -/
def subLoop (simplex : List Nat) : List Nat → Nat → List Nat → List Nat → Py (List Nat × List Nat)
  | [], _, sub, mu => .ok (sub, mu)
  | e :: es, i, sub, mu =>
    if e ≠ 0 then do
      let v ← getE simplex i
      subLoop simplex es (i + 1) (sub ++ [v]) (mu ++ [e])
    else subLoop simplex es (i + 1) sub mu

/-- `get_associated_sub_simplex` (bernstein 1044-1089, lagrange 958-1004). For an int `nu` and `r ≠ 0` the call of `general_to_exact_norm` raises
TypeError (`sum` of an int). -/
def getAssociatedSubSimplex (nu : NuArg) (r : Nat) (simplex : Option (List Nat)) : Py (List Nat × List Nat) := do
  let n := match nu with
    | .int _ => 1
    | .multi nu => nu.length
  let simplex := simplex.getD (List.range (n + 1))
  if r = 0 then return (simplex, MI.zero n)
  else
    match nu with
    | .int _ => .error .type
    | .multi nu => do
      let mi ← MI.generalToExactNorm nu r
      subLoop simplex mi 0 [] []

end Verif.SubSimplex
