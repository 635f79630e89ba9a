import Verif.Model.LagrangeCache
import Verif.Lemmas.MultiIndex
/-!
# Whole-table check of the Lagrange coefficient cache

The check is an integer computation: all quantities are multiplied by `den * r^r`.
-/

namespace Verif.Poly
open Verif Verif.MI

/-- `∏ᵢ μᵢ^ρᵢ`. -/
def natMono : List Nat → List Nat → Nat
  | a :: as, k :: ks => a ^ k * natMono as ks
  | _, _ => 1

/-- `r^r (μ/r)^ρ` for all `ρ`. -/
def weights (n r : Nat) (μ : List Nat) : List Nat := (mis n r).map (fun ρ => natMono μ ρ * r ^ (r - ρ.sum))

def intDot : List Int → List Nat → Int
  | z :: zs, w :: ws => z * (w : Int) + intDot zs ws
  | _, _ => 0

/-- One dictionary satisfies the interpolation conditions. -/
def checkDict (n r : Nat) (d : LagrangeDict) : Bool :=
  decide (0 < d.1) && decide (d.2.map Prod.fst = mis n r) && d.2.all (fun e => e.2.length == (mis n r).length) &&
  (mis n r).all (fun μ => d.2.all (fun e => intDot e.2 (weights n r μ) == if e.1 = μ then (d.1 : Int) * (r : Int) ^ r else 0))

def checkRow (n : Nat) (row : List LagrangeDict) : Bool := row.zipIdx.all (fun e => checkDict n (e.2 + 1) e.1)

set_option maxRecDepth 100000 in
theorem cache_checked : (lagrangeCache.zipIdx.all (fun e => checkRow (e.2 + 1) e.1)) = true := by decide +kernel

end Verif.Poly
