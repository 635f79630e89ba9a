import Mathlib.Data.Real.Basic
import Mathlib.Data.Rat.Floor
import Verif.Model.Simplex
/-!
# Model of the fixed rules of `calculus/quadrature.py`

Real numbers instead of floating point numbers; the decimal constants are the rational numbers written in the file. The adaptive rules
(`scipy.integrate`) and the computation of Gauss-Legendre points (`sympy`) are external; the latter is a parameter.
-/

namespace Verif.Quadrature
open Verif Simplex

noncomputable section

/-- `quadrature_unit_triangle_fixed` (130-157). -/
def unitTriangleFixed (f : ℝ → ℝ → ℝ) (n : Nat) : Py ℝ :=
  if n = 1 then
    .ok (1 / 2 * f (1 / 3) (1 / 3))
  else if n = 2 then
    .ok (1 / 6 * (f (1 / 2) (1 / 2)
      + f 0 (1 / 2)
      + f (1 / 2) 0))
  else if n = 3 then
    .ok (1 / 96 * (-27 * f (1 / 3) (1 / 3)
      + 25 * f 0.2 0.6
      + 25 * f 0.6 0.2
      + 25 * f 0.2 0.2))
  else if n = 4 then
    .ok (0.5 * (0.223381589678011 * f 0.108103018168070 0.445948490915965
      + 0.223381589678011 * f 0.445948490915965 0.108103018168070
      + 0.223381589678011 * f 0.445948490915965 0.445948490915965
      + 0.109951743655322 * f 0.816847572980459 0.091576213509771
      + 0.109951743655322 * f 0.091576213509771 0.816847572980459
      + 0.109951743655322 * f 0.091576213509771 0.091576213509771))
  else .error .value

/-- `quadrature_unit_tetrahedron_fixed` (220-286). -/
def unitTetrahedronFixed (f : ℝ → ℝ → ℝ → ℝ) (n : Nat) : Py ℝ :=
  if n = 1 then
    .ok (1 / 6 * f (1 / 4) (1 / 4) (1 / 4))
  else if n = 2 then
    .ok (1 / 24 * (f 0.58541019662496852 0.1381966011250105 0.1381966011250105
      + f 0.1381966011250105 0.58541019662496852 0.1381966011250105
      + f 0.1381966011250105 0.1381966011250105 0.58541019662496852
      + f 0.1381966011250105 0.1381966011250105 0.1381966011250105))
  else if n = 3 then
    .ok (1 / 6 * (-0.8 * f (1 / 4) (1 / 4) (1 / 4)
      + 0.45 * f 0.5 (1 / 6) (1 / 6)
      + 0.45 * f (1 / 6) 0.5 (1 / 6)
      + 0.45 * f (1 / 6) (1 / 6) 0.5
      + 0.45 * f (1 / 6) (1 / 6) (1 / 6)))
  else if n = 4 then
    .ok (1 / 6 * (0.07349304311636194934358694586367885 * f 0.7217942490673264 0.09273525031089122628655892066032137 0.09273525031089122628655892066032137
      + 0.07349304311636194934358694586367885 * f 0.09273525031089122628655892066032137 0.7217942490673264 0.09273525031089122628655892066032137
      + 0.07349304311636194934358694586367885 * f 0.09273525031089122628655892066032137 0.09273525031089122628655892066032137 0.7217942490673264
      + 0.07349304311636194934358694586367885 * f 0.09273525031089122628655892066032137 0.09273525031089122628655892066032137 0.09273525031089122628655892066032137
      + 0.11268792571801585036501492847638892 * f 0.06734224221009821 0.31088591926330060975814749494040332 0.31088591926330060975814749494040332
      + 0.11268792571801585036501492847638892 * f 0.31088591926330060975814749494040332 0.06734224221009821 0.31088591926330060975814749494040332
      + 0.11268792571801585036501492847638892 * f 0.31088591926330060975814749494040332 0.31088591926330060975814749494040332 0.06734224221009821
      + 0.11268792571801585036501492847638892 * f 0.31088591926330060975814749494040332 0.31088591926330060975814749494040332 0.31088591926330060975814749494040332
      + 0.04254602077708146686093208377328816 * f 0.04550370412564965000000000000000000 0.04550370412564965000000000000000000 0.45449629587435036
      + 0.04254602077708146686093208377328816 * f 0.04550370412564965000000000000000000 0.45449629587435036 0.04550370412564965000000000000000000
      + 0.04254602077708146686093208377328816 * f 0.04550370412564965000000000000000000 0.45449629587435036 0.45449629587435036
      + 0.04254602077708146686093208377328816 * f 0.45449629587435036 0.04550370412564965000000000000000000 0.04550370412564965000000000000000000
      + 0.04254602077708146686093208377328816 * f 0.45449629587435036 0.04550370412564965000000000000000000 0.45449629587435036
      + 0.04254602077708146686093208377328816 * f 0.45449629587435036 0.45449629587435036 0.04550370412564965000000000000000000))
  else .error .value

/-- `quadrature_triangle_fixed` (178-194). -/
def triangleFixed (f : ℝ → ℝ → ℝ) (v : Vertices ℝ 2 2) (n : Nat) : Py ℝ := do
  let phi ← affineFromUnit v
  let d := |phi.1.det|
  let i ← unitTriangleFixed (fun x y => f (createAffineMap phi ![x, y] 0) (createAffineMap phi ![x, y] 1)) n
  return d * i

/-- `quadrature_tetrahedron_fixed` (307-323). -/
def tetrahedronFixed (f : ℝ → ℝ → ℝ → ℝ) (v : Vertices ℝ 3 3) (n : Nat) : Py ℝ := do
  let phi ← affineFromUnit v
  let d := |phi.1.det|
  let i ← unitTetrahedronFixed (fun x y z => f (createAffineMap phi ![x, y, z] 0) (createAffineMap phi ![x, y, z] 1)
    (createAffineMap phi ![x, y, z] 2)) n
  return d * i

/-- `gauss_legendre_unit_interval` (37-59). `rule n` is the list of the points and weights of `sympy`'s `gauss_legendre(n, n_digits)`. -/
def gaussLegendreUnitInterval (rule : Nat → List (ℝ × ℝ)) (n : Nat) : List (ℝ × ℝ) :=
  (rule n).map (fun p => ((p.1 + 1) / 2, 0.5 * p.2))

/-- `quadrature_unit_interval_fixed` (62-77). -/
def unitIntervalFixed (rule : Nat → List (ℝ × ℝ)) (f : ℝ → ℝ) (r : Nat) : ℝ :=
  let n := (⌈((r : ℚ) + 1) / 2⌉).toNat
  (gaussLegendreUnitInterval rule n).foldl (fun integral p => integral + p.2 * f p.1) 0

/-- `quadrature_interval_fixed` (93-110). -/
def intervalFixed (rule : Nat → List (ℝ × ℝ)) (f : ℝ → ℝ) (a b : ℝ) (n : Nat) : Py ℝ := do
  let phi ← affineFromUnit (K := ℝ) (k := 1) (n := 1) (fun i _ => if i = 0 then a else b)
  let d := |phi.1 0 0|
  return d * unitIntervalFixed rule (fun x => f (createAffineMap phi (fun _ => x) 0)) n

end

end Verif.Quadrature
