import Verif.Model.FloatPolynomial
/-!
# Model of the fixed quadrature rules in floating point arithmetic (`calculus/quadrature.py`)

Every operation on floats has a relative error of at most `ε` (`PyExpr.Rounded`), and so has every literal and every quotient of literals (integers are exact).
A result is the set of its possible values. The integrand is a parameter: the set of the numbers that it can return for given arguments. Values are rounded
independently of each other, which includes all possible behaviours of the code. Exceptions of the integrand are not modelled here.
-/

namespace Verif.FloatQuadrature
open Verif Verif.FloatPoly

noncomputable section

/-- The possible values of `f(x, y)` (quadrature.py:140-156). -/
def call2 (F : ℝ → ℝ → Set ℝ) (X Y : Set ℝ) : Set ℝ := {c | ∃ x ∈ X, ∃ y ∈ Y, c ∈ F x y}

/-- The possible values of `f(x, y, z)` (quadrature.py:230-285). -/
def call3 (F : ℝ → ℝ → ℝ → Set ℝ) (X Y Z : Set ℝ) : Set ℝ := {c | ∃ x ∈ X, ∃ y ∈ Y, ∃ z ∈ Z, c ∈ F x y z}

/-- `a + b + c + …`, from left to right (quadrature.py:142-156, 233-285). -/
def sum (ε : ℝ) : List (Set ℝ) → Set ℝ
  | [] => {0}
  | a :: l => l.foldl (add ε) a

/-- `quadrature_unit_triangle_fixed` (130-157). -/
def unitTriangleFixed (ε : ℝ) (F : ℝ → ℝ → Set ℝ) (n : Nat) : Py (Set ℝ) :=
  if n = 1 then
    .ok (mul ε (round ε (1 / 2)) (sum ε [
      call2 F (round ε (1 / 3)) (round ε (1 / 3))]))
  else if n = 2 then
    .ok (mul ε (round ε (1 / 6)) (sum ε [
      call2 F (round ε (1 / 2)) (round ε (1 / 2)),
      call2 F {0} (round ε (1 / 2)),
      call2 F (round ε (1 / 2)) {0}]))
  else if n = 3 then
    .ok (mul ε (round ε (1 / 96)) (sum ε [
      mul ε {-27} (call2 F (round ε (1 / 3)) (round ε (1 / 3))),
      mul ε {25} (call2 F (round ε 0.2) (round ε 0.6)),
      mul ε {25} (call2 F (round ε 0.6) (round ε 0.2)),
      mul ε {25} (call2 F (round ε 0.2) (round ε 0.2))]))
  else if n = 4 then
    .ok (mul ε (round ε (0.5)) (sum ε [
      mul ε (round ε 0.223381589678011) (call2 F (round ε 0.108103018168070) (round ε 0.445948490915965)),
      mul ε (round ε 0.223381589678011) (call2 F (round ε 0.445948490915965) (round ε 0.108103018168070)),
      mul ε (round ε 0.223381589678011) (call2 F (round ε 0.445948490915965) (round ε 0.445948490915965)),
      mul ε (round ε 0.109951743655322) (call2 F (round ε 0.816847572980459) (round ε 0.091576213509771)),
      mul ε (round ε 0.109951743655322) (call2 F (round ε 0.091576213509771) (round ε 0.816847572980459)),
      mul ε (round ε 0.109951743655322) (call2 F (round ε 0.091576213509771) (round ε 0.091576213509771))]))
  else .error .value

/-- `quadrature_unit_tetrahedron_fixed` (220-286). -/
def unitTetrahedronFixed (ε : ℝ) (F : ℝ → ℝ → ℝ → Set ℝ) (n : Nat) : Py (Set ℝ) :=
  if n = 1 then
    .ok (mul ε (round ε (1 / 6)) (sum ε [
      call3 F (round ε (1 / 4)) (round ε (1 / 4)) (round ε (1 / 4))]))
  else if n = 2 then
    .ok (mul ε (round ε (1 / 24)) (sum ε [
      call3 F (round ε 0.58541019662496852) (round ε 0.1381966011250105) (round ε 0.1381966011250105),
      call3 F (round ε 0.1381966011250105) (round ε 0.58541019662496852) (round ε 0.1381966011250105),
      call3 F (round ε 0.1381966011250105) (round ε 0.1381966011250105) (round ε 0.58541019662496852),
      call3 F (round ε 0.1381966011250105) (round ε 0.1381966011250105) (round ε 0.1381966011250105)]))
  else if n = 3 then
    .ok (mul ε (round ε (1 / 6)) (sum ε [
      mul ε (round ε (-0.8)) (call3 F (round ε (1 / 4)) (round ε (1 / 4)) (round ε (1 / 4))),
      mul ε (round ε 0.45) (call3 F (round ε 0.5) (round ε (1 / 6)) (round ε (1 / 6))),
      mul ε (round ε 0.45) (call3 F (round ε (1 / 6)) (round ε 0.5) (round ε (1 / 6))),
      mul ε (round ε 0.45) (call3 F (round ε (1 / 6)) (round ε (1 / 6)) (round ε 0.5)),
      mul ε (round ε 0.45) (call3 F (round ε (1 / 6)) (round ε (1 / 6)) (round ε (1 / 6)))]))
  else if n = 4 then
    .ok (mul ε (round ε (1 / 6)) (sum ε [
      mul ε (round ε 0.07349304311636194934358694586367885) (call3 F (round ε 0.7217942490673264) (round ε 0.09273525031089122628655892066032137) (round ε 0.09273525031089122628655892066032137)),
      mul ε (round ε 0.07349304311636194934358694586367885) (call3 F (round ε 0.09273525031089122628655892066032137) (round ε 0.7217942490673264) (round ε 0.09273525031089122628655892066032137)),
      mul ε (round ε 0.07349304311636194934358694586367885) (call3 F (round ε 0.09273525031089122628655892066032137) (round ε 0.09273525031089122628655892066032137) (round ε 0.7217942490673264)),
      mul ε (round ε 0.07349304311636194934358694586367885) (call3 F (round ε 0.09273525031089122628655892066032137) (round ε 0.09273525031089122628655892066032137) (round ε 0.09273525031089122628655892066032137)),
      mul ε (round ε 0.11268792571801585036501492847638892) (call3 F (round ε 0.06734224221009821) (round ε 0.31088591926330060975814749494040332) (round ε 0.31088591926330060975814749494040332)),
      mul ε (round ε 0.11268792571801585036501492847638892) (call3 F (round ε 0.31088591926330060975814749494040332) (round ε 0.06734224221009821) (round ε 0.31088591926330060975814749494040332)),
      mul ε (round ε 0.11268792571801585036501492847638892) (call3 F (round ε 0.31088591926330060975814749494040332) (round ε 0.31088591926330060975814749494040332) (round ε 0.06734224221009821)),
      mul ε (round ε 0.11268792571801585036501492847638892) (call3 F (round ε 0.31088591926330060975814749494040332) (round ε 0.31088591926330060975814749494040332) (round ε 0.31088591926330060975814749494040332)),
      mul ε (round ε 0.04254602077708146686093208377328816) (call3 F (round ε 0.04550370412564965000000000000000000) (round ε 0.04550370412564965000000000000000000) (round ε 0.45449629587435036)),
      mul ε (round ε 0.04254602077708146686093208377328816) (call3 F (round ε 0.04550370412564965000000000000000000) (round ε 0.45449629587435036) (round ε 0.04550370412564965000000000000000000)),
      mul ε (round ε 0.04254602077708146686093208377328816) (call3 F (round ε 0.04550370412564965000000000000000000) (round ε 0.45449629587435036) (round ε 0.45449629587435036)),
      mul ε (round ε 0.04254602077708146686093208377328816) (call3 F (round ε 0.45449629587435036) (round ε 0.04550370412564965000000000000000000) (round ε 0.04550370412564965000000000000000000)),
      mul ε (round ε 0.04254602077708146686093208377328816) (call3 F (round ε 0.45449629587435036) (round ε 0.04550370412564965000000000000000000) (round ε 0.45449629587435036)),
      mul ε (round ε 0.04254602077708146686093208377328816) (call3 F (round ε 0.45449629587435036) (round ε 0.45449629587435036) (round ε 0.04550370412564965000000000000000000))]))
  else .error .value

/-- The last lines of `quadrature_triangle_fixed` (193-194) and `quadrature_tetrahedron_fixed` (322-323): `d * integral`. `D` are the numbers that
`np.abs(np.linalg.det(ta))` can give, `I` those that the rule for the unit simplex can give for the pulled back function. -/
def scale (ε : ℝ) (D : Set ℝ) (I : Py (Set ℝ)) : Py (Set ℝ) := do
  let i ← I
  return mul ε D i

end

end Verif.FloatQuadrature
