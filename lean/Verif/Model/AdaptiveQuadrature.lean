import Verif.Model.Quadrature
/-!
# Model of the adaptive rules of `calculus/quadrature.py`

The routines of `scipy.integrate` are parameters: `quad f a b` is `quadrature(f, a, b, vec_func=False)[0]`, `dblquad f a b g h` is
`dblquad(f, a, b, g, h)[0]` and `tplquad f a b g h q r` is `tplquad(f, a, b, g, h, q, r)[0]`. Real numbers instead of floating point
numbers.
-/

namespace Verif.Quadrature
open Verif Simplex

noncomputable section

/-- The type of `scipy.integrate.quadrature`. -/
abbrev Quad := (ℝ → ℝ) → ℝ → ℝ → ℝ

/-- The type of `scipy.integrate.dblquad`. -/
abbrev DblQuad := (ℝ → ℝ → ℝ) → ℝ → ℝ → (ℝ → ℝ) → (ℝ → ℝ) → ℝ

/-- The type of `scipy.integrate.tplquad`. -/
abbrev TplQuad := (ℝ → ℝ → ℝ → ℝ) → ℝ → ℝ → (ℝ → ℝ) → (ℝ → ℝ) → (ℝ → ℝ → ℝ) → (ℝ → ℝ → ℝ) → ℝ

/-- `quadrature_unit_interval` (calculus/quadrature.py:26-34). -/
def unitInterval (quad : Quad) (f : ℝ → ℝ) : ℝ := quad f 0 1

/-- `quadrature_interval` (calculus/quadrature.py:80-90). -/
def interval (quad : Quad) (f : ℝ → ℝ) (a b : ℝ) : ℝ := quad f a b

/-- `quadrature_unit_triangle` (calculus/quadrature.py:113-127). -/
def unitTriangle (dblquad : DblQuad) (f : ℝ → ℝ → ℝ) : ℝ :=
  let gfun := fun _ => 0
  let hfun := fun x => 1 - x
  dblquad f 0 1 gfun hfun

/-- `quadrature_triangle` (calculus/quadrature.py:160-175). The composition with the affine map is the one of `triangleFixed`. -/
def triangle (dblquad : DblQuad) (f : ℝ → ℝ → ℝ) (v : Vertices ℝ 2 2) : Py ℝ := do
  let phi ← affineFromUnit v
  let pb_f := fun x y => f (createAffineMap phi ![x, y] 0) (createAffineMap phi ![x, y] 1)
  let d := |phi.1.det|
  return d * unitTriangle dblquad pb_f

/-- `quadrature_unit_tetrahedron` (calculus/quadrature.py:197-217). -/
def unitTetrahedron (tplquad : TplQuad) (f : ℝ → ℝ → ℝ → ℝ) : ℝ :=
  let gfun := fun _ => 0
  let hfun := fun x => 1 - x
  let qfun := fun _ _ => 0
  let rfun := fun x y => 1 - x - y
  tplquad f 0 1 gfun hfun qfun rfun

/-- `quadrature_tetrahedron` (calculus/quadrature.py:289-304). -/
def tetrahedron (tplquad : TplQuad) (f : ℝ → ℝ → ℝ → ℝ) (v : Vertices ℝ 3 3) : Py ℝ := do
  let phi ← affineFromUnit v
  let pb_f := fun x y z => f (createAffineMap phi ![x, y, z] 0) (createAffineMap phi ![x, y, z] 1) (createAffineMap phi ![x, y, z] 2)
  let d := |phi.1.det|
  return d * unitTetrahedron tplquad pb_f

end

end Verif.Quadrature
