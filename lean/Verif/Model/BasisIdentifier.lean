import Verif.Model.SimplexPolynomial
import Verif.Model.StrUtils
/-!
# Model of the identifiers of polynomial bases

`unique_identifier_*` in `polynomials_on_simplices/polynomial/polynomials_monomial_basis.py` (MB below), `polynomials_unit_simplex_bernstein_basis.py`
(UB), `polynomials_unit_simplex_lagrange_basis.py` (UL), `polynomials_simplex_bernstein_basis.py` (SBB) and
`polynomials_simplex_lagrange_basis.py` (SLB), and the operators of `polynomials_simplex_base.py` (SB) as they are in the program, where operands
are accepted if the *texts* of the identifiers agree. In `Model/SimplexPolynomial.lean` the vertices themselves are compared.

`print` is the function `str` applied to the vertices (a NumPy array or a list of lists); it is a parameter of the model.
-/

namespace Verif.BasisId
open Verif Verif.Str Verif.Poly Verif.Simplex Verif.SPoly

/-- `unique_identifier_monomial_basis` (MB 32-39), `unique_identifier_bernstein_basis` (UB 43-50), `unique_identifier_lagrange_basis`
(UL 42-49). -/
def unitIdentifier : Basis → Str
  | .monomial => "monomial".toList
  | .bernstein => "Bernstein".toList
  | .lagrange => "Lagrange".toList

/-- The first line of the identifier of a basis on a simplex (SBB 46, SLB 50). There is no monomial basis on a simplex; its name is used here. -/
def simplexHeader (b : Basis) : Str := unitIdentifier b ++ ['(']

/-- `unique_identifier_bernstein_basis_simplex` (SBB 35-51) and `unique_identifier_lagrange_basis_simplex` (SLB 39-55), where `text` is
`str(vertices)`. -/
def simplexIdentifier (b : Basis) (text : Str) : Py Str := do
  let w := ({} : Writer).wl (simplexHeader b)
  let w ← w.incIndent.wc text
  return (w.decIndent.wl [')']).code

variable {K V : Type} [Field K] [DecidableEq K] [AddCommGroup V] [Module K V] {m : Nat}

/-- `basis()` of a polynomial on a simplex (SBB 81-92, SLB 142-153). -/
def identifier (print : Vertices K m m → Str) (p : SObj K V m) : Py Str := simplexIdentifier p.poly.basis (print p.vertices)

/-- `assert self.basis() == other.basis()` (SB 127, 149, SBB 119). -/
def sameBasis (print : Vertices K m m → Str) {W : Type} (p : SObj K V m) (q : SObj K W m) : Py Unit := do
  let a ← identifier print p
  let b ← identifier print q
  pyAssert (decide (a = b))

/-- The branch of `__add__` / `__sub__` for equal degrees (SB 122-129, 144-151); as `SPoly.combineSame`, but with the identifiers. -/
noncomputable def combineSame (print : Vertices K m m → Str) (op : V → V → V) (p q : SObj K V m) : Py (SObj K V m) := do
  sameBasis print p q
  if p.poly.r = q.poly.r then SObj.new p.poly.basis (List.zipWith op p.poly.coeff q.poly.coeff) p.vertices (some p.poly.r)
  else .error .runtime

/-- `__add__` (SB 113-133) with `op = +`, `__sub__` (SB 135-155) with `op = -`. -/
noncomputable def combine (print : Vertices K m m → Str) (op : V → V → V) (p q : SObj K V m) : Py (SObj K V m) := do
  sameBasis print p q
  if p.poly.r = q.poly.r then combineSame print op p q
  else if p.poly.r > q.poly.r then
    let q' ← q.degreeElevate p.poly.r
    combineSame print op p q'
  else
    let p' ← p.degreeElevate q.poly.r
    combineSame print op p' q

/-- `__mul__` for two polynomials (SBB 105-126); the Lagrange basis (SLB 166-191) does not compare identifiers. -/
noncomputable def mul (print : Vertices K m m → Str) (p q : SObj K K m) : Py (SObj K K m) :=
  match p.poly.basis with
  | .lagrange => mulLagrangeSimplex p q
  | _ => do
    sameBasis print p q
    let c ← p.poly.mul q.poly
    SObj.new .bernstein c.coeff p.vertices (some (p.poly.r + q.poly.r))

end Verif.BasisId
