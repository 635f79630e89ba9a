import Verif.Model.CodeGeneration
import Verif.Model.SimplexPolynomial
/-!
# Model of `code_str`

The texts of numbers and arrays are parameters: `num` is `str_number`, `str` is Python's `str` for a number, `reprMatrix` and `reprVector` are
`__repr__` of NumPy arrays (`array([[...` and `array([...`).
-/

namespace Verif.CodeGen
open Verif Verif.Str Verif.Poly Verif.SPoly

/-- The loop of Python's `str.replace(old, new)` for a non-empty `old`: `skip` characters of an occurrence remain to be skipped. -/
def replaceGo (old new : Str) : Nat → Str → Str
  | _, [] => []
  | skip + 1, _ :: cs => replaceGo old new skip cs
  | 0, c :: cs => if old.isPrefixOf (c :: cs) then new ++ replaceGo old new (old.length - 1) cs else c :: replaceGo old new 0 cs

/-- Python's `str.replace(old, new)` for a non-empty `old`: leftmost, non overlapping occurrences. -/
def strReplace (s old new : Str) : Str := replaceGo old new 0 s

variable {K : Type} [Field K] [DecidableEq K]

/-- `code_str` of scalar valued polynomials (polynomials_monomial_basis.py 268-276, polynomials_unit_simplex_bernstein_basis.py 357-365,
polynomials_unit_simplex_lagrange_basis.py 463-471). -/
noncomputable def codeStr (num : K → Str) (hash : Int) (p : Obj K) (fnName : Str) : Py Str := do
  let (code, name) ← objCode num hash p
  return strReplace code name fnName

/-- `code_str` of vector valued polynomials (the same lines). -/
noncomputable def codeStrVector {n : Nat} (num : K → Str) (hash : Int) (p : Obj (Fin n → K)) (fnName : Str) : Py Str := do
  let (code, name) ← objCodeVector num hash p
  return strReplace code name fnName

/-- The lines that map the argument to the unit simplex (polynomials_simplex_bernstein_basis.py 312-317, polynomials_simplex_lagrange_basis.py 388-393). -/
def mapLines {m : Nat} (str : K → Str) (reprMatrix : Matrix (Fin m) (Fin m) K → Str) (reprVector : (Fin m → K) → Str) (phi : Simplex.Affine K m m)
    (w : Writer) : Writer :=
  if h : m = 1 then
    let i : Fin m := ⟨0, by omega⟩
    w.wl ("x = ".toList ++ str (phi.1 i i) ++ " * y + ".toList ++ str (phi.2 i))
  else
    let w := w.wl ("a = np.".toList ++ reprMatrix phi.1)
    let w := w.wl ("b = np.".toList ++ reprVector phi.2)
    w.wl "x = np.dot(a, y) + b".toList

/-- `code_str` of polynomials on a simplex (polynomials_simplex_bernstein_basis.py 301-323, polynomials_simplex_lagrange_basis.py 377-399), given
`code_str` of `_unit_simplex_polynomial` as a function of the name. -/
def simplexCode {m : Nat} (str : K → Str) (reprMatrix : Matrix (Fin m) (Fin m) K → Str) (reprVector : (Fin m → K) → Str) (phi : Simplex.Affine K m m)
    (unitCode : Str → Py Str) (fnName : Str) : Py Str := do
  let w : Writer := {}
  let w := w.wl ("def ".toList ++ fnName ++ "(y):".toList)
  let w := w.incIndent
  let w := mapLines str reprMatrix reprVector phi w
  let code ← unitCode "temp".toList
  let lines ← pySplit code "\n".toList
  let w := w.al (join "\n".toList (lines.drop 1))
  return w.decIndent.code

/-- `code_str` of scalar valued polynomials on a simplex. -/
noncomputable def simplexCodeStr {m : Nat} (num str : K → Str) (reprMatrix : Matrix (Fin m) (Fin m) K → Str) (reprVector : (Fin m → K) → Str) (hash : Int)
    (p : SObj K K m) (fnName : Str) : Py Str := simplexCode str reprMatrix reprVector p.phi (codeStr num hash p.poly) fnName

/-- `code_str` of vector valued polynomials on a simplex. -/
noncomputable def simplexCodeStrVector {m n : Nat} (num str : K → Str) (reprMatrix : Matrix (Fin m) (Fin m) K → Str) (reprVector : (Fin m → K) → Str)
    (hash : Int) (p : SObj K (Fin n → K) m) (fnName : Str) : Py Str :=
  simplexCode str reprMatrix reprVector p.phi (codeStrVector num hash p.poly) fnName

end Verif.CodeGen
