import Verif.Model.CodeStr
import Verif.Model.Latex
/-!
# Model of the documentation strings of generated functions

`polynomial/code_generation/generate_polynomial_functions.py` (GP below) and the functions `generate_function_general` of the three bases. The formulas
are modelled in `Verif.Model.Latex`, the expressions in `Verif.Model.CodeGeneration`. `<...>` are the placeholders of the code.
-/

namespace Verif.DocString
open Verif Verif.Str Verif.CodeGen Verif.Poly Verif.Latex

/-- `_template_docstring_univariate` (GP 59-67). -/
def templateUnivariate : Str :=
  "r\"\"\"\nEvaluate a univariate degree ".toList ++ "<R>".toList ++ " ".toList ++ "<BASE>".toList ++ " polynomial".toList ++ "<DOMAIN>".toList ++
  ".\n\n.. math::".toList ++ "<LATEX_STR>".toList ++ ".\n\n:param a: Coefficient in front of each ".toList ++ "<BASE>".toList ++
  " base polynomial, :math:`\\text{a}[i] = a_i`.\n:param x: Point where the polynomial should be evaluated.\n:return: Value of the polynomial.\n\"\"\"".toList

/-- `_template_docstring_multivariate` (GP 70-80). -/
def templateMultivariate : Str :=
  "r\"\"\"\nEvaluate a ".toList ++ "<MULTIVARIATE>".toList ++ " degree ".toList ++ "<R>".toList ++ " ".toList ++ "<BASE>".toList ++ " polynomial".toList ++
  "<DOMAIN>".toList ++ ".\n\n.. math::".toList ++ "<LATEX_STR>".toList ++ ".\n\n:param a: Coefficient in front of each ".toList ++ "<BASE>".toList ++
  " base polynomial, :math:`\\text{a}[i] = a_{\\nu_i}`, where\n    :math:`\\nu_i` is the i:th multi-index in the sequence of all multi-indices of dimension ".toList ++
  "<DIM>".toList ++
  " with norm\n    :math:`\\leq r` (see :func:`polynomials_on_simplices.algebra.multiindex.generate` function).\n:param x: Point where the polynomial should be evaluated.\n:return: Value of the polynomial.\n\"\"\"".toList

/-- `_domain` (GP 83-88). -/
def domainName (m : Nat) : Str :=
  if m = 1 then "unit interval".toList else if m = 2 then "unit triangle".toList else if m = 3 then "unit tetrahedron".toList else "unit simplex".toList

/-- `_multivariate` (GP 91-95). -/
def multivariateName (m : Nat) : Str := if m = 2 then "bivariate".toList else if m = 3 then "trivariate".toList else "multivariate".toList

/-- The text that replaces the placeholder of the formula (GP 51-55). -/
def formulaText (latex : Str) : Py Str :=
  if '\n' ∉ latex then .ok (" ".toList ++ latex)
  else do
    let lines ← pySplit latex "\n".toList
    return "\n\n    ".toList ++ join "\n    ".toList lines

/-- The template with the placeholders that only the multivariate one has replaced (GP 39-44). -/
def chooseTemplate (m : Nat) : Str :=
  if m = 1 then templateUnivariate
  else strReplace (strReplace templateMultivariate "<MULTIVARIATE>".toList (multivariateName m)) "<DIM>".toList (natStr m)

/-- `generate_docstring` (GP 27-56). -/
def generateDocstring (m r : Nat) (basis latex : Str) : Py Str := do
  let d := chooseTemplate m
  let d := strReplace d "<R>".toList (natStr r)
  let d := strReplace d "<BASE>".toList basis
  let d := if basis = "monomial".toList then strReplace d "<DOMAIN>".toList [] else strReplace d "<DOMAIN>".toList (" on the ".toList ++ domainName m)
  let f ← formulaText latex
  return strReplace d "<LATEX_STR>".toList f

variable {K : Type} [Field K] [LinearOrder K]

/-- The name of the basis in the documentation (generate_monomial_polynomial_functions.py 34, generate_barycentric_polynomial_functions_simplex.py 33,
generate_lagrange_polynomial_functions_simplex.py 37). -/
def docName : Basis → Str
  | .monomial => "monomial".toList
  | .bernstein => "barycentric".toList
  | .lagrange => "Lagrange".toList

/-- The body of the general function (monomial 35-36, barycentric 34-35, Lagrange 38 and 223-231). -/
noncomputable def generalBody (num : K → Str) (b : Basis) (m r : Nat) : Py Str :=
  match b with
  | .monomial => do
    let code ← monomialEval m r (CodeGen.strSequence "a".toList (getDimension r m))
    scalarBody code
  | .bernstein => do
    let code ← barycentricEval m r (CodeGen.strSequence "a".toList (getDimension r m))
    scalarBody code
  | .lagrange => do
    let code ← lagrangeEvalGeneral num m r
    wrapScalarLines code

/-- `generate_function_general` (monomial 15-38, barycentric 15-37, Lagrange 17-40); `num` is `str_number` and `frac` is `convert_float_to_fraction`. -/
noncomputable def generateFunctionGeneral (num frac : K → Str) (b : Basis) (m r : Nat) : Py Str := do
  let latex ← docLatexStr frac b m r
  let doc ← generateDocstring m r (docName b) latex
  let body ← generalBody num b m r
  functionGeneral (kindOf b) m r doc body

end Verif.DocString
