import Verif.Model.CodeGeneration
import Verif.Model.Calculus
import Verif.Model.DualBases
/-!
# Model of the LaTeX output

`generic_tools/str_utils.py`, the functions `*_latex*` and the methods `latex_str`, `latex_str_expanded` of the polynomial classes, and the LaTeX
formulas in the documentation strings of generated code (`polynomial/code_generation/*.py`).

Files: PM = polynomials_monomial_basis.py, PB = polynomials_unit_simplex_bernstein_basis.py, PL = polynomials_unit_simplex_lagrange_basis.py,
SB = polynomials_simplex_bernstein_basis.py, SL = polynomials_simplex_lagrange_basis.py, UB = polynomials_unit_simplex_bases.py.

Numbers are printed by parameters: `num` is `str_number(c, latex_fraction=True)`, `frac` is `convert_float_to_fraction(str(c))`. `strNumber` and
`convertFloatToFraction` model these functions for rational numbers. Multi-indices are lists of natural numbers (a number `nu` is `[nu]`).
-/

namespace Verif.Latex
open Verif Verif.Str Verif.CodeGen Verif.Poly

/-! ## Numbers and arrays (str_utils.py) -/

/-- `convert_float_to_fraction` (97-133); `latex` is `latex_fraction`. -/
def convertFloatToFraction (closest : Nat → ℚ → ℚ) (latex : Bool) (f : ℚ) : Str :=
  let r := limitDenominator closest 1000 f
  if r.num = 0 then "0".toList
  else if r.den = 1 then intStr r.num
  else if latex then
    if r.num < 0 then "-\\frac{".toList ++ intStr (-r.num) ++ "}{".toList ++ natStr r.den ++ "}".toList
    else "\\frac{".toList ++ intStr r.num ++ "}{".toList ++ natStr r.den ++ "}".toList
  else intStr r.num ++ " / ".toList ++ natStr r.den

/-- `str_number` (8-38) with `prettify_fractions=True`, `n=10`; `repr` is Python's `str` for a number that is not an integer. `_is_integer` (441-449) is
the test for the denominator. -/
def strNumber (repr : ℚ → Str) (closest : Nat → ℚ → ℚ) (latex : Bool) (a : ℚ) : Str :=
  if a.den = 1 then intStr a.num
  else if isNiceFraction closest a 10 then convertFloatToFraction closest latex a
  else repr a

/-- `str_number_array` (41-71), for the texts of the numbers. -/
def strNumberArray (a : List Str) (latex column : Bool) (style : Str) : Str :=
  if latex then
    let res := "\\begin{".toList ++ style ++ "}".toList
    let res := res ++ join (if column then " \\\\ ".toList else " & ".toList) a
    res ++ "\\end{".toList ++ style ++ "}".toList
  else "[".toList ++ join ", ".toList a ++ "]".toList

/-- `str_exponent` (261-300) with `str_type = "latex"`. -/
def strExponent (base exp : Str) : Str :=
  if base = "0".toList then (if exp = "0".toList then "1".toList else "0".toList)
  else if exp = "0".toList then "1".toList
  else if exp = "1".toList then base
  else if exp.length = 1 then base ++ "^".toList ++ exp
  else base ++ "^{".toList ++ exp ++ "}".toList

/-- `_latex_braces_wrapped_number` (385-388). -/
def bracesWrapped (a : Str) : Str := if a.length = 1 then a else "{".toList ++ a ++ "}".toList

/-- `str_sequence(symbol, n, index_style="latex_subscript")` (391-438); the first index is 1, with `indexing="c"` it is 0. -/
def strSequence (symbol : Str) (first n : Nat) : List Str :=
  (List.range' first n).map (fun (i : Nat) => symbol ++ "_".toList ++ bracesWrapped (natStr i))

/-- `str` of a tuple of numbers (`MultiIndex.__str__`, multiindex.py 60-67), with zero or at least two elements. -/
def tupleStr (nu : List Nat) : Str := "(".toList ++ join ", ".toList (nu.map natStr) ++ ")".toList

/-! ## Monomial basis -/

/-- The names of the variables (PM 563-566, PB 866-869). -/
def variableNames (n : Nat) : List Str :=
  if n = 1 then ["x".toList] else (List.range' 1 n).map (fun (i : Nat) => "x_".toList ++ natStr i)

/-- The loop over the components of a multi-index (PM 568-575, PB 871-878). -/
def powerParts : List Str → List Nat → List Str
  | v :: vs, k :: ks =>
    if k = 0 then powerParts vs ks
    else if k = 1 then v :: powerParts vs ks
    else (v ++ "^".toList ++ natStr k) :: powerParts vs ks
  | _, _ => []

/-- `monomial_basis_fn_latex` (PM 539-578). -/
def monomialBasisFnLatex (nu : List Nat) : Str :=
  let parts := powerParts (variableNames nu.length) nu
  if parts.length = 0 then "1".toList else join " ".toList parts

/-- `monomial_basis_fn_latex_compact` (PM 581-612). -/
def monomialBasisFnLatexCompact (nu : List Nat) : Str :=
  match nu with
  | [k] => if k = 0 then "1".toList else if k = 1 then "x".toList else "x^".toList ++ natStr k
  | nu => "x^{".toList ++ tupleStr nu ++ "}".toList

/-- `monomial_basis_latex` (PM 615-634). -/
def monomialBasisLatex (r n : Nat) : List Str := (MI.generateAll n r).map monomialBasisFnLatex

/-- `monomial_basis_latex_compact` (PM 637-656). -/
def monomialBasisLatexCompact (r n : Nat) : List Str := (MI.generateAll n r).map monomialBasisFnLatexCompact

/-! ## Bernstein basis -/

/-- The factor of the barycentric coordinate (PB 879-888). -/
def restParts (vars : List Str) (e : Int) : List Str :=
  if e ≠ 0 then
    let part := vars.foldl (fun part v => part ++ " - ".toList ++ v) "(1".toList ++ ")".toList
    if e = 1 then [part] else [part ++ "^".toList ++ intStr e]
  else []

/-- The coefficient (PB 889-892): `int(binom(r, nu[0]))` of scipy, or the multinomial coefficient. -/
def bernsteinCoefficient (nu : List Nat) (r : Nat) : Py Int :=
  match nu with
  | [k] => .ok (r.choose k : Nat)
  | nu => do
    let c ← MI.multinomGeneral r nu
    return Rat.floor c

/-- `bernstein_basis_fn_latex` (PB 840-897). -/
def bernsteinBasisFnLatex (nu : List Nat) (r : Nat) : Py Str := do
  let vars := variableNames nu.length
  let parts := powerParts vars nu ++ restParts vars ((r : Int) - MI.norm nu)
  let c ← bernsteinCoefficient nu r
  if c = 1 then return join " ".toList parts else return intStr c ++ " ".toList ++ join " ".toList parts

/-- `bernstein_basis_fn_latex_compact` (PB 900-931, letter `b`), `lagrange_basis_fn_latex_compact` (PL 838-865, letter `l`). -/
def basisFnLatexCompact (letter : Char) (nu : List Nat) (r : Nat) : Str :=
  match nu with
  | [k] => letter :: "_{".toList ++ natStr k ++ ", ".toList ++ natStr r ++ "}(x)".toList
  | nu => letter :: "_{".toList ++ tupleStr nu ++ ", ".toList ++ natStr r ++ "}(x)".toList

/-- `bernstein_basis_latex` (PB 934-953). -/
def bernsteinBasisLatex (r n : Nat) : Py (List Str) := (MI.generateAll n r).mapM (fun mi => bernsteinBasisFnLatex mi r)

/-- `bernstein_basis_latex_compact` (PB 956-975, letter `b`), `lagrange_basis_latex_compact` (PL 897-917, letter `l`). -/
def basisLatexCompact (letter : Char) (r n : Nat) : List Str := (MI.generateAll n r).map (fun mi => basisFnLatexCompact letter mi r)

/-! ## Lagrange basis -/

variable {K : Type} [Field K] [LinearOrder K]

/-- One pass of the loop in `lagrange_basis_fn_latex` (PL 809-831) with a coefficient `c ≠ 0`; `mono` is the text of the monomial. -/
def lagrangeTerm (frac : K → Str) (latex : Str) (c : K) (mono : Str) : Str :=
  if latex = [] then
    if c = 1 then latex ++ mono
    else if c = -1 then latex ++ ("-".toList ++ mono)
    else latex ++ (frac c ++ " ".toList ++ mono)
  else
    if c = 1 then latex ++ (" + ".toList ++ mono)
    else if c = -1 then latex ++ (" - ".toList ++ mono)
    else if c < 0 then latex ++ (" - ".toList ++ frac (-c) ++ " ".toList ++ mono)
    else latex ++ (" + ".toList ++ frac c ++ " ".toList ++ mono)

/-- The loop in `lagrange_basis_fn_latex` (PL 809-831) from index `i` on. -/
def lagrangeLoop (frac : K → Str) (n r : Nat) : Nat → List K → Str → Py Str
  | _, [], latex => .ok latex
  | i, c :: cs, latex =>
    if c ≠ 0 then do
      let mi ← MI.generate n r i
      lagrangeLoop frac n r (i + 1) cs (lagrangeTerm frac latex c (monomialBasisFnLatex mi))
    else lagrangeLoop frac n r (i + 1) cs latex

/-- `lagrange_basis_fn_latex` (PL 788-835). -/
noncomputable def lagrangeBasisFnLatex (frac : K → Str) (nu : List Nat) (r : Nat) : Py Str := do
  let l ← lagrangeBasisFnMonomial K nu r
  let s ← lagrangeLoop frac l.m r 0 l.coeff []
  if s = [] then return "1".toList else return s

/-- `lagrange_basis_latex` (PL 868-894). -/
noncomputable def lagrangeBasisLatex (frac : K → Str) (r n : Nat) : Py (List Str) := (MI.generateAll n r).mapM (fun mi => lagrangeBasisFnLatex frac mi r)

/-! ## Polynomials on the unit simplex -/

/-- The text of a vector valued coefficient. -/
def vectorStr {n : Nat} (num : K → Str) (c : Fin n → K) : Str :=
  strNumberArray ((List.finRange n).map (fun i => num (c i))) true true "pmatrix".toList

/-- `latex_str` of the three classes (PM 249-266, PB 308-323, PL 422-437), for the texts of the coefficients. -/
def latexStr (b : Basis) (r m : Nat) (coeffs : List Str) : Py Str :=
  match b with
  | .monomial => strDotProduct coeffs (monomialBasisLatex r m) []
  | .bernstein => strDotProduct coeffs (basisLatexCompact 'b' r m) []
  | .lagrange => strDotProduct coeffs (basisLatexCompact 'l' r m) []

/-- `str.isnumeric` for an ASCII character. -/
def isNumeric (c : Char) : Bool := c.isDigit

/-- The loop in `latex_str_expanded` (PB 337-344, 348-355) from index `i` on. -/
def expandedLoop (basis : List Str) : Nat → List Str → Str → Py Str
  | _, [], res => .ok res
  | i, c :: cs, res => do
    let b ← getE basis i
    let h ← getE b 0
    let p := if isNumeric h then strProduct c b "\\cdot".toList else strProduct c b []
    expandedLoop basis (i + 1) cs (strSum res p)

/-- `latex_str_expanded` of Bernstein polynomials (PB 325-355), for the texts of the coefficients. -/
def bernsteinExpanded (r m : Nat) (coeffs : List Str) : Py Str := do
  let basis ← bernsteinBasisLatex r m
  expandedLoop basis 0 coeffs "0".toList

/-- The loop that puts long texts in parentheses (PL 449-451, 457-459; SB 269-271, 277-279; SL 345-347, 353-355). -/
def parenthesiseLong (s : Str) : Str := if s.length > 3 then "(".toList ++ s ++ ")".toList else s

/-- `latex_str_expanded` of Lagrange polynomials (PL 439-461), for the texts of the coefficients. -/
noncomputable def lagrangeExpanded (frac : K → Str) (r m : Nat) (coeffs : List Str) : Py Str := do
  let basis ← lagrangeBasisLatex frac r m
  strDotProduct coeffs (basis.map parenthesiseLong) []

/-! ## Polynomials on a simplex -/

/-- `bernstein_basis_fn_simplex_latex` (SB 673-686), `lagrange_basis_fn_simplex_latex` (SL 700-713). -/
noncomputable def basisFnSimplexLatex {m : Nat} (num : K → Str) (b : Basis) (nu : List Nat) (r : Nat) (vertices : Simplex.Vertices K m m) : Py Str := do
  let p ← SPoly.basisFnSimplexMonomial b nu r vertices
  latexStr .monomial p.r p.m (p.coeff.map num)

/-- `bernstein_basis_simplex_latex` (SB 689-704), `lagrange_basis_simplex_latex` (SL 716-731). -/
noncomputable def basisSimplexLatex {m : Nat} (num : K → Str) (b : Basis) (r : Nat) (vertices : Simplex.Vertices K m m) : Py (List Str) :=
  (MI.generateAll m r).mapM (fun mi => basisFnSimplexLatex num b mi r vertices)

/-- `latex_str_expanded` of polynomials on a simplex (SB 258-280, SL 334-356), for the texts of the coefficients. `latex_str` (SB 240-256, SL 317-332)
is that of the unit simplex. -/
noncomputable def simplexExpanded {m : Nat} (num : K → Str) (b : Basis) (r : Nat) (vertices : Simplex.Vertices K m m) (coeffs : List Str) : Py Str := do
  let basis ← basisSimplexLatex num b r vertices
  strDotProduct coeffs (basis.map parenthesiseLong) []

/-! ## Bases by name -/

/-- `polynomial_basis_fn_latex` (UB 269-294). -/
noncomputable def polynomialBasisFnLatex (frac : K → Str) (nu : List Nat) (r : Nat) (basis : String) : Py Str := do
  match ← basisOf basis with
  | .monomial => return monomialBasisFnLatex nu
  | .lagrange => lagrangeBasisFnLatex frac nu r
  | .bernstein => bernsteinBasisFnLatex nu r

/-- `polynomial_basis_fn_latex_compact` (UB 297-324). -/
def polynomialBasisFnLatexCompact (nu : List Nat) (r : Nat) (basis : String) : Py Str := do
  match ← basisOf basis with
  | .monomial => return monomialBasisFnLatexCompact nu
  | .lagrange => return basisFnLatexCompact 'l' nu r
  | .bernstein => return basisFnLatexCompact 'b' nu r

/-- `polynomial_basis_latex` (UB 327-351). -/
noncomputable def polynomialBasisLatex (frac : K → Str) (r n : Nat) (basis : String) : Py (List Str) := do
  match ← basisOf basis with
  | .monomial => return monomialBasisLatex r n
  | .lagrange => lagrangeBasisLatex frac r n
  | .bernstein => bernsteinBasisLatex r n

/-- `polynomial_basis_latex_compact` (UB 354-378). -/
def polynomialBasisLatexCompact (r n : Nat) (basis : String) : Py (List Str) := do
  match ← basisOf basis with
  | .monomial => return monomialBasisLatexCompact r n
  | .lagrange => return basisLatexCompact 'l' r n
  | .bernstein => return basisLatexCompact 'b' r n

/-! ## Formulas in the documentation strings of generated code -/

/-- `generate_barycentric_basis_fn` (generate_barycentric_polynomial_functions_simplex.py 69-120) with `str_type = "latex"`. -/
def barycentricBasisFnDoc (nu : List Nat) (r : Nat) : Str :=
  match nu with
  | [k] =>
    let p1 := strExponent "x".toList (natStr k)
    let p2 := strExponent "(1 - x)".toList (intStr ((r : Int) - k))
    strProduct p1 p2 []
  | nu =>
    let vars := strSequence "x".toList 1 nu.length
    let p1 := strMultiProduct (List.zipWith (fun v (k : Nat) => strExponent v (natStr k)) vars nu) []
    let summands := "1".toList :: vars.map (fun v => '-' :: v)
    let base := "(".toList ++ strMultiSum summands ++ ")".toList
    let p2 := strExponent base (intStr ((r : Int) - MI.norm nu))
    strProduct p1 p2 []

/-- The basis of the formula: `generate_barycentric_basis` (generate_barycentric_polynomial_functions_simplex.py 123-136) with `str_type = "latex"`,
`monomial_basis_latex`, or `lagrange_basis_latex` in parentheses. -/
noncomputable def docBasis (frac : K → Str) (b : Basis) (m r : Nat) : Py (List Str) :=
  match b with
  | .monomial => .ok (monomialBasisLatex r m)
  | .bernstein => .ok ((MI.generateAll m r).map (fun nu => barycentricBasisFnDoc nu r))
  | .lagrange => do
    let basis ← lagrangeBasisLatex frac r m
    return basis.map (fun s => "(".toList ++ s ++ ")".toList)

/-- `_generate_monomial_polynomial_latex_str` (generate_monomial_polynomial_functions.py 261-268), `_generate_barycentric_polynomial_latex_str`
(generate_barycentric_polynomial_functions_simplex.py 208-214), `_generate_lagrange_polynomial_latex_str`
(generate_lagrange_polynomial_functions_simplex.py 213-220). -/
noncomputable def docLatexStr (frac : K → Str) (b : Basis) (m r : Nat) : Py Str := do
  let basis ← docBasis frac b m r
  let latex ← strDotProduct (strSequence "a".toList 0 (getDimension r m)) basis []
  let parts ← splitLongStr latex "+".toList 100 [] []
  let latex := join "\\\\\n&\\quad +".toList parts
  return (if b = .bernstein then "b(x) = ".toList else "p(x) = ".toList) ++ latex

end Verif.Latex
