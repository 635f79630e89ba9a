import Verif.Model.StrUtils
import Verif.Model.PolynomialLagrange
import Mathlib.Data.Rat.Defs
/-!
# Model of the generation of code for the evaluation of polynomials

`generic_tools/str_utils.py` and `polynomial/code_generation/*.py`. Python strings are lists of characters. Only the string type "python" is
modelled, not the LaTeX strings (which only occur in documentation strings of generated code).

Numbers are printed by a parameter `num` of the generators: the text of `str_number(c, prettify_fractions=...)` for a coefficient `c`.
`strNumber` models `str_number` itself for rational numbers.
-/

namespace Verif.CodeGen
open Verif Verif.Str Verif.Poly

/-! ## Numbers -/

/-- `str(n)` for a natural number. -/
def natStr (n : Nat) : Str := Nat.toDigits 10 n

/-- `str(n)` for an integer. -/
def intStr : Int → Str
  | .ofNat n => natStr n
  | .negSucc n => '-' :: natStr (n + 1)

/-- `Fraction.limit_denominator(n)`: a fraction with a denominator of at most `n` is returned unchanged; for the others, the closest such fraction
is given by the parameter `closest`. -/
def limitDenominator (closest : Nat → ℚ → ℚ) (n : Nat) (a : ℚ) : ℚ := if a.den ≤ n then a else closest n a

/-- `is_nice_fraction` (str_utils.py 74-94). -/
def isNiceFraction (closest : Nat → ℚ → ℚ) (f : ℚ) (n : Nat) : Bool :=
  let d := limitDenominator closest n f - f
  decide ((if d < 0 then -d else d) < 1 / 10000000000)

/-- `convert_float_to_fraction` (str_utils.py 97-133), without LaTeX. -/
def convertFloatToFraction (closest : Nat → ℚ → ℚ) (f : ℚ) : Str :=
  let r := limitDenominator closest 1000 f
  if r.num = 0 then "0".toList
  else if r.den = 1 then intStr r.num
  else intStr r.num ++ " / ".toList ++ natStr r.den

/-- `str_number` (str_utils.py 8-38), without LaTeX; `repr` is Python's `str` for a number that is not an integer. -/
def strNumber (repr : ℚ → Str) (closest : Nat → ℚ → ℚ) (prettify : Bool) (a : ℚ) : Str :=
  if a.den = 1 then intStr a.num
  else if prettify && isNiceFraction closest a 10 then convertFloatToFraction closest a
  else repr a

/-! ## Sums and products -/

/-- `str_sum` (str_utils.py 136-165). -/
def strSum (a b : Str) : Str :=
  if a = "0".toList then b
  else if b = "0".toList then a
  else if b.head? = some '-' then a ++ " - ".toList ++ b.drop 1
  else a ++ " + ".toList ++ b

/-- `str_multi_sum` (str_utils.py 168-190). -/
def strMultiSum (l : List Str) : Str := l.foldl strSum "0".toList

/-- The recursion of `str_product` (str_utils.py 215-232); every call drops at least one character, so that the number of characters bounds the depth. -/
def strProductGo (mult : Str) : Nat → Str → Str → Str
  | n, a, b =>
    if a = "0".toList ∨ b = "0".toList then "0".toList
    else if a = "1".toList then b
    else if b = "1".toList then a
    else
      match n with
      | n + 1 =>
        if a.head? = some '-' then
          if b.head? = some '-' then strProductGo mult n (a.drop 1) (b.drop 1) else '-' :: strProductGo mult n (a.drop 1) b
        else
          if b.head? = some '-' then '-' :: strProductGo mult n a (b.drop 1)
          else if mult ≠ [] then a ++ " ".toList ++ mult ++ " ".toList ++ b else a ++ " ".toList ++ b
      | 0 => []

/-- `str_product` (str_utils.py 193-232). -/
def strProduct (a b mult : Str) : Str := strProductGo mult (a.length + b.length + 1) a b

/-- `str_multi_product` (str_utils.py 235-258). -/
def strMultiProduct (l : List Str) (mult : Str) : Str := l.foldl (fun res v => strProduct res v mult) "1".toList

/-- `str_exponent` (str_utils.py 261-300) with `str_type = "python"`. -/
def strExponent (base exp : Str) : Str :=
  if base = "0".toList then (if exp = "0".toList then "1".toList else "0".toList)
  else if exp = "0".toList then "1".toList
  else if exp = "1".toList then base
  else base ++ "**".toList ++ exp

/-- `str_dot_product` (str_utils.py 303-330) for lists. -/
def strDotProduct (a b : List Str) (mult : Str) : Py Str := do
  pyAssert (decide (a.length = b.length))
  return (a.zip b).foldl (fun res e => strSum res (strProduct e.1 e.2 mult)) "0".toList

/-- `str_sequence(symbol, n, indexing="c", index_style="list")` (str_utils.py 391-438). -/
def strSequence (symbol : Str) (n : Nat) : List Str := (List.range n).map (fun (i : Nat) => symbol ++ "[".toList ++ natStr i ++ "]".toList)

/-! ## Monomial polynomials (generate_monomial_polynomial_functions.py) -/

/-- `_monomials_basis_fns_code_cache[0]` (71-77). -/
def monomialCache1 : List (List Nat × Str) := [
  ([0], "1".toList), ([1], "x".toList), ([2], "x**2".toList), ([3], "x**3".toList), ([4], "x**4".toList)]

/-- `_monomials_basis_fns_code_cache[1]` (78-94). -/
def monomialCache2 : List (List Nat × Str) := [
  ([0, 0], "1".toList), ([1, 0], "x[0]".toList), ([2, 0], "x[0]**2".toList), ([3, 0], "x[0]**3".toList), ([4, 0], "x[0]**4".toList),
  ([0, 1], "x[1]".toList), ([1, 1], "x[0] * x[1]".toList), ([2, 1], "x[0]**2 * x[1]".toList), ([3, 1], "x[0]**3 * x[1]".toList),
  ([0, 2], "x[1]**2".toList), ([1, 2], "x[0] * x[1]**2".toList), ([2, 2], "x[0]**2 * x[1]**2".toList),
  ([0, 3], "x[1]**3".toList), ([1, 3], "x[0] * x[1]**3".toList), ([0, 4], "x[1]**4".toList)]

/-- `_monomials_basis_fns_code_cache[2]` (95-131). -/
def monomialCache3 : List (List Nat × Str) := [
  ([0, 0, 0], "1".toList), ([1, 0, 0], "x[0]".toList), ([2, 0, 0], "x[0]**2".toList), ([3, 0, 0], "x[0]**3".toList), ([4, 0, 0], "x[0]**4".toList),
  ([0, 1, 0], "x[1]".toList), ([1, 1, 0], "x[0] * x[1]".toList), ([2, 1, 0], "x[0]**2 * x[1]".toList), ([3, 1, 0], "x[0]**3 * x[1]".toList),
  ([0, 2, 0], "x[1]**2".toList), ([1, 2, 0], "x[0] * x[1]**2".toList), ([2, 2, 0], "x[0]**2 * x[1]**2".toList),
  ([0, 3, 0], "x[1]**3".toList), ([1, 3, 0], "x[0] * x[1]**3".toList), ([0, 4, 0], "x[1]**4".toList),
  ([0, 0, 1], "x[2]".toList), ([1, 0, 1], "x[0] * x[2]".toList), ([2, 0, 1], "x[0]**2 * x[2]".toList), ([3, 0, 1], "x[0]**3 * x[2]".toList),
  ([0, 1, 1], "x[1] * x[2]".toList), ([1, 1, 1], "x[0] * x[1] * x[2]".toList), ([2, 1, 1], "x[0]**2 * x[1] * x[2]".toList),
  ([0, 2, 1], "x[1]**2 * x[2]".toList), ([1, 2, 1], "x[0] * x[1]**2 * x[2]".toList), ([0, 3, 1], "x[1]**3 * x[2]".toList),
  ([0, 0, 2], "x[2]**2".toList), ([1, 0, 2], "x[0] * x[2]**2".toList), ([2, 0, 2], "x[0]**2 * x[2]**2".toList),
  ([0, 1, 2], "x[1] * x[2]**2".toList), ([1, 1, 2], "x[0] * x[1] * x[2]**2".toList), ([0, 2, 2], "x[1]**2 * x[2]**2".toList),
  ([0, 0, 3], "x[2]**3".toList), ([1, 0, 3], "x[0] * x[2]**3".toList), ([0, 1, 3], "x[1] * x[2]**3".toList), ([0, 0, 4], "x[2]**4".toList)]

/-- `generate_monomial_basis_fn` (135-172) for a multi-index. The cache for `m = 0` is the entry with index -1 (the last one). -/
def monomialBasisFnText (nu : List Nat) : Str :=
  match nu with
  | [k] =>
    match monomialCache1.lookup [k] with
    | some s => s
    | none => strExponent "x".toList (natStr k)
  | nu =>
    let cached := if nu.length = 2 then monomialCache2.lookup nu else if nu.length ≤ 3 then monomialCache3.lookup nu else none
    match cached with
    | some s => s
    | none => strMultiProduct (List.zipWith (fun v (k : Nat) => strExponent v (natStr k)) (strSequence "x".toList nu.length) nu) "*".toList

/-- `generate_monomial_basis` (175-187). -/
def monomialBasisText (m r : Nat) : List Str := (MI.generateAll m r).map monomialBasisFnText

/-- `_horner_evaluation_recursive` (271-284) for the list with the given head and tail. -/
def hornerRec : Str → List Str → Str
  | a, [] => strProduct "x".toList a "*".toList
  | a, b :: l =>
    let nested := strSum a (hornerRec b l)
    if nested ≠ "0".toList then
      if nested = "1".toList then "x".toList
      else if '+' ∈ nested ∨ '-' ∈ nested then strProduct "x".toList ("(".toList ++ nested ++ ")".toList) "*".toList
      else strProduct "x".toList nested "*".toList
    else "0".toList

/-- `_horner_evaluation` (287-291); `a[0]` of an empty list is an IndexError. -/
def horner : List Str → Py Str
  | [] => .error .index
  | [a] => .ok a
  | a :: b :: l => .ok (strSum a (hornerRec b l))

/-- `generate_function_eval_specific_scalar_valued` (190-223), given the texts of the coefficients (219-222). -/
def monomialEval (m r : Nat) (coeffs : List Str) : Py Str :=
  if coeffs = [] then .error .index
  else if m = 1 then horner coeffs
  else strDotProduct coeffs (monomialBasisText m r) "*".toList

/-! ## Barycentric polynomials (generate_barycentric_polynomial_functions_simplex.py) -/

/-- `generate_barycentric_basis_fn` (69-120) for a multi-index, with `str_type = "python"`. -/
def barycentricBasisFnText (nu : List Nat) (r : Nat) : Str :=
  match nu with
  | [k] =>
    let p1 := strExponent "x".toList (natStr k)
    let p2 := strExponent "(1 - x)".toList (intStr ((r : Int) - k))
    strProduct p1 p2 "*".toList
  | nu =>
    let vars := strSequence "x".toList nu.length
    let p1 := strMultiProduct (List.zipWith (fun v (k : Nat) => strExponent v (natStr k)) vars nu) "*".toList
    let summands := "1".toList :: vars.map (fun v => '-' :: v)
    let base := "(".toList ++ strMultiSum summands ++ ")".toList
    let p2 := strExponent base (intStr ((r : Int) - MI.norm nu))
    strProduct p1 p2 "*".toList

/-- `generate_barycentric_basis` (123-136). -/
def barycentricBasisText (m r : Nat) : List Str := (MI.generateAll m r).map (fun nu => barycentricBasisFnText nu r)

/-- `generate_function_eval_specific_scalar_valued` (139-170), given the texts of the coefficients. -/
def barycentricEval (m r : Nat) (coeffs : List Str) : Py Str :=
  if coeffs = [] then .error .index else strDotProduct coeffs (barycentricBasisText m r) "*".toList

/-! ## Lagrange polynomials (generate_lagrange_polynomial_functions_simplex.py) -/

variable {K : Type} [Field K] [DecidableEq K]

/-- `generate_lagrange_basis_fn` (72-101) for a multi-index; `num` is `str_number`. -/
noncomputable def lagrangeBasisFnText (num : K → Str) (nu : List Nat) (r : Nat) : Py Str := do
  let c ← getLagrangeBasisFnCoefficients K nu r
  strDotProduct (c.map num) (monomialBasisText nu.length r) "*".toList

/-- `generate_lagrange_basis` (104-116). -/
noncomputable def lagrangeBasisText (num : K → Str) (m r : Nat) : Py (List Str) :=
  (MI.generateAll m r).mapM (fun nu => lagrangeBasisFnText num nu r)

/-- The loop in lines 138-140: a text with a plus or minus sign is put in parentheses. -/
def parenthesise (s : Str) : Str := if '+' ∈ s ∨ '-' ∈ s then "(".toList ++ s ++ ")".toList else s

/-- `generate_function_eval_general_scalar_valued` (119-141). -/
noncomputable def lagrangeEvalGeneral (num : K → Str) (m r : Nat) : Py Str := do
  let basis ← lagrangeBasisText num m r
  strDotProduct (strSequence "a".toList (getDimension r m)) (basis.map parenthesise) "*".toList

/-- `generate_function_eval_specific_scalar_valued` (144-175); `num` is `str_number` without fractions. -/
noncomputable def lagrangeEval (num : K → Str) (m r : Nat) (a : List K) : Py Str := do
  let cols ← getLagrangeBaseColumns K r m
  let al := dotColumns (K := K) (getDimension r m) cols a
  monomialEval m r (al.map num)

/-! ## Function bodies, the same in the three files (monomial 226-258, 294-320; barycentric 173-205, 217-243; Lagrange 178-210, 223-260) -/

/-- `generate_function_eval_specific_vector_valued`: the scalar generator for each component; `a[:, 0]` raises IndexError for vectors of length 0. -/
def vectorEval {n : Nat} (scalar : List K → Py Str) (a : List (Fin n → K)) : Py Str := do
  let parts ← (List.finRange n).mapM (fun i => scalar (a.map (fun v => v i)))
  match parts with
  | [] => .error .index
  | p :: ps => return "np.array([".toList ++ p ++ (ps.map (fun q => ", ".toList ++ q)).flatten ++ "])".toList

/-- `sep.join(parts)`. -/
def join (sep : Str) : List Str → Str
  | [] => []
  | [p] => p
  | p :: ps => p ++ sep ++ join sep ps

/-- The lines after `split_long_str` in `_generate_function_body_scalar_valued` (monomial 304-312, Lagrange 223-231). -/
def wrapScalarLines (code : Str) : Py Str := do
  let parts ← splitLongStr code " +".toList 100 [] []
  let multiLine := decide (parts.length > 1)
  let code := join "\n        +".toList parts
  if multiLine then return "return (".toList ++ code ++ ")".toList else return "return ".toList ++ code

/-- `_generate_function_body_scalar_valued` (monomial 302-312), for the text of the expression. -/
def scalarBody (code : Str) : Py Str := if code.length > 100 then wrapScalarLines code else return "return ".toList ++ code

/-- `_generate_function_body_vector_valued` (monomial 315-320), for the text of the expression. -/
def vectorBody (code : Str) : Py Str :=
  if code.length > 100 then do
    let parts ← splitLongStr code ", ".toList 100 [] []
    return "return ".toList ++ join ",\n                 ".toList parts
  else return "return ".toList ++ code

/-- `generate_function_specific_name` (generate_polynomial_functions.py 8-24); `hash` is the hash of the coefficients. -/
def specificName (hash : Int) : Str := intStr (if hash < 0 then hash * -1 else hash)

/-- `generate_function_specific` (monomial 41-67, barycentric 40-66, Lagrange 43-69): the code and the name; `kind` is "monomial", "barycentric" or
"lagrange", `body` the text of the body. -/
def functionSpecific (kind : Str) (m r : Nat) (hash : Int) (body : Str) : Py (Str × Str) := do
  let w : Writer := {}
  let name := "eval_".toList ++ kind ++ "_polynomial_".toList ++ natStr m ++ natStr r ++ "_".toList ++ specificName hash
  let w := w.wl ("def ".toList ++ name ++ "(x):".toList)
  let w := w.incIndent
  let w ← w.wc body
  let w := w.decIndent
  return (w.code, name)

/-- `generate_function_general` (monomial 15-38, barycentric 15-37, Lagrange 17-40): the code; `doc` is the documentation string. -/
def functionGeneral (kind : Str) (m r : Nat) (doc body : Str) : Py Str := do
  let w : Writer := {}
  let w := w.wl ("def ".toList ++ kind ++ "_polynomial_".toList ++ natStr m ++ natStr r ++ "(a, x):".toList)
  let w := w.incIndent
  let w ← w.wc doc
  let w ← w.wc body
  let w := w.decIndent
  return w.code

/-- The numbers that are printed in the code for a polynomial object: its coefficients, the coefficients times multinomial coefficients
(polynomials_unit_simplex_bernstein_basis.py 77-86), or the coefficients in the monomial basis
(generate_lagrange_polynomial_functions_simplex.py 170-172). -/
noncomputable def genCoeffs {V : Type} [AddCommGroup V] [Module K V] (p : Obj V) : Py (List V) :=
  match p.basis with
  | .monomial => .ok p.coeff
  | .bernstein => bernsteinA K p
  | .lagrange => do
    let cols ← getLagrangeBaseColumns K p.r p.m
    return dotColumns (K := K) (getDimension p.r p.m) cols p.coeff

/-- The expression for a polynomial object, as generated in `__init__` of the three classes (polynomials_monomial_basis.py 63,
polynomials_unit_simplex_bernstein_basis.py 86-89, polynomials_unit_simplex_lagrange_basis.py 251) for scalar valued polynomials. -/
noncomputable def evalText (num : K → Str) (p : Obj K) : Py Str :=
  match p.basis with
  | .monomial => monomialEval p.m p.r (p.coeff.map num)
  | .bernstein => do
    let a ← bernsteinA K p
    barycentricEval p.m p.r (a.map num)
  | .lagrange => lagrangeEval num p.m p.r p.coeff

/-- The expression for a vector valued polynomial object. -/
noncomputable def evalTextVector {n : Nat} (num : K → Str) (p : Obj (Fin n → K)) : Py Str :=
  match p.basis with
  | .monomial => vectorEval (fun (a : List K) => monomialEval p.m p.r (a.map num)) p.coeff
  | .bernstein => do
    let a ← bernsteinA K p
    vectorEval (fun (a : List K) => barycentricEval p.m p.r (a.map num)) a
  | .lagrange => vectorEval (lagrangeEval num p.m p.r) p.coeff

/-- The name of the basis in the name of the generated function. -/
def kindOf : Basis → Str
  | .monomial => "monomial".toList
  | .bernstein => "barycentric".toList
  | .lagrange => "lagrange".toList

/-- The code generated in `__init__` for a scalar valued polynomial. -/
noncomputable def objCode (num : K → Str) (hash : Int) (p : Obj K) : Py (Str × Str) := do
  let code ← evalText num p
  let body ← scalarBody code
  functionSpecific (kindOf p.basis) p.m p.r hash body

/-- The code generated in `__init__` for a vector valued polynomial. -/
noncomputable def objCodeVector {n : Nat} (num : K → Str) (hash : Int) (p : Obj (Fin n → K)) : Py (Str × Str) := do
  let code ← evalTextVector num p
  let body ← vectorBody code
  functionSpecific (kindOf p.basis) p.m p.r hash body

end Verif.CodeGen
