import Verif.Model.CodeGeneration
import Verif.Model.SimplexGeometry
import Verif.Model.Piecewise
/-!
# Model of polynomials with infinite or undefined coefficients

The constructors of `Polynomial`, `PolynomialBernstein` and `PolynomialLagrange` (polynomials_monomial_basis.py 46-67,
polynomials_unit_simplex_bernstein_basis.py 61-93, polynomials_unit_simplex_lagrange_basis.py 233-255) for coefficient arrays of numpy numbers, which
can be infinite or undefined, and division of polynomials by a number that can be zero (polynomials_base.py 359-369, polynomials_simplex_base.py
177-187, piecewise_polynomial.py 805-815). The numbers are `Verif.SimplexGeometry.Num`; finite numbers are real numbers and their arithmetic is exact,
zeros have no sign.
-/

namespace Verif.NonFinite
open Verif Verif.Str Verif.Poly Verif.CodeGen Verif.SimplexGeometry Verif.SPoly Verif.PP Verif.Simplex Verif.L2G

/-! ## Numbers -/

/-- The sum of two numpy numbers. -/
def add : Num → Num → Num
  | .nan, _ => .nan
  | _, .nan => .nan
  | .inf s, .inf t => if s = t then .inf s else .nan
  | .inf s, .fin _ => .inf s
  | .fin _, .inf t => .inf t
  | .fin x, .fin y => .fin (x + y)

/-- The product of a finite number and a numpy number. -/
noncomputable def scale (c : ℝ) : Num → Num
  | .fin x => .fin (c * x)
  | .inf s => open Classical in if c = 0 then .nan else .inf (s != decide (c < 0))
  | .nan => .nan

/-- `int(a)`: the integer part; OverflowError for an infinite and ValueError for an undefined number. -/
noncomputable def toInt : Num → Py ℤ
  | .fin x => .ok (if 0 ≤ x then ⌊x⌋ else ⌈x⌉)
  | .inf _ => .error .overflow
  | .nan => .error .value

/-- `str_number` (str_utils.py 8-38) with `prettify_fractions=False`, as called for the coefficients of a polynomial; `_is_integer` (441-449)
compares the number with `int(a)`. `str` is Python's `str`. -/
noncomputable def strNumberNum (str : Num → Str) (a : Num) : Py Str := open Classical in do
  let k ← toInt a
  if a = .fin k then return intStr k else return str a

/-! ## The constructors of the polynomial classes -/

/-- The array `_a` of `PolynomialBernstein.__init__` (polynomials_unit_simplex_bernstein_basis.py 77-86) for numpy numbers. -/
noncomputable def bernsteinANum (p : Obj Num) : Py (List Num) :=
  if p.m = 1 then
    fillLoop (fun i => do
      let c ← getE p.coeff i
      return scale ((p.r.choose i : Nat) : ℝ) c) (List.range (p.r + 1)) 0 (List.replicate p.coeff.length (.fin 0))
  else
    fillLoop (fun (e : List Nat × Nat) => do
      let c ← getE p.coeff e.2
      let b ← MI.multinomGeneral p.r e.1
      return scale (b : ℝ) c) (MI.generateAll p.m p.r).zipIdx 0 (List.replicate p.coeff.length (.fin 0))

/-- `np.dot(l, a)` (generate_lagrange_polynomial_functions_simplex.py 172) for the matrix `l` given by its columns and numpy numbers `a`. -/
noncomputable def dotColumnsNum (dim : Nat) (cols : List (List ℝ)) (a : List Num) : List Num :=
  (cols.zip a).foldl (fun acc e => List.zipWith (fun v t => add v (scale t e.2)) acc e.1) (List.replicate dim (.fin 0))

/-- The numbers that are printed in the code for a polynomial object (compare `CodeGen.genCoeffs`). -/
noncomputable def genCoeffsNum (p : Obj Num) : Py (List Num) :=
  match p.basis with
  | .monomial => .ok p.coeff
  | .bernstein => bernsteinANum p
  | .lagrange => do
    let cols ← getLagrangeBaseColumns ℝ p.r p.m
    return dotColumnsNum (getDimension p.r p.m) cols p.coeff

/-- `generate_function_eval_specific_scalar_valued` of the three bases for the texts of the coefficients (the Lagrange generator calls the one for
the monomial basis). -/
def evalOf (b : Basis) (m r : Nat) (coeffs : List Str) : Py Str :=
  match b with
  | .monomial => monomialEval m r coeffs
  | .bernstein => barycentricEval m r coeffs
  | .lagrange => monomialEval m r coeffs

/-- The expression generated for a scalar valued polynomial object. -/
noncomputable def evalTextNum (str : Num → Str) (p : Obj Num) : Py Str := do
  let a ← genCoeffsNum p
  let texts ← a.mapM (strNumberNum str)
  evalOf p.basis p.m p.r texts

/-- `__init__` of the three classes for scalar valued polynomials: the attributes and the generated code. -/
noncomputable def newNum (str : Num → Str) (hash : Int) (basis : Basis) (coeff : List Num) (r : Option Nat) (m : Nat) : Py (Obj Num × Str × Str) := do
  let p ← Obj.new basis coeff r m
  let text ← evalTextNum str p
  let body ← scalarBody text
  let code ← functionSpecific (kindOf basis) m p.r hash body
  return (p, code)

/-- The i:th component of a vector valued object, `a[:, i]`. -/
def componentNum {n : Nat} (p : Obj (Fin n → Num)) (i : Fin n) : Obj Num := ⟨p.basis, p.coeff.map (fun v => v i), p.r, p.m⟩

/-- The expression generated for a vector valued polynomial object: the generator for each component, in their order
(`generate_function_eval_specific_vector_valued` in the three files). `PolynomialBernstein.__init__` multiplies whole vectors by the multinomial
coefficients before this; that is the same and raises nothing. -/
noncomputable def evalTextVectorNum {n : Nat} (str : Num → Str) (p : Obj (Fin n → Num)) : Py Str := do
  let parts ← (List.finRange n).mapM (fun i => evalTextNum str (componentNum p i))
  match parts with
  | [] => .error .index
  | q :: qs => return "np.array([".toList ++ q ++ (qs.map (fun q => ", ".toList ++ q)).flatten ++ "])".toList

/-- `__init__` of the three classes for vector valued polynomials. -/
noncomputable def newVectorNum {n : Nat} (str : Num → Str) (hash : Int) (basis : Basis) (coeff : List (Fin n → Num)) (r : Option Nat) (m : Nat) :
    Py (Obj (Fin n → Num) × Str × Str) := do
  let p ← Obj.new basis coeff r m
  let text ← evalTextVectorNum str p
  let body ← vectorBody text
  let code ← functionSpecific (kindOf basis) m p.r hash body
  return (p, code)

/-- `__init__` of the classes for polynomials on a simplex (polynomials_simplex_base.py 79-96, polynomials_simplex_bernstein_basis.py 62-79,
polynomials_simplex_lagrange_basis.py 122-140): the polynomial on the unit simplex is constructed, then the map to the unit simplex. -/
noncomputable def newSimplexNum {m : Nat} (str : Num → Str) (hash : Int) (basis : Basis) (coeff : List Num) (vertices : Vertices ℝ m m)
    (r : Option Nat) : Py (Obj Num) := do
  let p ← newNum str hash basis coeff r m
  let _ ← affineToUnit vertices
  return p.1

/-! ## Division -/

/-- `__truediv__` (polynomials_base.py 359-369) for a scalar valued polynomial, also for the divisor zero. -/
noncomputable def divNum (str : Num → Str) (hash : Int) (p : Obj ℝ) (s : ℝ) : Py (Obj Num × Str × Str) :=
  newNum str hash p.basis (p.coeff.map (fun c => Num.quot c s)) (some p.r) p.m

/-- `__truediv__` for a vector valued polynomial. -/
noncomputable def divVectorNum {n : Nat} (str : Num → Str) (hash : Int) (p : Obj (Fin n → ℝ)) (s : ℝ) : Py (Obj (Fin n → Num) × Str × Str) :=
  newVectorNum str hash p.basis (p.coeff.map (fun c i => Num.quot (c i) s)) (some p.r) p.m

/-- `__truediv__` of a polynomial on a simplex (polynomials_simplex_base.py 177-187). -/
noncomputable def divSimplexNum {m : Nat} (str : Num → Str) (hash : Int) (p : SObj ℝ ℝ m) (s : ℝ) : Py (Obj Num) :=
  newSimplexNum str hash p.poly.basis (p.poly.coeff.map (fun c => Num.quot c s)) p.vertices (some p.poly.r)

/-- The loop of `evaluate_on_simplex` (piecewise_polynomial.py 669-676) for the polynomial `p` with the coefficients replaced by `coeff`. -/
noncomputable def evalLoopNum {m : Nat} {V Tr : Type} (p : PObj ℝ V m Tr) (coeff : List Num) (j : Nat) (x : Fin m → ℝ) :
    List (List Nat) → Nat → Num → Py Num
  | [], _, value => .ok value
  | nu :: l, k, value => do
    let i ← p.tau j nu
    if i = -1 then evalLoopNum p coeff j x l (k + 1) value
    else
      let c ← pyGet coeff i
      let b ← keyE (dget? p.polys j)
      let q ← getE b k
      let y ← q.call x
      evalLoopNum p coeff j x l (k + 1) (add value (scale y c))

/-- `(p / s).evaluate_on_simplex(j, x)` (piecewise_polynomial.py 805-815 and 646-678): the constructor keeps the array of quotients and the support. -/
noncomputable def evalQuotient {m : Nat} {Tr : Type} (p : PObj ℝ ℝ m Tr) (s : ℝ) (j : Nat) (x : Fin m → ℝ) : Py Num :=
  if j ∉ p.support then .ok (.fin 0)
  else evalLoopNum p (p.coeff.map (fun c => Num.quot c s)) j x (MI.generateAll m p.r) 0 (.fin 0)

end Verif.NonFinite
