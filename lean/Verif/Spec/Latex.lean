import Verif.Spec.PyExpr
import Verif.Spec.PolynomialObjects
/-!
# Specification: the meaning of a LaTeX formula given as text

The fragment of LaTeX mathematics that occurs in the output of the package: numbers, variables with or without a subscript, powers, `\frac`, `\cdot`,
`+ - /`, parentheses, values `b_{..}(x)`, `l_{..}(x)` of basis functions, and column vectors.

A formula is read in the following steps.

* `tex`: control words and characters. TeX ignores spaces in formulas, so that `2 3` is the number 23.
* `lex`: symbols. A subscript or superscript is the next character, or a group in braces (the basic rule of TeX), so that `x^10` is `x^1` followed by 0.
* `entry`: of a column vector, one of the entries is selected.
* `times`: adjacent operands are multiplied.
* The resulting tokens are read by the grammar for arithmetic expressions of `Verif.PyExpr` (signs, sums, products and quotients from left to right,
  powers with natural numbers as exponents). `a / b c` is read as `(a / b) c`.
-/

namespace Verif.Latex
open Verif Verif.Str Verif.PyExpr

/-! ## Characters and control words -/

/-- A character or a control word (or control symbol). -/
inductive Tx where
  | chr (c : Char)
  | cmd (w : Str)
  deriving DecidableEq

/-- Spaces and line breaks are ignored. -/
def isBlank (c : Char) : Bool := c = ' ' || c = '\n'

/-- A character outside of control words. -/
def texStart (o : List Tx) (c : Char) : List Tx × Option Str :=
  if c = '\\' then (o, some []) else if isBlank c then (o, none) else (o ++ [.chr c], none)

/-- Reads one character; the second component of the state is the control word that is being read. A backslash is followed by letters (a control word)
or by one other character (a control symbol). -/
def texStep : List Tx × Option Str → Char → List Tx × Option Str
  | (o, none), c => texStart o c
  | (o, some w), c => if c.isAlpha then (o, some (w ++ [c])) else if w = [] then (o ++ [.cmd [c]], none) else texStart (o ++ [.cmd w]) c

/-- The characters and control words of a text. -/
def tex (s : Str) : List Tx :=
  match s.foldl texStep ([], none) with
  | (o, none) => o
  | (o, some w) => o ++ [.cmd w]

/-! ## Symbols -/

/-- Symbols: tokens of arithmetic expressions, and the parts of matrices. -/
inductive Sym where
  | tok (t : Tok)
  /-- `\begin{..}` -/
  | opens (env : Str)
  /-- `\\` or `&`: the next entry in a matrix with one column or one row, ignored outside of matrices (where they align the lines of a formula) -/
  | next
  /-- `\end{..}` -/
  | closes (env : Str)
  /-- `\quad` -/
  | space
  deriving DecidableEq

/-- The letters `b` and `l` are the names of basis functions, and are followed by a subscript and the argument `(x)`. All other letters are variables. -/
def isFn (c : Char) : Bool := c = 'b' || c = 'l'

/-- The symbol that is being read. -/
inductive Pend where
  /-- complete symbols -/
  | done (ts : List Sym)
  /-- the digits of a number -/
  | num (n : Nat)
  /-- the digits `n`, the last `k` of them after the decimal point -/
  | dec (n k : Nat)
  /-- a letter -/
  | letter (c : Char)
  /-- a letter and `_` -/
  | sub (c : Char)
  /-- a letter and `_{` and the text of the subscript -/
  | subG (c : Char) (s : Str)
  /-- a function and its subscript, and the first `k` characters of `(x)` -/
  | fn (c : Char) (s : Str) (k : Nat)
  /-- `^` -/
  | sup
  /-- `^{` and digits -/
  | supG (s : Str)
  /-- `\frac` -/
  | frac1
  /-- `\frac{` and digits -/
  | fracN (s : Str)
  /-- `\frac{n}` -/
  | frac2 (n : Str)
  /-- `\frac{n}{` and digits -/
  | fracD (n s : Str)
  /-- `\begin` (true) or `\end` -/
  | envr (b : Bool)
  /-- `\begin{` or `\end{` and the name of an environment -/
  | envG (b : Bool) (s : Str)

/-- The value of a sequence of digits. -/
def digitsValue (s : Str) : Nat := s.foldl (fun n c => 10 * n + digit c) 0

/-- The characters in a subscript: names, numbers, and tuples of them. -/
def isIndexChar (c : Char) : Bool := c.isAlphanum || c = '(' || c = ')' || c = ','

/-- The name of a variable or function with a subscript. -/
def subscripted (c : Char) (s : Str) : Str := c :: '_' :: s

/-- A complete name with subscript. -/
def named (c : Char) (s : Str) : Pend := if isFn c then .fn c s 0 else .done [.tok (.name (subscripted c s))]

/-- The symbol being read continues. -/
def advance : Pend → Tx → Option Pend
  | .num n, .chr c => if c.isDigit then some (.num (10 * n + digit c)) else if c = '.' then some (.dec n 0) else none
  | .dec n k, .chr c => if c.isDigit then some (.dec (10 * n + digit c) (k + 1)) else none
  | .letter c, .chr d => if d = '_' then some (.sub c) else none
  | .sub c, .chr d => if d = '{' then some (.subG c []) else if d.isAlphanum then some (named c [d]) else none
  | .subG c s, .chr d => if d = '}' then some (named c s) else if isIndexChar d then some (.subG c (s ++ [d])) else none
  | .fn c s 0, .chr d => if d = '(' then some (.fn c s 1) else none
  | .fn c s 1, .chr d => if d = 'x' then some (.fn c s 2) else none
  | .fn c s 2, .chr d => if d = ')' then some (.done [.tok (.name (subscripted c s))]) else none
  | .sup, .chr d => if d = '{' then some (.supG []) else if d.isDigit then some (.done [.tok .pow, .tok (.int (digit d))]) else none
  | .supG s, .chr d =>
    if d = '}' then (if s ≠ [] then some (.done [.tok .pow, .tok (.int (digitsValue s))]) else none)
    else if d.isDigit then some (.supG (s ++ [d])) else none
  | .frac1, .chr d => if d = '{' then some (.fracN []) else none
  | .fracN s, .chr d =>
    if d = '}' then (if s ≠ [] then some (.frac2 s) else none) else if d.isDigit then some (.fracN (s ++ [d])) else none
  | .frac2 n, .chr d => if d = '{' then some (.fracD n []) else none
  | .fracD n s, .chr d =>
    if d = '}' then
      (if s ≠ [] then some (.done [.tok .lpar, .tok (.int (digitsValue n)), .tok .slash, .tok (.int (digitsValue s)), .tok .rpar]) else none)
    else if d.isDigit then some (.fracD n (s ++ [d])) else none
  | .envr b, .chr d => if d = '{' then some (.envG b []) else none
  | .envG b s, .chr d =>
    if d = '}' then some (.done [if b then .opens s else .closes s])
    else if d.isAlpha then some (.envG b (s ++ [d])) else none
  | _, _ => none

/-- The symbols that have been read. -/
def flush : Pend → Option (List Sym)
  | .done ts => some ts
  | .num n => some [.tok (.int n)]
  | .dec n k => some [.tok (.float ((n : ℚ) / 10 ^ k))]
  | .letter c => if isFn c then none else some [.tok (.name [c])]
  | _ => none

/-- The start of a symbol. -/
def start : Tx → Option Pend
  | .chr c =>
    if c.isDigit then some (.num (digit c))
    else if c.isAlpha then some (.letter c)
    else if c = '+' then some (.done [.tok .plus])
    else if c = '-' then some (.done [.tok .minus])
    else if c = '/' then some (.done [.tok .slash])
    else if c = '(' then some (.done [.tok .lpar])
    else if c = ')' then some (.done [.tok .rpar])
    else if c = '&' then some (.done [.next])
    else if c = '^' then some .sup
    else none
  | .cmd w =>
    if w = "cdot".toList then some (.done [.tok .star])
    else if w = "frac".toList then some .frac1
    else if w = "begin".toList then some (.envr true)
    else if w = "end".toList then some (.envr false)
    else if w = "\\".toList then some (.done [.next])
    else if w = "quad".toList then some (.done [.space])
    else none

/-- Reads one character or control word. -/
def step (st : List Sym × Pend) (t : Tx) : Option (List Sym × Pend) :=
  match advance st.2 t with
  | some p => some (st.1, p)
  | none => do
    let ts ← flush st.2
    let p ← start t
    return (st.1 ++ ts, p)

/-- The symbols of a text. -/
def lex (s : Str) : Option (List Sym) := do
  let st ← (tex s).foldlM step ([], .done [])
  let ts ← flush st.2
  return st.1 ++ ts

/-! ## Vectors -/

/-- The matrix that is being read: its environment and the number of entries before the current one. -/
abbrev Inside := Option (Str × Nat)

/-- The environments for vectors. -/
def environments : List Str := ["pmatrix".toList, "bmatrix".toList]

/-- Reads one symbol, for the component `i` of a vector with `n` components: matrices must have `n` entries, and the entry `i` is read as an expression
in parentheses. -/
def entryStep (n i : Nat) (st : List Tok × Inside) : Sym → Option (List Tok × Inside)
  | .tok t =>
    match st.2 with
    | none => some (st.1 ++ [t], none)
    | some (e, k) => some (if k = i then st.1 ++ [t] else st.1, some (e, k))
  | .opens e =>
    match st.2 with
    | none => if e ∈ environments then some (st.1 ++ [.lpar], some (e, 0)) else none
    | some _ => none
  | .next =>
    match st.2 with
    | none => some st
    | some (e, k) => some (st.1, some (e, k + 1))
  | .closes e' =>
    match st.2 with
    | none => none
    | some (e, k) => if e = e' ∧ k + 1 = n then some (st.1 ++ [.rpar], none) else none
  | .space => some st

/-- The component `i` of a formula for a vector with `n` components. For `n = 0` there are no matrices in the formula (which is a number). -/
def entry (n i : Nat) (l : List Sym) : Option (List Tok) :=
  match l.foldlM (entryStep n i) ([], none) with
  | some (o, none) => some o
  | _ => none

/-! ## Products -/

/-- The last token of an operand. -/
def ends : Tok → Bool
  | .int _ | .float _ | .name _ | .rpar | .rbrk => true
  | _ => false

/-- The first token of an operand. -/
def starts : Tok → Bool
  | .int _ | .float _ | .name _ | .lpar => true
  | _ => false

/-- Adjacent operands are multiplied. -/
def times : List Tok → List Tok
  | a :: b :: l => if ends a && starts b then a :: .star :: times (b :: l) else a :: times (b :: l)
  | l => l

/-! ## Meaning -/

variable {K : Type} [Field K]

/-- The component `i` of the formula, for a vector with `n` components, has the value `v`. -/
def DenotesEntry (env : Env K) (n i : Nat) (s : Str) (v : K) : Prop :=
  ∃ l ts, lex s = some l ∧ entry n i l = some ts ∧ Parses env .sum (times ts) v

/-- The formula is a number with the value `v`. -/
def Denotes (env : Env K) (s : Str) (v : K) : Prop := DenotesEntry env 0 0 s v

/-- The formula is a vector with the value `v`. -/
def DenotesVector (env : Env K) {n : Nat} (s : Str) (v : Fin n → K) : Prop := ∀ i : Fin n, DenotesEntry env n i s (v i)

/-- The formula is a number (or quotient of numbers, possibly with a sign), with the value `v`. -/
def PrintsExactly (s : Str) (v : K) : Prop :=
  ∀ env : Env K, ∃ (l : List Tok), lex s = some (l.map .tok) ∧ Parses env .term (times l) v

/-- The name of the `i`:th variable (counted from one), in dimension `m`. -/
def variableName (m i : Nat) : Str := if m = 1 then "x".toList else subscripted 'x' (Nat.toDigits 10 i)

/-- The variables have the values `x`. -/
def Variables (env : Env K) (x : List K) : Prop := ∀ i (h : i < x.length), env (variableName x.length (i + 1)) = some (.num x[i])

/-- A multi-index in the subscript of a basis function: a number in dimension one, otherwise a tuple. -/
def indexText : List Nat → Str
  | [k] => Nat.toDigits 10 k
  | nu => "(".toList ++ [','].intercalate (nu.map (Nat.toDigits 10)) ++ ")".toList

/-- The name of a basis function, without its argument. -/
def functionName (c : Char) (nu : List Nat) (r : Nat) : Str := subscripted c (indexText nu ++ ",".toList ++ Nat.toDigits 10 r)

/-- The names in the formula for a polynomial of degree `r` have their values at the point `x`: the variables for the monomial basis, the basis
functions `b_{nu, r}(x)` and `l_{nu, r}(x)` for the other bases. -/
def Describes (env : Env K) (b : Poly.Basis) (r : Nat) (x : List K) : Prop :=
  match b with
  | .monomial => Variables env x
  | .bernstein => ∀ nu : List Nat, nu.length = x.length → nu.sum ≤ r → env (functionName 'b' nu r) = some (.num (Spec.bernstein r x nu))
  | .lagrange => ∀ nu : List Nat, nu.length = x.length → nu.sum ≤ r → env (functionName 'l' nu r) = some (.num (Spec.lagrange r x nu))

end Verif.Latex
