import Mathlib.Algebra.Field.Basic
import Mathlib.Data.Rat.Cast.Defs
import Verif.Model.StrUtils
/-!
# Specification: the meaning of a Python expression given as text

The fragment of Python that occurs in generated code: numbers, names, subscripts, `+ - * / **`, parentheses and `np.array([...])`.
Text is first split into tokens (Python language reference, chapter 2) and the tokens are read by the grammar for arithmetic
expressions (chapter 6: `a_expr`, `m_expr`, `u_expr`, `power`, `primary`/`atom`), with numbers in a field.
-/

namespace Verif.PyExpr
open Verif Verif.Str

/-! ## Tokens -/

/-- Tokens. -/
inductive Tok where
  /-- an integer literal -/
  | int (n : Nat)
  /-- a floating point literal -/
  | float (q : ℚ)
  /-- an identifier -/
  | name (s : Str)
  | plus | minus | star | slash | pow | lpar | rpar | lbrk | rbrk | comma | dot
  deriving DecidableEq

/-- The token that is being read. -/
inductive Pend where
  | idle
  | name (s : Str)
  /-- the digits of a number -/
  | int (n : Nat)
  /-- the digits `n`, the last `k` of them after the decimal point -/
  | frac (n k : Nat)
  /-- ... followed by `e` -/
  | exp0 (n k : Nat)
  /-- ... followed by a sign (`true` for minus) -/
  | exp1 (n k : Nat) (neg : Bool)
  /-- ... followed by the digits of the exponent -/
  | exp (n k : Nat) (neg : Bool) (e : Nat)
  /-- `*` -/
  | star
  /-- `**` -/
  | pow

/-- The value of a digit. -/
def digit (c : Char) : Nat := c.toNat - '0'.toNat

/-- The token being read continues with the character. -/
def advance : Pend → Char → Option Pend
  | .name s, c => if c.isAlphanum || c = '_' then some (.name (s ++ [c])) else none
  | .int n, c =>
    if c.isDigit then some (.int (10 * n + digit c)) else if c = '.' then some (.frac n 0) else if c = 'e' then some (.exp0 n 0) else none
  | .frac n k, c => if c.isDigit then some (.frac (10 * n + digit c) (k + 1)) else if c = 'e' then some (.exp0 n k) else none
  | .exp0 n k, c =>
    if c.isDigit then some (.exp n k false (digit c)) else if c = '+' then some (.exp1 n k false) else if c = '-' then some (.exp1 n k true) else none
  | .exp1 n k s, c => if c.isDigit then some (.exp n k s (digit c)) else none
  | .exp n k s e, c => if c.isDigit then some (.exp n k s (10 * e + digit c)) else none
  | .star, c => if c = '*' then some .pow else none
  | .idle, _ => none
  | .pow, _ => none

/-- The token that has been read. -/
def flush : Pend → Option (List Tok)
  | .idle => some []
  | .name s => some [.name s]
  | .int n => some [.int n]
  | .frac n k => some [.float ((n : ℚ) / 10 ^ k)]
  | .exp0 _ _ => none
  | .exp1 _ _ _ => none
  | .exp n k neg e => some [.float (if neg then (n : ℚ) / 10 ^ k / 10 ^ e else (n : ℚ) / 10 ^ k * 10 ^ e)]
  | .star => some [.star]
  | .pow => some [.pow]

/-- Start of a token at nesting depth `d` of brackets. A line break is only allowed inside brackets (otherwise it ends the statement). -/
def start (d : Nat) (c : Char) : Option (List Tok × Nat × Pend) :=
  if c.isDigit then some ([], d, .int (digit c))
  else if c.isAlpha || c = '_' then some ([], d, .name [c])
  else if c = ' ' then some ([], d, .idle)
  else if c = '\n' then (if 0 < d then some ([], d, .idle) else none)
  else if c = '+' then some ([.plus], d, .idle)
  else if c = '-' then some ([.minus], d, .idle)
  else if c = '*' then some ([], d, .star)
  else if c = '/' then some ([.slash], d, .idle)
  else if c = '(' then some ([.lpar], d + 1, .idle)
  else if c = ')' then (if 0 < d then some ([.rpar], d - 1, .idle) else none)
  else if c = '[' then some ([.lbrk], d + 1, .idle)
  else if c = ']' then (if 0 < d then some ([.rbrk], d - 1, .idle) else none)
  else if c = ',' then some ([.comma], d, .idle)
  else if c = '.' then some ([.dot], d, .idle)
  else none

/-- State of the tokenizer. -/
structure Scan where
  /-- tokens read -/
  out : List Tok
  /-- nesting depth of brackets -/
  depth : Nat
  /-- current token -/
  pend : Pend

/-- Read one character. -/
def step (st : Scan) (c : Char) : Option Scan :=
  match advance st.pend c with
  | some p => some { st with pend := p }
  | none => do
    let ts ← flush st.pend
    let (ts', d, p) ← start st.depth c
    return { out := st.out ++ ts ++ ts', depth := d, pend := p }

/-- Read a text. -/
def scan (st : Scan) (s : Str) : Option Scan := s.foldlM step st

/-- The tokens of a text. -/
def tokens (s : Str) : Option (List Tok) := do
  let st ← scan { out := [], depth := 0, pend := .idle } s
  let ts ← flush st.pend
  if st.depth = 0 then return st.out ++ ts else none

/-! ## Grammar -/

variable {K : Type} [Field K]

/-- Values of variables. -/
inductive Val (K : Type) where
  | num (v : K)
  | list (l : List K)

/-- Values of the names in scope. -/
abbrev Env (K : Type) := Str → Option (Val K)

/-- The levels of the grammar: `a_expr`, `m_expr`, `u_expr`, `power`, `primary`. -/
inductive Level where
  | sum | term | factor | power | atom
  deriving DecidableEq

/-- `Parses env level ts v`: the grammar reads the tokens `ts` as an expression of the given level, with value `v`.
Sums and products associate to the left; a power binds tighter than a sign on its left; exponents are integer literals. -/
inductive Parses (env : Env K) : Level → List Tok → K → Prop where
  | add {a b : List Tok} {u v : K} : Parses env .sum a u → Parses env .term b v → Parses env .sum (a ++ .plus :: b) (u + v)
  | sub {a b : List Tok} {u v : K} : Parses env .sum a u → Parses env .term b v → Parses env .sum (a ++ .minus :: b) (u - v)
  | sum {a : List Tok} {u : K} : Parses env .term a u → Parses env .sum a u
  | mul {a b : List Tok} {u v : K} : Parses env .term a u → Parses env .factor b v → Parses env .term (a ++ .star :: b) (u * v)
  | div {a b : List Tok} {u v : K} : Parses env .term a u → Parses env .factor b v → v ≠ 0 → Parses env .term (a ++ .slash :: b) (u / v)
  | term {a : List Tok} {u : K} : Parses env .factor a u → Parses env .term a u
  | neg {a : List Tok} {u : K} : Parses env .factor a u → Parses env .factor (.minus :: a) (-u)
  | pos {a : List Tok} {u : K} : Parses env .factor a u → Parses env .factor (.plus :: a) u
  | factor {a : List Tok} {u : K} : Parses env .power a u → Parses env .factor a u
  | pow {a : List Tok} {u : K} (n : Nat) : Parses env .atom a u → Parses env .power (a ++ [.pow, .int n]) (u ^ n)
  | power {a : List Tok} {u : K} : Parses env .atom a u → Parses env .power a u
  | int (n : Nat) : Parses env .atom [.int n] (n : K)
  | float (q : ℚ) : Parses env .atom [.float q] (q : K)
  | name {s : Str} {v : K} : env s = some (.num v) → Parses env .atom [.name s] v
  | index {s : Str} {l : List K} {v : K} (i : Nat) : env s = some (.list l) → l[i]? = some v →
      Parses env .atom [.name s, .lbrk, .int i, .rbrk] v
  | paren {a : List Tok} {u : K} : Parses env .sum a u → Parses env .atom (.lpar :: a ++ [.rpar]) u

/-- The text is an expression with value `v`. -/
def Denotes (env : Env K) (s : Str) (v : K) : Prop := ∃ ts, tokens s = some ts ∧ Parses env .sum ts v

/-- The text is an expression without `+` and `-` between its parts (a product or quotient of factors, possibly with a sign), with value `v`. -/
def DenotesTerm (env : Env K) (s : Str) (v : K) : Prop := ∃ ts, tokens s = some ts ∧ Parses env .term ts v

/-- Expressions separated by commas, with their values. -/
inductive ParsesSeq (env : Env K) : List Tok → List K → Prop where
  | one {a : List Tok} {u : K} : Parses env .sum a u → ParsesSeq env a [u]
  | cons {a b : List Tok} {u : K} {us : List K} : Parses env .sum a u → ParsesSeq env b us → ParsesSeq env (a ++ .comma :: b) (u :: us)

/-- The text is `np.array([e₁, …, eₙ])` for expressions with the values `vs`. -/
def DenotesArray (env : Env K) (s : Str) (vs : List K) : Prop :=
  ∃ ts, tokens s = some ([.name "np".toList, .dot, .name "array".toList, .lpar, .lbrk] ++ ts ++ [.rbrk, .rpar]) ∧ ParsesSeq env ts vs

/-! ## Functions -/

/-- An identifier (of ASCII letters, digits and underscores). -/
def IsIdentifier (s : Str) : Prop := (∃ c cs, s = c :: cs ∧ (c.isAlpha ∨ c = '_')) ∧ ∀ c ∈ s, c.isAlphanum ∨ c = '_'

/-- The text is the definition of a function `name` with the parameter `x` whose body returns the expression `e`. -/
def DefinesFunction (code name e : Str) : Prop :=
  IsIdentifier name ∧ code = "def ".toList ++ name ++ "(x):\n".toList ++ "    return ".toList ++ e ++ "\n".toList

/-- The scope in which the generated function is called: `x` is the argument. -/
def scope (x : Val K) : Env K := fun s => if s = "x".toList then some x else none

/-- The argument of a polynomial: a number in dimension one, an array otherwise. -/
def pointArg : List K → Val K
  | [v] => .num v
  | l => .list l

/-- The scope in which the general functions are called: `a` are the coefficients, `x` the argument. -/
def scopeGeneral (a : List K) (x : Val K) : Env K := fun s => if s = "a".toList then some (.list a) else if s = "x".toList then some x else none

/-- The text is a literal (or a quotient of literals, possibly with a sign) for the number `v`, whatever the values of the variables. -/
def PrintsExactly (s : Str) (v : K) : Prop := ∀ env : Env K, DenotesTerm env s v

end Verif.PyExpr
