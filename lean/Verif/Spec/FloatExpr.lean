import Mathlib.Data.Real.Basic
import Verif.Spec.PyExpr
/-!
# Specification: the value of a Python expression in floating point arithmetic

The same tokens and the same grammar as in `Verif.PyExpr`, with syntax trees. The value of a tree is any number that can be obtained by evaluating it
with operations whose result has a relative error of at most `ε` (the standard model of floating point arithmetic: no overflow and no underflow;
`ε = 2⁻⁵³` for the basic operations of IEEE double precision with rounding to nearest, `ε` has to cover the error of the power function as well).
-/

namespace Verif.PyExpr
open Verif Verif.Str

/-- Syntax trees of arithmetic expressions. -/
inductive Expr where
  | int (n : Nat)
  | float (q : ℚ)
  | name (s : Str)
  | index (s : Str) (i : Nat)
  | neg (e : Expr)
  | add (e f : Expr)
  | sub (e f : Expr)
  | mul (e f : Expr)
  | div (e f : Expr)
  | pow (e : Expr) (n : Nat)

/-- `Reads level ts e`: the grammar reads the tokens `ts` as the expression `e` of the given level (the rules of `Parses`). -/
inductive Reads : Level → List Tok → Expr → Prop where
  | add {a b : List Tok} {e f : Expr} : Reads .sum a e → Reads .term b f → Reads .sum (a ++ .plus :: b) (.add e f)
  | sub {a b : List Tok} {e f : Expr} : Reads .sum a e → Reads .term b f → Reads .sum (a ++ .minus :: b) (.sub e f)
  | sum {a : List Tok} {e : Expr} : Reads .term a e → Reads .sum a e
  | mul {a b : List Tok} {e f : Expr} : Reads .term a e → Reads .factor b f → Reads .term (a ++ .star :: b) (.mul e f)
  | div {a b : List Tok} {e f : Expr} : Reads .term a e → Reads .factor b f → Reads .term (a ++ .slash :: b) (.div e f)
  | term {a : List Tok} {e : Expr} : Reads .factor a e → Reads .term a e
  | neg {a : List Tok} {e : Expr} : Reads .factor a e → Reads .factor (.minus :: a) (.neg e)
  | pos {a : List Tok} {e : Expr} : Reads .factor a e → Reads .factor (.plus :: a) e
  | factor {a : List Tok} {e : Expr} : Reads .power a e → Reads .factor a e
  | pow {a : List Tok} {e : Expr} (n : Nat) : Reads .atom a e → Reads .power (a ++ [.pow, .int n]) (.pow e n)
  | power {a : List Tok} {e : Expr} : Reads .atom a e → Reads .power a e
  | int (n : Nat) : Reads .atom [.int n] (.int n)
  | float (q : ℚ) : Reads .atom [.float q] (.float q)
  | name (s : Str) : Reads .atom [.name s] (.name s)
  | index (s : Str) (i : Nat) : Reads .atom [.name s, .lbrk, .int i, .rbrk] (.index s i)
  | paren {a : List Tok} {e : Expr} : Reads .sum a e → Reads .atom (.lpar :: a ++ [.rpar]) e

/-- The number `c` is the number `v` up to a relative error of `ε`. -/
def Rounded (ε v c : ℝ) : Prop := |c - v| ≤ ε * |v|

/-- `FloatVal ε env e c`: an evaluation of `e` can give `c`. Variables are exact, a change of sign is exact, literals and the results of all operations
are rounded. -/
inductive FloatVal (ε : ℝ) (env : Env ℝ) : Expr → ℝ → Prop where
  | int {n : Nat} {c : ℝ} : Rounded ε n c → FloatVal ε env (.int n) c
  | float {q : ℚ} {c : ℝ} : Rounded ε q c → FloatVal ε env (.float q) c
  | name {s : Str} {v : ℝ} : env s = some (.num v) → FloatVal ε env (.name s) v
  | index {s : Str} {i : Nat} {l : List ℝ} {v : ℝ} : env s = some (.list l) → l[i]? = some v → FloatVal ε env (.index s i) v
  | neg {e : Expr} {c : ℝ} : FloatVal ε env e c → FloatVal ε env (.neg e) (-c)
  | add {e f : Expr} {a b c : ℝ} : FloatVal ε env e a → FloatVal ε env f b → Rounded ε (a + b) c → FloatVal ε env (.add e f) c
  | sub {e f : Expr} {a b c : ℝ} : FloatVal ε env e a → FloatVal ε env f b → Rounded ε (a - b) c → FloatVal ε env (.sub e f) c
  | mul {e f : Expr} {a b c : ℝ} : FloatVal ε env e a → FloatVal ε env f b → Rounded ε (a * b) c → FloatVal ε env (.mul e f) c
  | div {e f : Expr} {a b c : ℝ} : FloatVal ε env e a → FloatVal ε env f b → b ≠ 0 → Rounded ε (a / b) c → FloatVal ε env (.div e f) c
  | pow {e : Expr} {n : Nat} {a c : ℝ} : FloatVal ε env e a → Rounded ε (a ^ n) c → FloatVal ε env (.pow e n) c

/-- The text is an expression whose evaluation in floating point arithmetic can give `c`. -/
def FloatDenotes (ε : ℝ) (env : Env ℝ) (s : Str) (c : ℝ) : Prop := ∃ ts e, tokens s = some ts ∧ Reads .sum ts e ∧ FloatVal ε env e c

/-- Comma separated expressions and what their evaluation can give. -/
inductive FloatSeq (ε : ℝ) (env : Env ℝ) : List Tok → List ℝ → Prop where
  | one {a : List Tok} {e : Expr} {c : ℝ} : Reads .sum a e → FloatVal ε env e c → FloatSeq ε env a [c]
  | cons {a b : List Tok} {e : Expr} {c : ℝ} {cs : List ℝ} : Reads .sum a e → FloatVal ε env e c → FloatSeq ε env b cs →
      FloatSeq ε env (a ++ .comma :: b) (c :: cs)

/-- The text is `np.array([e₁, …, eₙ])` for expressions whose evaluation can give the numbers `cs`. -/
def FloatArray (ε : ℝ) (env : Env ℝ) (s : Str) (cs : List ℝ) : Prop :=
  ∃ ts, tokens s = some ([.name "np".toList, .dot, .name "array".toList, .lpar, .lbrk] ++ ts ++ [.rbrk, .rpar]) ∧ FloatSeq ε env ts cs

/-- A literal, possibly with a sign, for the number `v`: an integer literal is exact, a floating point literal is the number up to a relative error of
`ε` (the decimal digits that Python prints are not exactly the number). -/
inductive Literal (ε : ℝ) : Expr → ℝ → Prop where
  | int (n : Nat) : Literal ε (.int n) n
  | float {q : ℚ} {v : ℝ} : Rounded ε v q → Literal ε (.float q) v
  | neg {e : Expr} {v : ℝ} : Literal ε e v → Literal ε (.neg e) (-v)

/-- The text is a literal for the number. -/
def PrintsLiteral (ε : ℝ) (s : Str) (v : ℝ) : Prop := ∃ ts e, tokens s = some ts ∧ Reads .factor ts e ∧ Literal ε e v

end Verif.PyExpr
