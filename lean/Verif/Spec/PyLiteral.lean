import Verif.Spec.PyExpr
import Verif.Model.Representation
/-!
# Specification: reading literals and constructor calls

What Python reads when it evaluates the text of an integer, of a list or tuple of integers, or of a call `a.b.C(arg, ..., arg)` with such arguments
(language reference 6.2.3, 6.2.5, 6.3.4). The readers are functions, so a text has at most one reading.
-/

namespace Verif.PyLit
open Verif Verif.Str Verif.PyExpr

/-- An integer, possibly with a sign. -/
def readInt : List Tok → Option Int
  | [.int n] => some n
  | [.minus, .int n] => some (-n)
  | _ => none

/-- Split at the commas outside of brackets (`d` is the nesting depth, `cur` the current part). -/
def splitCommas : Nat → List Tok → List Tok → List (List Tok)
  | _, cur, [] => [cur]
  | d, cur, .comma :: ts => if d = 0 then cur :: splitCommas 0 [] ts else splitCommas d (cur ++ [.comma]) ts
  | d, cur, .lpar :: ts => splitCommas (d + 1) (cur ++ [.lpar]) ts
  | d, cur, .lbrk :: ts => splitCommas (d + 1) (cur ++ [.lbrk]) ts
  | d, cur, .rpar :: ts => splitCommas (d - 1) (cur ++ [.rpar]) ts
  | d, cur, .rbrk :: ts => splitCommas (d - 1) (cur ++ [.rbrk]) ts
  | d, cur, t :: ts => splitCommas d (cur ++ [t]) ts

/-- The items between brackets; a comma after the last item is allowed. -/
def items (ts : List Tok) : List (List Tok) :=
  let ps := splitCommas 0 [] ts
  if ps.getLast? = some [] then ps.dropLast else ps

/-- The items between a pair of brackets: the tokens after the opening one are given. -/
def bracketed (close : Tok) (rest : List Tok) : Option (List Tok) := if rest.getLast? = some close then some rest.dropLast else none

/-- An integer, a list `[...]` or a tuple `(...)` of integers. Parentheses without a comma are not a tuple, unless they are empty. -/
def readVal : List Tok → Option PyVal
  | .lbrk :: rest => do
    let ts ← bracketed .rbrk rest
    let l ← (items ts).mapM readInt
    return .list l
  | .lpar :: rest => do
    let ts ← bracketed .rpar rest
    if ts = [] ∨ Tok.comma ∈ ts then do
      let l ← (items ts).mapM readInt
      return .tuple l
    else do
      let i ← readInt ts
      return .int i
  | ts => do
    let i ← readInt ts
    return .int i

/-- The value of a text. -/
def literal (s : Str) : Option PyVal := do
  let ts ← tokens s
  readVal ts

/-- A dotted name followed by an opening parenthesis, and the remaining tokens. -/
def dottedName : List Tok → Option (List Str × List Tok)
  | .name s :: .dot :: rest => do
    let (p, r) ← dottedName rest
    return (s :: p, r)
  | .name s :: .lpar :: rest => some ([s], rest)
  | _ => none

/-- A call: the dotted name of the function and the tokens of the arguments. -/
def callTokens (s : Str) : Option (List Str × List (List Tok)) := do
  let ts ← tokens s
  let (p, rest) ← dottedName ts
  let inner ← bracketed .rpar rest
  return (p, items inner)

/-- A call with literals as arguments. -/
def call (s : Str) : Option (List Str × List PyVal) := do
  let (p, args) ← callTokens s
  let vs ← args.mapM readVal
  return (p, vs)

/-- The classes with their module. -/
def multiIndexClass : List Str := ["polynomials_on_simplices".toList, "algebra".toList, "multiindex".toList, "MultiIndex".toList]
/-- ... -/
def permutationClass : List Str := ["polynomials_on_simplices".toList, "algebra".toList, "permutations".toList, "Permutation".toList]
/-- ... -/
def integerModuloNClass : List Str := ["polynomials_on_simplices".toList, "algebra".toList, "modular_arithmetic".toList, "IntegerModuloN".toList]

/-! ## Hashes of CPython on 64 bit platforms -/

/-- `hash(k)` of an integer: the remainder modulo the prime `2 ^ 61 - 1` with the sign of `k`, and `-2` instead of `-1`. -/
def hashInt (k : Int) : Int :=
  let h := Int.tmod k (2 ^ 61 - 1)
  if h = -1 then -2 else h

/-- `hash(x)` of an object whose method `__hash__` returns the integer `k`: `k` itself if it fits in 64 bits (`-2` instead of `-1`), otherwise `hash(k)`. -/
def hashOfMethod (k : Int) : Int :=
  if -2 ^ 63 ≤ k ∧ k < 2 ^ 63 then (if k = -1 then -2 else k) else hashInt k

end Verif.PyLit
