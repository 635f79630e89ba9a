import Verif.Py
/-!
# Model of `composition` of `algebra/algebraic_operations.py`

A Python function is its signature, as seen by `inspect.signature`, and the map from its arguments to a value or an exception. A value is a
number (anything that cannot be unpacked) or a sequence.
-/

namespace Verif.Composition
open Verif

/-- `Parameter.kind`. -/
inductive Kind
  | positionalOnly
  | positionalOrKeyword
  | varPositional
  | keywordOnly
  | varKeyword
  deriving DecidableEq

/-- A number or a sequence. -/
inductive Val (α : Type)
  | num : α → Val α
  | seq : List (Val α) → Val α

/-- A callable: `sig = none` means that `signature` raises ValueError (some built-in functions). -/
structure Fn (α : Type) where
  sig : Option (List Kind)
  call : List (Val α) → Py (Val α)

/-- `_is_univariate_function` (algebraic_operations.py:47-68). -/
def isUnivariateFunction {α : Type} (f : Fn α) : Py Bool :=
  match f.sig with
  | none => .ok true
  | some ps =>
    if 1 < ps.length then .ok false
    else do
      pyAssert (decide (ps.length = 1))
      let parameter ← getE ps 0
      if parameter = .varPositional then return false
      return true

/-- Unpacking of a value as positional arguments; a number raises TypeError. -/
def unpack {α : Type} : Val α → Py (List (Val α))
  | .num _ => .error .type
  | .seq l => .ok l

/-- `def fog(x)`: called with any other number of arguments it raises TypeError. -/
def unary {α : Type} (body : Val α → Py (Val α)) : Fn α where
  sig := some [.positionalOrKeyword]
  call := fun args =>
    match args with
    | [x] => body x
    | _ => .error .type

/-- `def fog(*x)`. -/
def variadic {α : Type} (body : List (Val α) → Py (Val α)) : Fn α where
  sig := some [.varPositional]
  call := body

/-- `composition` (algebraic_operations.py:6-44). -/
def composition {α : Type} (f g : Fn α) : Py (Fn α) := do
  let f_univariate ← isUnivariateFunction f
  let g_univariate ← isUnivariateFunction g
  if g_univariate then
    if f_univariate then
      return unary fun x => do
        let y ← g.call [x]
        f.call [y]
    else
      return unary fun x => do
        let y ← g.call [x]
        let ys ← unpack y
        f.call ys
  else
    if f_univariate then
      return variadic fun x => do
        let y ← g.call x
        f.call [y]
    else
      return variadic fun x => do
        let y ← g.call x
        let ys ← unpack y
        f.call ys

end Verif.Composition
