import Verif.Model.CodeGeneration
import Verif.Model.MultiIndex
import Verif.Model.Permutations
/-!
# Model of the textual representations, constructors' argument handling, hashes and iterators

`__repr__`, `__str__`, `__hash__`, `__len__`, `__iter__` and the argument handling of the constructors of `MultiIndex`, `Permutation` and
`IntegerModuloN`, `__repr__` of polynomials, and the iterator over the components of a vector valued polynomial.
-/

namespace Verif

/-- The Python values that are passed to the constructors: an integer, or a list or tuple of integers. -/
inductive PyVal where
  | int (i : Int)
  | list (l : List Int)
  | tuple (l : List Int)
  deriving DecidableEq, Repr

namespace Repr
open Verif Verif.Str Verif.CodeGen

/-- Python's `str` of a list of integers. -/
def listStr (l : List Int) : Str := "[".toList ++ join ", ".toList (l.map intStr) ++ "]".toList

/-- Python's `str` of a tuple of integers: a tuple with one element is written with a trailing comma. -/
def tupleStr (l : List Int) : Str :=
  match l with
  | [x] => "(".toList ++ intStr x ++ ",)".toList
  | l => "(".toList ++ join ", ".toList (l.map intStr) ++ ")".toList

/-! ## `MultiIndex` -/

/-- The loop of `MultiIndex.__init__` (multiindex.py 47-49) over the components: a negative component raises ValueError, and comparing a list or a tuple
with 0 raises TypeError. -/
def checkComponents : List PyVal → Py (List Nat)
  | [] => .ok []
  | .int i :: rest => if i < 0 then .error .value else do
    let l ← checkComponents rest
    return i.toNat :: l
  | _ :: _ => .error .type

/-- `MultiIndex.__init__(*components)` (multiindex.py 32-49) with `_is_iterable` (701-706): no argument raises IndexError (`components[0]`). -/
def multiIndexInit (args : List PyVal) : Py (List Nat) :=
  if args.length > 1 then checkComponents args
  else match args with
    | .list l :: _ => checkComponents (l.map .int)
    | .tuple l :: _ => checkComponents (l.map .int)
    | .int i :: _ => checkComponents [.int i]
    | [] => .error .index

/-- `MultiIndex.__repr__` (multiindex.py 51-58). -/
def multiIndexRepr (a : List Nat) : Str :=
  "polynomials_on_simplices.algebra.multiindex.MultiIndex(".toList ++ listStr (a.map Int.ofNat) ++ ")".toList

/-- `MultiIndex.__str__` (multiindex.py 60-67). -/
def multiIndexStr (a : List Nat) : Str := tupleStr (a.map Int.ofNat)

/-- `MultiIndex.components` and `to_tuple` (multiindex.py 202-218), `__iter__` (98-99) as the sequence of values. -/
def multiIndexTuple (a : List Nat) : PyVal := .tuple (a.map Int.ofNat)

/-- `MultiIndex.__len__` (multiindex.py 69-76). -/
def multiIndexLen (a : List Nat) : Nat := a.length

/-- `MultiIndex.__hash__` (multiindex.py 101-107); `hashTuple` is Python's hash of a tuple. -/
def multiIndexHash (hashTuple : List Int → Int) (a : List Nat) : Int := hashTuple (a.map Int.ofNat)

/-! ## `Permutation` -/

/-- `Permutation.__init__(*values)` (permutations.py 74-89) with `_is_iterable` (889-894). The values are stored unchecked; no argument raises
IndexError (`values[0]`). -/
def permutationInit (args : List PyVal) : Py (List PyVal) :=
  if args.length > 1 then .ok args
  else match args with
    | .tuple l :: _ => .ok (l.map .int)
    | .list l :: _ => .ok (l.map .int)
    | .int _ :: _ => .error .value
    | [] => .error .index

/-- `Permutation.__repr__` (permutations.py 91-98) with `to_tuple` (199-206). -/
def permutationRepr (p : List Nat) : Str :=
  "polynomials_on_simplices.algebra.permutations.Permutation(".toList ++ tupleStr (p.map Int.ofNat) ++ ")".toList

/-- `Permutation.__str__` (permutations.py 100-107). -/
def permutationStr (p : List Nat) : Str := tupleStr (Perm.toOneBased (p.map Int.ofNat))

/-- `Permutation.__len__` (permutations.py 109-116). -/
def permutationLen (p : List Nat) : Nat := p.length

/-! ## `IntegerModuloN` -/

/-- `IntegerModuloN(value, n)` (modular_arithmetic.py 31-37): another number of arguments, and sequences, raise TypeError. -/
def integerModuloNInit : List PyVal → Py IntMod
  | [.int v, .int n] => IntMod.mk? v n
  | _ => .error .type

/-- `IntegerModuloN.__repr__` (modular_arithmetic.py 39-40). -/
def integerModuloNRepr (x : IntMod) : Str :=
  "polynomials_on_simplices.algebra.modular_arithmetic.IntegerModuloN(".toList ++ intStr x.i ++ ", ".toList ++ intStr x.n ++ ")".toList

/-- `IntegerModuloN.__str__` (modular_arithmetic.py 42-43). -/
def integerModuloNStr (x : IntMod) : Str := intStr x.i ++ "_".toList ++ intStr x.n

/-- `IntegerModuloN.__hash__` (modular_arithmetic.py 45-46): the integer returned by the method. -/
def integerModuloNHashMethod (x : IntMod) : Int := x.i

/-- `IntegerModuloN.__int__` (modular_arithmetic.py 117-118). -/
def integerModuloNInt (x : IntMod) : Int := x.i

/-! ## `__repr__` of polynomials -/

open Verif.Poly

/-- The class name printed by `__repr__` (polynomials_monomial_basis.py 70, polynomials_unit_simplex_bernstein_basis.py 96,
polynomials_unit_simplex_lagrange_basis.py 258). -/
def polynomialClass : Basis → Str
  | .monomial => "polynomials_on_simplices.algebra.polynomial.polynomials_monomial_basis.Polynomial(".toList
  | .bernstein => "polynomials_on_simplices.algebra.polynomial.polynomials_unit_simplex_bernstein_basis.PolynomialBernstein(".toList
  | .lagrange => "polynomials_on_simplices.algebra.polynomial.polynomials_unit_simplex_lagrange_basis.PolynomialLagrange(".toList

/-- `__repr__` of polynomials (polynomials_monomial_basis.py 69-71, polynomials_unit_simplex_bernstein_basis.py 95-97,
polynomials_unit_simplex_lagrange_basis.py 257-259); `coeffStr` is `str(self.coeff)`, written by NumPy. -/
def polynomialRepr {V : Type} (coeffStr : List V → Str) (p : Obj V) : Str :=
  polynomialClass p.basis ++ coeffStr p.coeff ++ ", ".toList ++ natStr p.m ++ ", ".toList ++ natStr p.r ++ ")".toList

/-! ## Iteration over components -/

/-- `PolynomialBase.__len__` (polynomials_base.py 258-267) for the target dimension `n`. -/
def polynomialLen (n : Nat) : Py Nat := if n = 1 then .error .type else .ok n

/-- `PolynomialBase.__getitem__` (polynomials_base.py 243-256) with its assertions; `component` is the constructor call for a component that exists. -/
def getItem {α : Type} {n : Nat} (component : Fin n → Py α) (i : Int) : Py α := do
  pyAssert (decide (i ≥ 0))
  if h : i.toNat < n then component ⟨i.toNat, h⟩ else .error .assertion

/-- `PolynomialComponentsIterator` (polynomials_base.py 95-117): the polynomial (given by its components) and `_i`. -/
structure ComponentsIterator (α : Type) (n : Nat) where
  component : Fin n → Py α
  i : Nat

/-- `PolynomialBase.__iter__` (polynomials_base.py 269-273) and `PolynomialComponentsIterator.__init__` (100-107). -/
def iterNew {α : Type} {n : Nat} (component : Fin n → Py α) : Py (ComponentsIterator α n) := do
  pyAssert (decide (n > 1))
  return ⟨component, 0⟩

/-- `PolynomialComponentsIterator.__next__` (polynomials_base.py 112-117). -/
def iterNext {α : Type} {n : Nat} (it : ComponentsIterator α n) : Py (α × ComponentsIterator α n) := do
  let len ← polynomialLen n
  if it.i ≥ len then .error .stopIteration
  else do
    let pc ← getItem it.component it.i
    return (pc, { it with i := it.i + 1 })

/-- The `for` loop of Python over an iterator: `next` is called until it raises StopIteration; other exceptions are passed on. Running out of fuel stands
for a loop that does not end. -/
def forLoop {α : Type} {n : Nat} : Nat → ComponentsIterator α n → Py (List α)
  | 0, _ => .error .runtime
  | fuel + 1, it =>
    match iterNext it with
    | .error .stopIteration => .ok []
    | .error e => .error e
    | .ok (c, it') => do
      let cs ← forLoop fuel it'
      return c :: cs

/-- `list(p)`: `__iter__` followed by the loop. -/
def components {α : Type} {n : Nat} (fuel : Nat) (component : Fin n → Py α) : Py (List α) := do
  let it ← iterNew component
  forLoop fuel it

end Repr
end Verif
