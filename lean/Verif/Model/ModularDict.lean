import Verif.Model.ModularArithmetic
/-!
# Dictionaries with integers modulo n as keys

`IntegerModuloN.__hash__` and `IntegerModuloN.__eq__` (modular_arithmetic.py 45-54) make integers modulo n usable as keys of dictionaries, next to plain integers.
The dictionary is that of CPython, as in `MultiIndexDict`: an entry stores the hash of its key; a lookup compares, in the order of insertion, with the keys whose stored hash is that
of the sought key. Simplifications: the slots of the hash table are not modelled, nor are deletions, nor programs that assign to the attributes `i` and `n`. The hashes are
those of CPython on a 64 bit machine.
-/

namespace Verif.ModDict
open Verif

/-- `hash(v)` for a Python integer (CPython, 64 bit): `v` modulo the prime `2^61 - 1`, with the sign of `v`; -1 is replaced by -2. -/
def intHash (v : Int) : Int :=
  let h := Int.tmod v (2 ^ 61 - 1)
  if h = -1 then -2 else h

/-- `hash(x)` for an `IntegerModuloN`, whose `__hash__` returns `i` (modular_arithmetic.py 45-46). CPython uses the returned integer itself if it has 64 bits (-1 is replaced by -2), otherwise
the hash of that integer. -/
def modHash (a : IntMod) : Int :=
  if -2 ^ 63 ≤ a.i ∧ a.i < 2 ^ 63 then (if a.i = -1 then -2 else a.i) else intHash a.i

/-- `hash(k)` (modular_arithmetic.py 45-46 for integers modulo n). -/
def keyHash : Operand → Int
  | .int v => intHash v
  | .mod a => modHash a

/-- `a == b` (modular_arithmetic.py 48-54): if only the right operand is an integer modulo n its `__eq__` is called with the left one. -/
def keyEq : Operand → Operand → Py Bool
  | .int v, .int w => return decide (v = w)
  | .int v, .mod b => b.eq (.int v)
  | .mod a, b => a.eq b

/-- An entry of a dictionary: stored hash (modular_arithmetic.py 45-46), key and value. -/
structure Entry (V : Type) where
  hash : Int
  key : Operand
  val : V

/-- Whether an entry matches a key: the keys are only compared (modular_arithmetic.py 48-54) if the hashes agree. -/
def hit {V : Type} (k : Operand) (e : Entry V) : Py Bool :=
  if e.hash = keyHash k then keyEq e.key k else return false

/-- `d.get(k)`: search the entry of a key with `__hash__` and `__eq__` (modular_arithmetic.py 45-54). -/
def find {V : Type} (k : Operand) : List (Entry V) → Py (Option V)
  | [] => return none
  | e :: d => do
    if ← hit k e then return some e.val else find k d

/-- `d[k]` (modular_arithmetic.py 45-54). -/
def get {V : Type} (d : List (Entry V)) (k : Operand) : Py V := do
  match ← find k d with
  | some v => return v
  | none => throw .key

/-- `d[k] = v` (modular_arithmetic.py 45-54); an existing entry keeps its key. -/
def set {V : Type} (k : Operand) (v : V) : List (Entry V) → Py (List (Entry V))
  | [] => return [⟨keyHash k, k, v⟩]
  | e :: d => do
    if ← hit k e then return ⟨e.hash, e.key, v⟩ :: d
    else
      let d ← set k v d
      return e :: d

/-- A sequence of assignments `d[k] = v` (modular_arithmetic.py 45-54). -/
def fill {V : Type} : List (Operand × V) → List (Entry V) → Py (List (Entry V))
  | [], d => return d
  | (k, v) :: l, d => do
    let d ← set k v d
    fill l d

/-- A sequence of assignments `d[IntegerModuloN(x, n)] = v` (modular_arithmetic.py 31-37, 45-54). -/
def fillMod {V : Type} (n : Int) : List (Int × V) → List (Entry V) → Py (List (Entry V))
  | [], d => return d
  | (x, v) :: l, d => do
    let k ← IntMod.mk? x n
    let d ← set (.mod k) v d
    fillMod n l d

/-- `d[IntegerModuloN(x, n)]` (modular_arithmetic.py 31-37, 45-54). -/
def getMod {V : Type} (n : Int) (d : List (Entry V)) (x : Int) : Py V := do
  let k ← IntMod.mk? x n
  get d (.mod k)

end Verif.ModDict
