import Verif.Model.MultiIndex
/-!
# Dictionaries with multi-indices as keys

`MultiIndex.__hash__` and `MultiIndex.__eq__` (multiindex.py 101-120) make multi-indices usable as keys of dictionaries, as in the local-to-global maps
(piecewise_polynomial.py 95-102, 147-172). Multi-indices are objects that can be changed (`__setitem__`), so a dictionary holds references to them. `Mem` gives
the components of every object. Keys may also be tuples, which cannot be changed. The hash of a tuple of integers is a parameter.

The dictionary is that of CPython: an entry stores the hash the key had when it was inserted; a lookup compares, in the order of insertion, with the keys whose
stored hash is that of the sought key, and accepts the same object without a comparison. Simplification: the slots of the hash table are not modelled. They only
matter for the lookup with an object that is itself a key and was changed after its insertion; no statement is made about this case. Deletions are not modelled.
-/

namespace Verif.MIDict
open Verif

/-- An object: a tuple of natural numbers or a multi-index. -/
structure Obj where
  isTuple : Bool
  comps : List Nat

/-- All objects. -/
abbrev Mem := Nat → Obj

/-- `a == b`: tuples are compared by Python, otherwise `MultiIndex.__eq__` (multiindex.py 109-120) is called (if only the right operand is a multi-index,
as the reflected method, with the operands swapped). -/
def keyEq (a b : Obj) : Py Bool :=
  if a.isTuple then
    if b.isTuple then return decide (a.comps = b.comps) else MI.eq b.comps a.comps
  else MI.eq a.comps b.comps

/-- An entry: the stored hash, the key (a reference to an object) and the value. -/
structure Entry (V : Type) where
  hash : Int
  key : Nat
  val : V

/-- `MultiIndex.__hash__` (multiindex.py 101-107): the hash of the tuple of the components. -/
def hashOf (hash : List Nat → Int) (mem : Mem) (k : Nat) : Int := hash (mem k).comps

/-- Whether an entry matches a key with hash `h`: the keys are only compared if the hashes agree. -/
def hit {V : Type} (mem : Mem) (h : Int) (k : Nat) (e : Entry V) : Py Bool :=
  if e.hash = h then
    if e.key = k then return true else keyEq (mem e.key) (mem k)
  else return false

/-- Search the entry of a key. -/
def find {V : Type} (mem : Mem) (h : Int) (k : Nat) : List (Entry V) → Py (Option V)
  | [] => return none
  | e :: d => do
    if ← hit mem h k e then return some e.val else find mem h k d

/-- `k in d` (piecewise_polynomial.py 98, continuous_piecewise_polynomial.py 101). -/
def contains {V : Type} (hash : List Nat → Int) (mem : Mem) (d : List (Entry V)) (k : Nat) : Py Bool := do
  let v ← find mem (hashOf hash mem k) k d
  return v.isSome

/-- `d[k]` (piecewise_polynomial.py 99, continuous_piecewise_polynomial.py 102). -/
def get {V : Type} (hash : List Nat → Int) (mem : Mem) (d : List (Entry V)) (k : Nat) : Py V := do
  match ← find mem (hashOf hash mem k) k d with
  | some v => return v
  | none => throw .key

/-- The assignment to an entry with a given hash; an existing entry keeps its key and its hash. -/
def setH {V : Type} (mem : Mem) (h : Int) (k : Nat) (v : V) : List (Entry V) → Py (List (Entry V))
  | [] => return [⟨h, k, v⟩]
  | e :: d => do
    if ← hit mem h k e then return ⟨e.hash, e.key, v⟩ :: d
    else
      let d ← setH mem h k v d
      return e :: d

/-- `d[k] = v` (piecewise_polynomial.py 166, 170, continuous_piecewise_polynomial.py 163-185; their keys are tuples). -/
def set {V : Type} (hash : List Nat → Int) (mem : Mem) (d : List (Entry V)) (k : Nat) (v : V) : Py (List (Entry V)) :=
  setH mem (hashOf hash mem k) k v d

/-- A sequence of assignments `d[k] = v` to an empty dictionary. -/
def fill {V : Type} (hash : List Nat → Int) (mem : Mem) : List (Nat × V) → List (Entry V) → Py (List (Entry V))
  | [], d => return d
  | (k, v) :: l, d => do
    let d ← set hash mem d k v
    fill hash mem l d

/-- `k[i] = c` (multiindex.py 87-96); tuples raise a TypeError. -/
def assign (mem : Mem) (k : Nat) (i c : Int) : Py Mem := do
  if (mem k).isTuple then throw .type
  let a ← MI.setItem (mem k).comps i c
  return Function.update mem k ⟨false, a⟩

/-- `tau(j, nu)` of piecewise_polynomial.py 95-102 for a given triangle, whose dictionary is `d`. -/
def tau (hash : List Nat → Int) (mem : Mem) (d : List (Entry Int)) (nu : Nat) : Py Int := do
  if ← contains hash mem d nu then get hash mem d nu else return -1

end Verif.MIDict
