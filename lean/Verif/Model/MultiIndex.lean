import Mathlib.Data.Nat.Factorial.Basic
import Mathlib.Data.Nat.Choose.Basic
import Mathlib.Algebra.Field.Rat
import Mathlib.Data.Rat.Defs
import Verif.Model.ModularArithmetic
/-!
# Model of `algebra/multiindex.py`

A multi-index is the list of its components. `List Nat` is used for values that passed the constructor's check
(lines 47-49), `List Int` for raw component sequences.
-/

namespace Verif.MI

open Verif

/-- `MultiIndex.__init__` (multiindex.py:32-49): raises ValueError when a component is negative. The different ways
of passing the components (several arguments, an iterable, a single integer) are not distinguished. -/
def mk? (components : List Int) : Py (List Nat) :=
  if components.any (· < 0) then .error .value else .ok (components.map Int.toNat)

/-- `MultiIndex.__setitem__` (87-96): a negative value raises ValueError before the assignment; a bad position raises
IndexError. Negative positions follow Python's convention. -/
def setItem (a : List Nat) (i : Int) (val : Int) : Py (List Nat) :=
  if val < 0 then .error .value else pySet a i val.toNat

/-- `MultiIndex.__eq__` (109-120). -/
def eq (a b : List Nat) : Py Bool :=
  if a.length ≠ b.length then .error .value else .ok ((a.zip b).all (fun p => p.1 == p.2))

/-- `MultiIndex.__add__`/`__radd__` (134-160): `map(add, self, other)` stops at the shorter operand; `other` may be any
integer sequence. -/
def add (a : List Nat) (b : List Int) : Py (List Nat) :=
  mk? (List.zipWith (fun (x : Nat) (y : Int) => (x : Int) + y) a b)

/-- `MultiIndex.__sub__` (162-176). -/
def sub (a : List Nat) (b : List Int) : Py (List Nat) :=
  mk? (List.zipWith (fun (x : Nat) (y : Int) => (x : Int) - y) a b)

/-- `MultiIndex.__rsub__` (178-190). -/
def rsub (a : List Nat) (b : List Int) : Py (List Nat) :=
  mk? (List.zipWith (fun (x : Nat) (y : Int) => y - (x : Int)) a b)

/-- `zero_multiindex` (221-234). -/
def zero (n : Nat) : List Nat := List.replicate n 0

/-- `unit_multiindex` (237-256). -/
def unit (n : Nat) (i : Int) : Py (List Nat) := setItem (zero n) i 1

/-- `norm` (259-266). -/
def norm (a : List Nat) : Nat := a.sum

/-- `factorial` (269-279): loop `f *= math.factorial(a[i])`. -/
def factorial (a : List Nat) : Nat := a.foldl (fun f k => f * k.factorial) 1

/-- The loop of `power` (291-294). -/
def powerLoop {K : Type*} [Monoid K] : K → List K → List Nat → K
  | p, x :: xs, k :: ks => powerLoop (p * x ^ k) xs ks
  | p, _, _ => p

/-- `power` (282-294): lengths must agree (AssertionError). -/
def power {K : Type*} [Monoid K] (x : List K) (a : List Nat) : Py K :=
  if x.length = a.length then .ok (powerLoop 1 x a) else .error .assertion

/-- `binom` (297-310): `/` is true division, here exact in `ℚ`; `a - b` raises ValueError if a component is negative. -/
def binom (a b : List Nat) : Py ℚ := do
  let d ← sub a (b.map Int.ofNat)
  return (factorial a : ℚ) / ((factorial b : ℚ) * (factorial d : ℚ))

/-- `multinom` (313-325). -/
def multinom (a : List Nat) : ℚ := ((norm a).factorial : ℚ) / (factorial a : ℚ)

/-- `general_to_exact_norm` (549-570). -/
def generalToExactNorm (a : List Nat) (r : Int) : Py (List Nat) :=
  if (norm a : Int) ≤ r then mk? ((r - norm a) :: a.map Int.ofNat) else .error .assertion

/-- `exact_norm_to_general` (573-584): `a[1:]`. -/
def exactNormToGeneral (a : List Nat) : List Nat := a.drop 1

/-- `multinom_general` (328-344). -/
def multinomGeneral (r : Int) (a : List Nat) : Py ℚ := do
  let e ← generalToExactNorm a r
  return multinom e

/-- The loop of `is_increasing` (364-366) on consecutive entries. -/
def isIncreasingLoop : List Nat → Bool
  | x :: y :: t => if y ≤ x then false else isIncreasingLoop (y :: t)
  | _ => true

/-- `is_increasing` (347-367). -/
def isIncreasing (a : List Nat) : Bool := if a.length = 1 then true else isIncreasingLoop a

/-- The loop of `is_non_decreasing` (389-391). -/
def isNonDecreasingLoop : List Nat → Bool
  | x :: y :: t => if y < x then false else isNonDecreasingLoop (y :: t)
  | _ => true

/-- `is_non_decreasing` (370-392). -/
def isNonDecreasing (a : List Nat) : Bool := if a.length = 1 then true else isNonDecreasingLoop a

/-! ## `MultiIndexIterator` (602-653) -/

/-- The attributes of `MultiIndexIterator` (606-615). -/
structure Iter where
  n : Nat
  r : Nat
  norm : Int
  components : Option (List Nat)
  help : List IntMod

/-- `MultiIndexIterator.__init__` (606-615), for `r ≥ 0`. -/
def Iter.init (n r : Nat) : Iter :=
  { n := n, r := r, norm := 0, components := none, help := List.replicate n (IntMod.red 0 (r + 1)) }

/-- `_increase_component(i)` (634-653). The position `i` is represented by the suffixes `components[i:]` and
`help_components[i:]` (both arrays have length `n`, so `i >= n` is the empty suffix). Returns the updated `_norm`,
suffixes, and whether StopIteration was raised (the mutations made before raising persist). -/
def increaseComponent (r : Nat) : Int → List Nat → List IntMod → Int × List Nat × List IntMod × Bool
  | nrm, c :: cs, h :: hs =>
    if nrm = r then
      let (nrm', cs', hs', stop) := increaseComponent r (nrm - c) cs hs
      (nrm', 0 :: cs', IntMod.red 0 (r + 1) :: hs', stop)
    else
      let h' := IntMod.red (h.i + 1) h.n
      if h'.i = 0 then
        let (nrm', cs', hs', stop) := increaseComponent r (nrm - c) cs hs
        (nrm', 0 :: cs', h' :: hs', stop)
      else
        (nrm + 1, (c + 1) :: cs, h' :: hs, false)
  | nrm, cs, hs => (nrm, cs, hs, true)

/-- `__next__` (620-625). -/
def Iter.next (it : Iter) : Py (List Nat) × Iter :=
  match it.components with
  | none => (.ok (zero it.n), { it with components := some (zero it.n) })
  | some cs =>
    let (nrm, cs', hs', stop) := increaseComponent it.r it.norm cs it.help
    let it' := { it with norm := nrm, components := some cs', help := hs' }
    if stop then (.error .stopIteration, it') else (.ok cs', it')

/-- A `for` loop over the iterator that collects the items; `none` means that `fuel` steps did not reach StopIteration. -/
def drain : Nat → Iter → Option (List (List Nat))
  | 0, _ => none
  | fuel + 1, it =>
    match it.next with
    | (.ok mi, it') => (drain fuel it').map (mi :: ·)
    | (.error _, _) => some []

/-- Number of `next` calls that `generateAll` allows for. `Props.generate_all_terminates` shows that StopIteration is
reached within this bound. -/
def fuelFor (n r : Nat) : Nat := (r + 1) ^ n + 1

/-- `generate_all` (395-407) for `r ≥ 0`. -/
def generateAll (n r : Nat) : List (List Nat) := (drain (fuelFor n r) (Iter.init n r)).getD []

/-- `generate_all` (395-407) including the assertion. -/
def generateAll? (n : Nat) (r : Int) : Py (List (List Nat)) :=
  if 0 ≤ r then .ok (generateAll n r.toNat) else .error .assertion

/-- Call `next` `j` times, ignoring the values (461-478). -/
def skip : Nat → Iter → Py Iter
  | 0, it => .ok it
  | j + 1, it =>
    match it.next with
    | (.ok _, it') => skip j it'
    | (.error e, _) => .error e

/-- `generate` (461-479). -/
def generate (n r i : Nat) : Py (List Nat) := do
  let it ← skip i (Iter.init n r)
  it.next.1

/-- The search loop of `get_index` (527-533) over the remaining items, starting with counter `idx`. -/
def getIndexLoop (mi : List Nat) : Nat → List (List Nat) → Py Nat
  | _, [] => .error .value
  | idx, mi2 :: rest => do
    let e ← eq mi mi2
    if e then return idx else getIndexLoop mi (idx + 1) rest

/-- A cache as in `multiindex_order_cache.py`: for `(n, r)` a dictionary from multi-indices to positions. -/
abbrev OrderCache := List ((Nat × Nat) × List (List Nat × Nat))

/-- `get_index` (508-533). A missing entry in an existing cache dictionary raises KeyError (line 525). -/
def getIndexWith (cache : OrderCache) (mi : List Nat) (r : Int) : Py Nat :=
  if (norm mi : Int) ≤ r then
    match cache.lookup (mi.length, r.toNat) with
    | some d =>
      match d.lookup mi with
      | some i => .ok i
      | none => .error .key
    | none => getIndexLoop mi 0 (generateAll mi.length r.toNat)
  else .error .assertion

/-- `num_multiindices` (536-546); SciPy's floating point `binom` is modelled by the exact binomial coefficient. -/
def numMultiindices (n r : Nat) : Nat := (n + r).choose r

/-- `generate_all_exact_norm` (423-432), for `n ≥ 1`. -/
def generateAllExactNorm (n r : Nat) : Py (List (List Nat)) :=
  (generateAll (n - 1) r).mapM (fun mi => generalToExactNorm mi r)

/-- `random_multiindex` (587-599) with the drawn integer `i` (uniform in `[0, num_multiindices)`) as a parameter. -/
def randomMultiindex (n r i : Nat) : Py (List Nat) := generate n r i

/-! ## `MultiIndexIteratorMultiCap` (656-698) -/

/-- The attributes of `MultiIndexIteratorMultiCap` (660-670). -/
structure CapIter where
  n : Nat
  components : Option (List Nat)
  help : List IntMod

/-- `MultiIndexIteratorMultiCap.__init__` (660-670) with `n = len(r)`. -/
def CapIter.init (r : List Nat) : CapIter :=
  { n := r.length, components := none, help := r.map (fun (ri : Nat) => IntMod.red 0 ((ri : Int) + 1)) }

/-- `_increase_component` (689-698), suffix representation as in `increaseComponent`. -/
def increaseCap : List Nat → List IntMod → List Nat × List IntMod × Bool
  | c :: cs, h :: hs =>
    let h' := IntMod.red (h.i + 1) h.n
    if h'.i = 0 then
      let (cs', hs', stop) := increaseCap cs hs
      (0 :: cs', h' :: hs', stop)
    else
      ((c + 1) :: cs, h' :: hs, false)
  | cs, hs => (cs, hs, true)

/-- `__next__` (675-680). -/
def CapIter.next (it : CapIter) : Py (List Nat) × CapIter :=
  match it.components with
  | none => (.ok (zero it.n), { it with components := some (zero it.n) })
  | some cs =>
    let (cs', hs', stop) := increaseCap cs it.help
    let it' := { it with components := some cs', help := hs' }
    if stop then (.error .stopIteration, it') else (.ok cs', it')

/-- Collecting `for` loop, as `drain`. -/
def drainCap : Nat → CapIter → Option (List (List Nat))
  | 0, _ => none
  | fuel + 1, it =>
    match it.next with
    | (.ok mi, it') => (drainCap fuel it').map (mi :: ·)
    | (.error _, _) => some []

/-- `generate_all_multi_cap` (410-420). The fuel is the number of items plus one. -/
def generateAllMultiCap (r : List Nat) : List (List Nat) :=
  (drainCap ((r.map (· + 1)).prod + 1) (CapIter.init r)).getD []

/-- The digit loop of `generate_multi_cap` (501-505). -/
def multiCapDigits : List Nat → Nat → List Nat
  | [], _ => []
  | rj :: rs, i => (i % (rj + 1)) :: multiCapDigits rs (i / (rj + 1))

/-- `generate_multi_cap` (482-505) for a sequence `r`. -/
def generateMultiCap (r : List Nat) (i : Nat) : List Nat := multiCapDigits r i

/-- `generate_all_increasing` (435-445). -/
def generateAllIncreasing (n r : Nat) : List (List Nat) :=
  (generateAllMultiCap (List.replicate n r)).filter isIncreasing

/-- `generate_all_non_decreasing` (448-458). -/
def generateAllNonDecreasing (n r : Nat) : List (List Nat) :=
  (generateAllMultiCap (List.replicate n r)).filter isNonDecreasing

end Verif.MI
