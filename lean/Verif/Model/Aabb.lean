import Mathlib.Order.Lattice
import Mathlib.Order.Defs.LinearOrder
import Mathlib.Order.BoundedOrder.Basic
import Mathlib.Algebra.Group.Defs
import Mathlib.Algebra.Field.Defs
import Verif.Py
/-!
# Model of `geometry/proximity/aabb.py`

An axis aligned box is the pair of its minimum and maximum point; points are lists of coordinates. The coordinates are elements of a
linearly ordered type `α` (with least and greatest elements standing for `-inf` and `inf` where these occur). `is_equal` and `diameter` are in
`Verif/Model/AabbReal.lean`.
-/

namespace Verif.Aabb
open Verif

variable {α : Type _}

/-- A box: minimum point and maximum point. -/
abbrev Box (α : Type _) := List α × List α

/-- `empty` (15-22). -/
def empty [LE α] [BoundedOrder α] (n : Nat) : Box α := (List.replicate n ⊤, List.replicate n ⊥)

/-- `unit` (25-32). -/
def unit [Zero α] [One α] (n : Nat) : Box α := (List.replicate n 0, List.replicate n 1)

/-- `full` (35-49). -/
def full [LE α] [BoundedOrder α] (n : Nat) : Box α := (List.replicate n ⊥, List.replicate n ⊤)

/-- `create` (52-61) for a list of points of equal length: `np.amin`/`np.amax` along the first axis. No points: ValueError.
Points of different lengths do not form an array: ValueError. -/
def create [LinearOrder α] : List (List α) → Py (Box α)
  | [] => .error .value
  | p :: ps =>
    if ps.all (fun q => q.length == p.length) then
      .ok (ps.foldl (List.zipWith min) p, ps.foldl (List.zipWith max) p)
    else .error .value

/-- `dimension` (110-118). -/
def dimension (b : Box α) : Nat := b.1.length

/-- The loop of `is_valid` (88-91) over the given coordinates. -/
def validLoop [LinearOrder α] (b : Box α) : List Nat → Py Bool
  | [] => .ok true
  | i :: is => do
    let lo ← getE b.1 i
    let hi ← getE b.2 i
    if lo > hi then return false else validLoop b is

/-- `is_valid` (80-91). -/
def isValid [LinearOrder α] (b : Box α) : Py Bool := validLoop b (List.range (dimension b))

/-- `volume` (168-182). -/
def volume [LinearOrder α] [Sub α] [Mul α] [One α] (b : Box α) : Py (Option α) := do
  let v ← isValid b
  if !v then return none
  let vol ← (List.range (dimension b)).foldlM (fun (vol : α) (i : Nat) => do
    let hi ← getE b.2 i
    let lo ← getE b.1 i
    return vol * (hi - lo)) 1
  return some vol

/-- `is_empty` (64-77). -/
def isEmpty [LinearOrder α] [Sub α] [Mul α] [One α] (b : Box α) : Py Bool := do
  let v ← volume b
  return v.isNone

/-- `midpoint` (121-135). -/
def midpoint [LinearOrder α] [Field α] (b : Box α) : Py (Option (List α)) := do
  let v ← isValid b
  if !v then return none
  let mp ← (List.range (dimension b)).mapM (fun (i : Nat) => do
    let lo ← getE b.1 i
    let hi ← getE b.2 i
    return 1 / 2 * (lo + hi))
  return some mp

/-- `half_diagonal` (138-152). -/
def halfDiagonal [LinearOrder α] [Field α] (b : Box α) : Py (Option (List α)) := do
  let v ← isValid b
  if !v then return none
  let hd ← (List.range (dimension b)).mapM (fun (i : Nat) => do
    let hi ← getE b.2 i
    let lo ← getE b.1 i
    return 1 / 2 * (hi - lo))
  return some hd

/-- `union` (185-198): the arrays are filled coordinate by coordinate. -/
def union [LinearOrder α] (a b : Box α) : Py (Box α) := do
  let rows ← (List.range (dimension a)).mapM (fun (i : Nat) => do
    let a0 ← getE a.1 i
    let b0 ← getE b.1 i
    let a1 ← getE a.2 i
    let b1 ← getE b.2 i
    return (min a0 b0, max a1 b1))
  return (rows.map Prod.fst, rows.map Prod.snd)

/-- `intersection` (201-214). -/
def intersection [LinearOrder α] (a b : Box α) : Py (Box α) := do
  let rows ← (List.range (dimension a)).mapM (fun (i : Nat) => do
    let a0 ← getE a.1 i
    let b0 ← getE b.1 i
    let a1 ← getE a.2 i
    let b1 ← getE b.2 i
    return (max a0 b0, min a1 b1))
  return (rows.map Prod.fst, rows.map Prod.snd)

/-- `corner` (217-237) for a box of the dimension given by the first argument (the recursion removes the last coordinate). In dimension 0
the recursion does not end: RecursionError (a RuntimeError). -/
def cornerRec : Nat → Box α → Nat → Py (List α)
  | 0, _, _ => .error .runtime
  | 1, b, i => getE [b.1, b.2] i
  | n + 2, b, i =>
    if i ≥ 2 ^ (n + 1) then do
      let upc ← cornerRec (n + 1) (b.1.take (n + 1), b.2.take (n + 1)) (i - 2 ^ (n + 1))
      let x ← getE b.2 (n + 1)
      return upc ++ [x]
    else do
      let lpc ← cornerRec (n + 1) (b.1.take (n + 1), b.2.take (n + 1)) i
      let x ← getE b.1 (n + 1)
      return lpc ++ [x]

/-- `corner` (217-237). -/
def corner (b : Box α) (i : Nat) : Py (List α) := cornerRec (dimension b) b i

/-- `in_closed_range` (real_interval.py 19-29). -/
def inClosedRange [LinearOrder α] (s lo hi : α) : Bool := decide (lo ≤ s) && decide (s ≤ hi)

/-- The loop of `point_inside` (250-253) over the given coordinates. -/
def insideLoop [LinearOrder α] (b : Box α) (p : List α) : List Nat → Py Bool
  | [] => .ok true
  | i :: is => do
    let s ← getE p i
    let lo ← getE b.1 i
    let hi ← getE b.2 i
    if !inClosedRange s lo hi then return false else insideLoop b p is

/-- `point_inside` (240-253). -/
def pointInside [LinearOrder α] (b : Box α) (p : List α) : Py Bool := insideLoop b p (List.range p.length)

end Verif.Aabb
