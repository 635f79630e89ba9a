import Verif.Model.MultiIndex
/-!
# `MultiIndex` objects in a heap

`MultiIndex(components)` keeps a reference to `components` when it is a list (multiindex.py:40-41) and copies it otherwise.
This model makes the sharing visible: a heap of Python lists, and multi-index objects that point into it.
-/

namespace Verif.MIHeap
open Verif

/-- `lists`: all list objects; `objs`: for each MultiIndex object the list its `_components` refers to. -/
structure Heap where
  lists : List (List Int)
  objs : List Nat
  deriving DecidableEq, Repr

/-- What a program can do with multi-indices. -/
inductive Op where
  /-- the program creates a list of integers -/
  | userList (xs : List Int)
  /-- the program assigns `l[i] = v` to one of its lists, behind the back of MultiIndex -/
  | userSet (l i : Nat) (v : Int)
  /-- `MultiIndex(l)` for a list object `l` -/
  | ctorList (l : Nat)
  /-- `MultiIndex(t)` for a tuple / array / several arguments -/
  | ctorCopy (xs : List Int)
  /-- `a[i] = v` -/
  | setItem (a : Nat) (i : Int) (v : Int)
  /-- `a + b`, both MultiIndex -/
  | add (a b : Nat)
  /-- `a - b`, both MultiIndex -/
  | sub (a b : Nat)
  /-- `a + t` or `t + a` for an integer sequence `t` -/
  | addSeq (a : Nat) (xs : List Int)
  /-- `a - t` -/
  | subSeq (a : Nat) (xs : List Int)
  /-- `t - a` -/
  | rsubSeq (a : Nat) (xs : List Int)
  deriving DecidableEq, Repr

def Heap.empty : Heap := ⟨[], []⟩

/-- The components of object `a`. A dangling reference cannot occur (`RuntimeError` stands for it). -/
def Heap.comps (h : Heap) (a : Nat) : Py (List Int) :=
  match h.objs[a]? with
  | none => .error .runtime
  | some l =>
    match h.lists[l]? with
    | none => .error .runtime
    | some xs => .ok xs

/-- `MultiIndex.__init__` on list `xs` stored at cell `l` (multiindex.py:47-49): reject negative components. -/
def Heap.finish (h : Heap) (h' : Heap) (xs : List Int) (l : Nat) : Heap × Py Unit :=
  if xs.any (· < 0) then (h, .error .value) else ({ h' with objs := h'.objs ++ [l] }, .ok ())

/-- Build a MultiIndex from a fresh list. -/
def Heap.fresh (h : Heap) (xs : List Int) : Heap × Py Unit :=
  h.finish { h with lists := h.lists ++ [xs] } xs h.lists.length

/-- Binary operation on the components of `a` and a sequence (multiindex.py:134-190, `map` stops at the shorter one). -/
def Heap.binSeq (h : Heap) (f : Int → Int → Int) (a : Nat) (ys : List Int) : Heap × Py Unit :=
  match h.comps a with
  | .error e => (h, .error e)
  | .ok xs => h.fresh (List.zipWith f xs ys)

/-- One operation: new heap and its outcome. -/
def step (h : Heap) : Op → Heap × Py Unit
  | .userList xs => ({ h with lists := h.lists ++ [xs] }, .ok ())
  | .userSet l i v =>
    match h.lists[l]? with
    | none => (h, .error .runtime)
    | some xs =>
      if i < xs.length then ({ h with lists := h.lists.set l (xs.set i v) }, .ok ()) else (h, .error .index)
  | .ctorList l =>
    match h.lists[l]? with
    | none => (h, .error .runtime)
    | some xs => h.finish h xs l
  | .ctorCopy xs => h.fresh xs
  | .setItem a i v =>
    match h.objs[a]? with
    | none => (h, .error .runtime)
    | some l =>
      match h.lists[l]? with
      | none => (h, .error .runtime)
      | some xs =>
        if v < 0 then (h, .error .value)
        else
          match pySet xs i v with
          | .error e => (h, .error e)
          | .ok xs' => ({ h with lists := h.lists.set l xs' }, .ok ())
  | .add a b =>
    match h.comps b with
    | .error e => (h, .error e)
    | .ok ys => h.binSeq (· + ·) a ys
  | .sub a b =>
    match h.comps b with
    | .error e => (h, .error e)
    | .ok ys => h.binSeq (· - ·) a ys
  | .addSeq a ys => h.binSeq (· + ·) a ys
  | .subSeq a ys => h.binSeq (· - ·) a ys
  | .rsubSeq a ys => h.binSeq (fun x y => y - x) a ys

/-- A history of operations from the empty heap. -/
def run (ops : List Op) : Heap := ops.foldl (fun h op => (step h op).1) Heap.empty

end Verif.MIHeap
