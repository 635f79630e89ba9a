import Verif.Model.PiecewiseHeap
/-!
# Specification: programs that compute with piecewise polynomials as values

A piecewise polynomial is a value, with its own mesh, support and search tree, that never changes.
-/

namespace Verif.Spec.PPValues
open Verif Verif.Poly Verif.Simplex Verif.SPoly Verif.PP Verif.PPHeap

variable {K V : Type} [Field K] [LinearOrder K] [AddCommGroup V] [DecidableEq V] [Module K V] {m : Nat} {T : Type}

/-- Entry `a` of a list of values of the program. -/
def get {α : Type} (l : List α) (a : Nat) : Py α :=
  match l[a]? with
  | none => .error .runtime
  | some p => .ok p

/-- A computed piecewise polynomial is added to the values of the program. -/
def add (polys : List (PObj K V m (T × List Nat))) (p : Py (PObj K V m (T × List Nat))) : List (PObj K V m (T × List Nat)) × Py (Out K V m) :=
  match p with
  | .error e => (polys, .error e)
  | .ok p => (polys ++ [p], .ok .nothing)

/-- The arrays of a program. -/
structure Arrays (K : Type) (m : Nat) where
  index : List (List (List Nat))
  points : List (List (Fin m → K))

/-- The boundary simplices that are passed to the constructor. -/
def boundaryArg (A : Arrays K m) : Option Nat → Py (Option (List (List Nat)))
  | none => .ok none
  | some b => (get A.index b).map some

/-- One operation with piecewise polynomials with values in `V`. -/
noncomputable def ustep (S : Search K m T) (A : Arrays K m) (polys : List (PObj K V m (T × List Nat))) :
    UOp K V m → List (PObj K V m (T × List Nat)) × Py (Out K V m)
  | .new basis cont xs t v r boundary keepLast support => add polys (get A.index t >>= fun triangles => get A.points v >>= fun vertices =>
      boundaryArg A boundary >>= fun b => PObj.new (S.tree triangles vertices) basis cont xs triangles vertices r none b keepLast support none none)
  | .add a b => add polys (get polys a >>= fun p => get polys b >>= fun q => p.add q)
  | .sub a b => add polys (get polys a >>= fun p => get polys b >>= fun q => p.sub q)
  | .scale a c => add polys (get polys a >>= fun p => p.smul c)
  | .div a c => add polys (get polys a >>= fun p => p.divConst c)
  | .elevate a s => add polys (get polys a >>= fun p => p.degreeElevate s)
  | .call a x => (polys, (get polys a >>= fun p => p.call S.leafOf S.inside x).map .value)
  | .evaluate a j x => (polys, (get polys a >>= fun p => p.evaluateOnSimplex j x).map .value)
  | .restrict a j x => (polys, (get polys a >>= fun p => p.restrictToSimplex j >>= fun q => q.call x).map .value)
  | .coeff a => (polys, (get polys a).map (fun p => .coeffs p.coeff))
  | .support a => (polys, (get polys a).map (fun p => .set p.support))
  | .editSupport a s => (polys.modify a (fun p => { p with support := s }), (get polys a).map (fun _ => .nothing))
  | .mesh a => (polys, (get polys a).map (fun p => .mesh p.triangles p.vertices))

/-- All values of a program. -/
structure Store (K : Type) (m n : Nat) (T : Type) where
  arrays : Arrays K m
  scalars : List (PObj K K m (T × List Nat))
  vectors : List (PObj K (Fin n → K) m (T × List Nat))

/-- New values and result of an operation that computes a scalar valued piecewise polynomial. -/
def Store.scalarResult {n : Nat} (s : Store K m n T) (t : List (PObj K K m (T × List Nat)) × Py (Out K K m)) : Store K m n T × Result K m n :=
  ({ s with scalars := t.1 }, t.2.map .inl)

/-- New values and result of an operation that computes a vector valued piecewise polynomial. -/
def Store.vectorResult {n : Nat} (s : Store K m n T) (t : List (PObj K (Fin n → K) m (T × List Nat)) × Py (Out K (Fin n → K) m)) :
    Store K m n T × Result K m n :=
  ({ s with vectors := t.1 }, t.2.map .inr)

/-- One operation: new values and result. -/
noncomputable def Store.step {n : Nat} (S : Search K m T) (s : Store K m n T) : Op K m n → Store K m n T × Result K m n
  | .indexArray t => ({ s with arrays := { s.arrays with index := s.arrays.index ++ [t] } }, .ok (.inl .nothing))
  | .pointArray v => ({ s with arrays := { s.arrays with points := s.arrays.points ++ [v] } }, .ok (.inl .nothing))
  | .writeIndex l t => if s.arrays.index[l]?.map List.length = some t.length
      then ({ s with arrays := { s.arrays with index := s.arrays.index.set l t } }, .ok (.inl .nothing)) else (s, .error .value)
  | .writePoints l v => if s.arrays.points[l]?.map List.length = some v.length
      then ({ s with arrays := { s.arrays with points := s.arrays.points.set l v } }, .ok (.inl .nothing)) else (s, .error .value)
  | .scalar op => s.scalarResult (ustep S s.arrays s.scalars op)
  | .vector op => s.vectorResult (ustep S s.arrays s.vectors op)
  | .mul a b => s.scalarResult (add s.scalars (get s.scalars a >>= fun p => get s.scalars b >>= fun q => p.mul q))
  | .pow a k => s.scalarResult (add s.scalars (get s.scalars a >>= fun p => p.powNat k))
  | .component a i => s.scalarResult (add s.scalars (get s.vectors a >>= fun p => p.component i))
  | .powMulti a exp => s.scalarResult (add s.scalars (get s.vectors a >>= fun p => p.powMulti exp))
  | .outer a c => s.vectorResult (add s.vectors (get s.scalars a >>= fun p => p.outer c))
  | .weakScalar a i empty => s.scalarResult (add s.scalars (get s.scalars a >>= fun p => weakScalar p i empty))
  | .weakVector a i empty => s.vectorResult (add s.vectors (get s.vectors a >>= fun p => weakVector p i empty))

/-- The values of a program that has not done anything. -/
def Store.empty {n : Nat} : Store K m n T := ⟨⟨[], []⟩, [], []⟩

/-- The results of a history of operations. -/
noncomputable def Store.results {n : Nat} (S : Search K m T) (s : Store K m n T) : List (Op K m n) → List (Result K m n)
  | [] => []
  | op :: ops => (s.step S op).2 :: (s.step S op).1.results S ops

/-- The operation constructs a piecewise polynomial with the array of indices `l`, as triangles or as boundary simplices. -/
def UsesIndex {n : Nat} (l : Nat) (op : Op K m n) : Prop :=
  (∃ basis cont xs t v r b keepLast support, op = .scalar (.new basis cont xs t v r b keepLast support) ∧ (t = l ∨ b = some l)) ∨
  (∃ basis cont xs t v r b keepLast support, op = .vector (.new basis cont xs t v r b keepLast support) ∧ (t = l ∨ b = some l))

/-- The operation constructs a piecewise polynomial with the array of vertices `l`. -/
def UsesPoints {n : Nat} (l : Nat) (op : Op K m n) : Prop :=
  (∃ basis cont xs t r b keepLast support, op = .scalar (.new basis cont xs t l r b keepLast support)) ∨
  (∃ basis cont xs t r b keepLast support, op = .vector (.new basis cont xs t l r b keepLast support))

/-- The operation changes a set that `support()` returned. -/
def EditsSupport {n : Nat} (op : Op K m n) : Prop := (∃ a s, op = .scalar (.editSupport a s)) ∨ (∃ a s, op = .vector (.editSupport a s))

/-- The program does not assign to an array after it has constructed a piecewise polynomial with it, and does not change sets that `support()`
returned. -/
structure Careful {n : Nat} (ops : List (Op K m n)) : Prop where
  index : ∀ before l t after, ops = before ++ .writeIndex l t :: after → ∀ op ∈ before, ¬ UsesIndex l op
  points : ∀ before l v after, ops = before ++ .writePoints l v :: after → ∀ op ∈ before, ¬ UsesPoints l op
  sets : ∀ op ∈ ops, ¬ EditsSupport op

end Verif.Spec.PPValues
