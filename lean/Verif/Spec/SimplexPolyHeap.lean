import Verif.Model.SimplexPolyHeap
/-!
# Specification: programs that compute with polynomials on simplices as values

A polynomial is a value, with its own vertices, that never changes.
-/

namespace Verif.Spec.SPolyValues
open Verif Verif.Poly Verif.Simplex Verif.SPoly Verif.SPolyHeap

variable {K V : Type} [Field K] [DecidableEq K] [AddCommGroup V] [Module K V] {m : Nat}

/-- Entry `a` of a list of values of the program. -/
def get {α : Type} (l : List α) (a : Nat) : Py α :=
  match l[a]? with
  | none => .error .runtime
  | some p => .ok p

/-- A computed polynomial is added to the values of the program. -/
def add (polys : List (SObj K V m)) (p : Py (SObj K V m)) : List (SObj K V m) × Py (Out K V m) :=
  match p with
  | .error e => (polys, .error e)
  | .ok p => (polys ++ [p], .ok .nothing)

/-- One operation with polynomials with values in `V`. -/
noncomputable def ustep (arrays : List (Vertices K m m)) (polys : List (SObj K V m)) : UOp K V m → List (SObj K V m) × Py (Out K V m)
  | .new basis xs l r => add polys (get arrays l >>= fun v => SObj.new basis xs v r)
  | .add a b => add polys (get polys a >>= fun p => get polys b >>= fun q => p.add q)
  | .sub a b => add polys (get polys a >>= fun p => get polys b >>= fun q => p.sub q)
  | .scale a c => add polys (get polys a >>= fun p => p.smul c)
  | .div a c => add polys (get polys a >>= fun p => p.divConst c)
  | .derivative a i => add polys (get polys a >>= fun p => p.partialDerivative i)
  | .elevate a s => add polys (get polys a >>= fun p => p.degreeElevate s)
  | .call a x => (polys, (get polys a >>= fun p => p.call x).map .value)
  | .coeff a => (polys, (get polys a).map (fun p => .coeffs p.poly.coeff))
  | .simplexVertices a => (polys, (get polys a).map (fun p => .simplex p.vertices))

/-- All values of a program. -/
structure Store (K : Type) (m n : Nat) where
  arrays : List (Vertices K m m)
  scalars : List (SObj K K m)
  vectors : List (SObj K (Fin n → K) m)

/-- One operation: new values and result. -/
noncomputable def Store.step {n : Nat} (s : Store K m n) : Op K m n → Store K m n × Result K m n
  | .array v => ({ s with arrays := s.arrays ++ [v] }, .ok (.inl .nothing))
  | .write l v => if l < s.arrays.length then ({ s with arrays := s.arrays.set l v }, .ok (.inl .nothing)) else (s, .error .runtime)
  | .scalar op => ({ s with scalars := (ustep s.arrays s.scalars op).1 }, (ustep s.arrays s.scalars op).2.map .inl)
  | .vector op => ({ s with vectors := (ustep s.arrays s.vectors op).1 }, (ustep s.arrays s.vectors op).2.map .inr)
  | .mul a b =>
    let t := add s.scalars (get s.scalars a >>= fun p => get s.scalars b >>= fun q => p.mul q)
    ({ s with scalars := t.1 }, t.2.map .inl)
  | .pow a k =>
    let t := add s.scalars (get s.scalars a >>= fun p => p.powNat k)
    ({ s with scalars := t.1 }, t.2.map .inl)
  | .component a i =>
    let t := add s.scalars (get s.vectors a >>= fun p => p.component i)
    ({ s with scalars := t.1 }, t.2.map .inl)
  | .powMulti a exp =>
    let t := add s.scalars (get s.vectors a >>= fun p => p.powMulti exp)
    ({ s with scalars := t.1 }, t.2.map .inl)
  | .outer a c =>
    let t := add s.vectors (get s.scalars a >>= fun p => p.outer c)
    ({ s with vectors := t.1 }, t.2.map .inr)

/-- The values of a program that has not done anything. -/
def Store.empty {n : Nat} : Store K m n := ⟨[], [], []⟩

/-- The results of a history of operations. -/
noncomputable def Store.results {n : Nat} (s : Store K m n) : List (Op K m n) → List (Result K m n)
  | [] => []
  | op :: ops => (s.step op).2 :: (s.step op).1.results ops

/-- The operation constructs a polynomial on the simplex with vertices `l`. -/
def Uses {n : Nat} (l : Nat) (op : Op K m n) : Prop :=
  (∃ basis xs r, op = .scalar (.new basis xs l r)) ∨ (∃ basis xs r, op = .vector (.new basis xs l r))

/-- The program does not assign to an array of vertices after it has constructed a polynomial with it. -/
def Careful {n : Nat} (ops : List (Op K m n)) : Prop :=
  ∀ before l v after, ops = before ++ .write l v :: after → ∀ op ∈ before, ¬ Uses l op

end Verif.Spec.SPolyValues
