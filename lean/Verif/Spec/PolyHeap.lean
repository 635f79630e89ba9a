import Verif.Model.PolyHeap
/-!
# Specification: programs that compute with polynomials as values

Here a polynomial is a value that never changes, and an array of the program changes only when the program assigns to it. The operations are those of
the value model (`Obj.add`, `Obj.mul`, `Obj.call`, ...), which the other properties relate to the mathematical operations. There are no addresses, no
compiled functions and no class attributes.
-/

namespace Verif.Spec.PolyValues
open Verif Verif.Poly Verif.PolyHeap

variable {K V : Type} [Field K] [DecidableEq K] [AddCommGroup V] [Module K V]

/-- The arrays of the program, and the polynomials it has constructed, in the order of their creation. -/
structure Values (V : Type) where
  arrays : List (List V)
  polys : List (Obj V)

/-- The polynomial `a`. -/
def Values.get (s : Values V) (a : Nat) : Py (Obj V) :=
  match s.polys[a]? with
  | none => .error .runtime
  | some p => .ok p

/-- The array `l`. -/
def Values.array (s : Values V) (l : Nat) : Py (List V) :=
  match s.arrays[l]? with
  | none => .error .runtime
  | some xs => .ok xs

/-- An operation that gives a polynomial adds it to the polynomials of the program, unless it raises an exception. -/
def Values.add (s : Values V) (p : Py (Obj V)) : Values V × Py (Out V) :=
  match p with
  | .error e => (s, .error e)
  | .ok p => ({ s with polys := s.polys ++ [p] }, .ok .nothing)

/-- Assignment to an entry of the array `l`. -/
def Values.assign (s : Values V) (l i : Nat) (v : V) : Values V × Py (Out V) :=
  match (do
    let xs ← s.array l
    setE xs i v) with
  | .error e => (s, .error e)
  | .ok xs => ({ s with arrays := s.arrays.set l xs }, .ok .nothing)

/-- One operation. Assignments to the coefficients of a polynomial have no meaning here. -/
noncomputable def Values.step (s : Values V) : UOp K V → Values V × Py (Out V)
  | .array xs => ({ s with arrays := s.arrays ++ [xs] }, .ok .nothing)
  | .write l i v => s.assign l i v
  | .read l => (s, (s.array l).map .array)
  | .new basis l r m => s.add (s.array l >>= fun xs => Obj.new basis xs r m)
  | .newList basis xs r m => s.add (Obj.new basis xs r m)
  | .copy a => s.add (s.get a)
  | .add a b => s.add (s.get a >>= fun p => s.get b >>= fun q => p.add K q)
  | .sub a b => s.add (s.get a >>= fun p => s.get b >>= fun q => p.sub K q)
  | .scale a c => s.add (s.get a >>= fun p => p.smul c)
  | .div a c => s.add (s.get a >>= fun p => p.divConst c)
  | .derivative a i => s.add (s.get a >>= fun p => p.partialDerivative K i)
  | .elevate a k => s.add (s.get a >>= fun p => p.degreeElevate K k)
  | .toMonomial a => s.add (s.get a >>= fun p => p.toMonomialBasis K)
  | .call a x => (s, (s.get a >>= fun p => p.call x).map .value)
  | .coeff a => (s, (s.get a).map (fun p => .array p.coeff))
  | .coeffWrite _ _ _ => (s, .ok .nothing)

/-- All values of a program. -/
structure Store (K : Type) (n : Nat) where
  scalars : Values K
  vectors : Values (Fin n → K)

/-- One operation: new values and result. -/
noncomputable def Store.step {n : Nat} (s : Store K n) : Op K n → Store K n × Result K n
  | .scalar op => (⟨(s.scalars.step op).1, s.vectors⟩, (s.scalars.step op).2.map .inl)
  | .vector op => (⟨s.scalars, (s.vectors.step op).1⟩, (s.vectors.step op).2.map .inr)
  | .mul a b =>
    let t := s.scalars.add (s.scalars.get a >>= fun p => s.scalars.get b >>= fun q => p.mul q)
    (⟨t.1, s.vectors⟩, t.2.map .inl)
  | .pow a k =>
    let t := s.scalars.add (s.scalars.get a >>= fun p => p.powNat k)
    (⟨t.1, s.vectors⟩, t.2.map .inl)
  | .component a i =>
    let t := s.scalars.add (s.vectors.get a >>= fun p => p.component i)
    (⟨t.1, s.vectors⟩, t.2.map .inl)
  | .powMulti a exp =>
    let t := s.scalars.add (s.vectors.get a >>= fun p => p.powMulti exp)
    (⟨t.1, s.vectors⟩, t.2.map .inl)
  | .outer a c =>
    let t := s.vectors.add (s.scalars.get a >>= fun p => p.outer c)
    (⟨s.scalars, t.1⟩, t.2.map .inr)

/-- The values of a program that has not done anything. -/
def Store.empty {n : Nat} : Store K n := ⟨⟨[], []⟩, ⟨[], []⟩⟩

/-- The results of a history of operations. -/
noncomputable def Store.results {n : Nat} (s : Store K n) : List (Op K n) → List (Result K n)
  | [] => []
  | op :: ops => (s.step op).2 :: (s.step op).1.results ops

end Verif.Spec.PolyValues
