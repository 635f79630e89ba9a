import Verif.Model.SimplexPolynomial
/-!
# Polynomials on simplices and the arrays of vertices they refer to

`PolynomialSimplexBase.__init__` keeps a reference to the array of vertices (`self.vertices = vertices`, polynomials_simplex_base.py:96), and every
polynomial that is computed from another one is constructed with `self.vertices`, so it refers to the same array. The map to the unit simplex
(`_a`, `_b`, `_phi_inv`, polynomials_simplex_bernstein_basis.py:78-79, polynomials_simplex_lagrange_basis.py:139-140) is computed once, in the
constructor. This model makes the sharing visible: arrays of vertices, and polynomial objects that point to them. The coefficients are copied by the
constructor (see `Verif.Model.PolyHeap`), so they are part of the objects here.
-/

namespace Verif.SPolyHeap
open Verif Verif.Poly Verif.Simplex Verif.SPoly

variable {K V : Type} [Field K] [DecidableEq K] [AddCommGroup V] [Module K V] {m : Nat}

/-- A polynomial object: the polynomial on the unit simplex, the array `vertices`, and the map to the unit simplex. -/
structure Ref (K V : Type) (m : Nat) where
  poly : Obj V
  addr : Nat
  phi : Affine K m m

/-- What the methods of object `a` see: the present content of the array of vertices. A dangling reference cannot occur (`RuntimeError` stands for it). -/
def view (arrays : List (Vertices K m m)) (polys : List (Ref K V m)) (a : Nat) : Py (SObj K V m) :=
  match polys[a]? with
  | none => .error .runtime
  | some p =>
    match arrays[p.addr]? with
    | none => .error .runtime
    | some v => .ok ⟨p.poly, v, p.phi⟩

/-- The results that a program can look at. -/
inductive Out (K V : Type) (m : Nat) where
  | nothing
  | value (v : V)
  | coeffs (xs : List V)
  | simplex (v : Vertices K m m)

/-- Operations with polynomials with values in `V` (`a`, `b`: numbers of polynomials, `l`: number of an array of vertices). -/
inductive UOp (K V : Type) (m : Nat) where
  /-- construct a polynomial with coefficients `xs` on the simplex with vertices `l` -/
  | new (basis : Basis) (xs : List V) (l : Nat) (r : Option Nat)
  /-- `a + b` -/
  | add (a b : Nat)
  /-- `a - b` -/
  | sub (a b : Nat)
  /-- `a * c` for a number `c` -/
  | scale (a : Nat) (c : K)
  /-- `a / c` -/
  | div (a : Nat) (c : K)
  /-- `a.partial_derivative(i)` -/
  | derivative (a i : Nat)
  /-- `a.degree_elevate(s)` -/
  | elevate (a s : Nat)
  /-- `a(x)` -/
  | call (a : Nat) (x : Fin m → K)
  /-- look at `a.coeff` -/
  | coeff (a : Nat)
  /-- look at `a.simplex_vertices()` -/
  | simplexVertices (a : Nat)

/-- Operations of a program. -/
inductive Op (K : Type) (m n : Nat) where
  /-- create an array of vertices -/
  | array (v : Vertices K m m)
  /-- assign to the entries of the array `l`; afterwards it contains `v` -/
  | write (l : Nat) (v : Vertices K m m)
  | scalar (op : UOp K K m)
  | vector (op : UOp K (Fin n → K) m)
  /-- `a * b` -/
  | mul (a b : Nat)
  /-- `a ** k` -/
  | pow (a k : Nat)
  /-- `a[i]` of a vector valued polynomial -/
  | component (a : Nat) (i : Fin n)
  /-- `a * c` for a vector `c` -/
  | outer (a : Nat) (c : Fin n → K)
  /-- `a ** exp` for a multi-index `exp` and a vector valued polynomial -/
  | powMulti (a : Nat) (exp : List Nat)

/-- The new object refers to the array `l`; an exception leaves everything as it was. -/
def result (polys : List (Ref K V m)) (l : Option Nat) (p : Py (SObj K V m)) : List (Ref K V m) × Py (Out K V m) :=
  match p, l with
  | .error e, _ => (polys, .error e)
  | .ok p, some l => (polys ++ [⟨p.poly, l, p.phi⟩], .ok .nothing)
  | .ok _, none => (polys, .error .runtime)

/-- The content of array `l`. -/
def arrayAt (arrays : List (Vertices K m m)) (l : Nat) : Py (Vertices K m m) :=
  match arrays[l]? with
  | none => .error .runtime
  | some v => .ok v

/-- The array that `self.vertices` of an object refers to. -/
def addrOf (polys : List (Ref K V m)) (a : Nat) : Option Nat := polys[a]?.map Ref.addr

/-- One operation with polynomials with values in `V`; results are constructed with `self.vertices`. -/
noncomputable def ustep (arrays : List (Vertices K m m)) (polys : List (Ref K V m)) : UOp K V m → List (Ref K V m) × Py (Out K V m)
  | .new basis xs l r => result polys (some l) (do
      let v ← arrayAt arrays l
      SObj.new basis xs v r)
  | .add a b => result polys (addrOf polys a) (do
      let p ← view arrays polys a
      let q ← view arrays polys b
      p.add q)
  | .sub a b => result polys (addrOf polys a) (do
      let p ← view arrays polys a
      let q ← view arrays polys b
      p.sub q)
  | .scale a c => result polys (addrOf polys a) (do
      let p ← view arrays polys a
      p.smul c)
  | .div a c => result polys (addrOf polys a) (do
      let p ← view arrays polys a
      p.divConst c)
  | .derivative a i => result polys (addrOf polys a) (do
      let p ← view arrays polys a
      p.partialDerivative i)
  | .elevate a s => result polys (addrOf polys a) (do
      let p ← view arrays polys a
      p.degreeElevate s)
  | .call a x => (polys, do
      let p ← view arrays polys a
      let y ← p.call x
      return .value y)
  | .coeff a => (polys, (view arrays polys a).map (fun p => .coeffs p.poly.coeff))
  | .simplexVertices a => (polys, (view arrays polys a).map (fun p => .simplex p.vertices))

/-- The state: arrays of vertices, scalar valued and vector valued polynomials. -/
structure Heap (K : Type) (m n : Nat) where
  arrays : List (Vertices K m m)
  scalars : List (Ref K K m)
  vectors : List (Ref K (Fin n → K) m)

/-- The result of an operation. -/
abbrev Result (K : Type) (m n : Nat) := Py (Out K K m ⊕ Out K (Fin n → K) m)

/-- One operation: new state and result. -/
noncomputable def Heap.step {n : Nat} (h : Heap K m n) : Op K m n → Heap K m n × Result K m n
  | .array v => ({ h with arrays := h.arrays ++ [v] }, .ok (.inl .nothing))
  | .write l v => if l < h.arrays.length then ({ h with arrays := h.arrays.set l v }, .ok (.inl .nothing)) else (h, .error .runtime)
  | .scalar op => ({ h with scalars := (ustep h.arrays h.scalars op).1 }, (ustep h.arrays h.scalars op).2.map .inl)
  | .vector op => ({ h with vectors := (ustep h.arrays h.vectors op).1 }, (ustep h.arrays h.vectors op).2.map .inr)
  | .mul a b =>
    let s := result h.scalars (addrOf h.scalars a) (do
      let p ← view h.arrays h.scalars a
      let q ← view h.arrays h.scalars b
      p.mul q)
    ({ h with scalars := s.1 }, s.2.map .inl)
  | .pow a k =>
    let s := result h.scalars (addrOf h.scalars a) (do
      let p ← view h.arrays h.scalars a
      p.powNat k)
    ({ h with scalars := s.1 }, s.2.map .inl)
  | .component a i =>
    let s := result h.scalars (addrOf h.vectors a) (do
      let p ← view h.arrays h.vectors a
      p.component i)
    ({ h with scalars := s.1 }, s.2.map .inl)
  | .powMulti a exp =>
    let s := result h.scalars (addrOf h.vectors a) (do
      let p ← view h.arrays h.vectors a
      p.powMulti exp)
    ({ h with scalars := s.1 }, s.2.map .inl)
  | .outer a c =>
    let s := result h.vectors (addrOf h.scalars a) (do
      let p ← view h.arrays h.scalars a
      p.outer c)
    ({ h with vectors := s.1 }, s.2.map .inr)

/-- The state before a program does anything. -/
def Heap.empty {n : Nat} : Heap K m n := ⟨[], [], []⟩

/-- The state after a history of operations. -/
noncomputable def Heap.after {n : Nat} (h : Heap K m n) (ops : List (Op K m n)) : Heap K m n := ops.foldl (fun h op => (h.step op).1) h

/-- The results of a history of operations. -/
noncomputable def Heap.results {n : Nat} (h : Heap K m n) : List (Op K m n) → List (Result K m n)
  | [] => []
  | op :: ops => (h.step op).2 :: (h.step op).1.results ops

end Verif.SPolyHeap
