import Verif.Model.PiecewiseDual
import Verif.Model.PiecewisePow
/-!
# Piecewise polynomials and the arrays and sets they refer to

`PiecewisePolynomialBase.__init__` (piecewise_polynomial/piecewise_polynomial.py, PP below) keeps references to the arrays `triangles`, `vertices` and
`boundary_simplices` (PP 525-527), to a given set `support` (PP 546-547) and to a given search tree (PP 560-561); the coefficients are copied (PP 518, 881-897).
PB and PL are the files piecewise_polynomial_bernstein_basis.py and piecewise_polynomial_lagrange_basis.py, CB and CL the same for continuous
functions. Operations on piecewise polynomials construct the result with `self.triangles`, `self.vertices`, `self.boundary_simplices`, `self._bsp_tree` and in some
cases `self.support()`, so that these objects are shared. The root of a search tree refers to the set for which the tree was built
(`_get_potentially_intersecting_simplices`, simplicial_mesh_kd_tree.py:159-164). The local-to-global map and the basis polynomials are
computed in the constructor; the map only refers to `len(triangles)`, which cannot change. This model makes the sharing visible: arrays, sets, and piecewise
polynomial objects that point to them.

Assignments to arrays keep the shape. The dual basis is not part of these programs. The search tree is a parameter.
-/

namespace Verif.PPHeap
open Verif Verif.Poly Verif.Simplex Verif.SPoly Verif.PP

variable {K V : Type} [Field K] [LinearOrder K] [AddCommGroup V] [DecidableEq V] [Module K V] {m : Nat} {T : Type}

/-- The search for the simplex of a point: `create_kd_tree` (PP 563-565) as a function of triangles, vertices and support; `find_leaf_containing_point` and
`potentially_intersecting_simplices` (PP 628-629) as a function of the tree and the present content of the set that its root refers to; `inside_simplex`. -/
structure Search (K : Type) (m : Nat) (T : Type) where
  create : List (List Nat) → List (Fin m → K) → List Nat → Py T
  leaf : T → List Nat → (Fin m → K) → Py (List Nat)
  inside : (Fin m → K) → Vertices K m m → Bool

/-- The search in a tree together with the set that its root refers to. -/
def Search.leafOf (S : Search K m T) (t : T × List Nat) (x : Fin m → K) : Py (List Nat) := S.leaf t.1 t.2 x

/-- Creation of a tree, whose root refers to the set `support`. -/
def Search.tree (S : Search K m T) (triangles : List (List Nat)) (vertices : List (Fin m → K)) (support : List Nat) : Py (T × List Nat) := do
  let t ← S.create triangles vertices support
  return (t, support)

/-- The arrays of indices (triangles and boundary simplices), the arrays of points, and the sets. -/
structure Memory (K : Type) (m : Nat) where
  index : List (List (List Nat))
  points : List (List (Fin m → K))
  sets : List (List Nat)

/-- Where the attributes of an object are stored. -/
structure Addr where
  triangles : Nat
  vertices : Nat
  boundary : Option Nat
  support : Nat
  /-- the set that the root of the search tree refers to -/
  root : Nat

/-- A piecewise polynomial object. The fields of `body` for which there is an address are those at the time of construction; they are not used. -/
structure Ref (K V : Type) (m : Nat) (T : Type) where
  body : PObj K V m (T × List Nat)
  addr : Addr

/-- Dereferencing. A dangling reference cannot occur (`RuntimeError` stands for it). -/
def deref {α : Type} (l : List α) (a : Nat) : Py α :=
  match l[a]? with
  | none => .error .runtime
  | some v => .ok v

/-- Dereferencing `boundary_simplices`. -/
def derefOption {α : Type} (l : List α) : Option Nat → Py (Option α)
  | none => .ok none
  | some a => (deref l a).map some

/-- What the methods of an object see: the present content of the arrays and sets. -/
def Ref.now (M : Memory K m) (p : Ref K V m T) : Py (PObj K V m (T × List Nat)) := do
  let t ← deref M.index p.addr.triangles
  let v ← deref M.points p.addr.vertices
  let b ← derefOption M.index p.addr.boundary
  let s ← deref M.sets p.addr.support
  let root ← deref M.sets p.addr.root
  return { p.body with triangles := t, vertices := v, boundary := b, support := s, tree := (p.body.tree.1, root) }

/-- What the methods of object `a` see. -/
def view (M : Memory K m) (polys : List (Ref K V m T)) (a : Nat) : Py (PObj K V m (T × List Nat)) := do
  let p ← deref polys a
  p.now M

/-- The results that a program can look at. -/
inductive Out (K V : Type) (m : Nat) where
  | nothing
  | value (v : V)
  | coeffs (xs : List V)
  | set (s : List Nat)
  | mesh (triangles : List (List Nat)) (vertices : List (Fin m → K))

/-- Operations with piecewise polynomials with values in `V` (`a`, `b`: numbers of piecewise polynomials). -/
inductive UOp (K V : Type) (m : Nat) where
  /-- construct a piecewise polynomial with coefficients `xs` on the mesh with triangles `t` and vertices `v` (numbers of arrays), possibly with boundary
  simplices and a new set as support -/
  | new (basis : Basis) (cont : Bool) (xs : List V) (t v : Nat) (r : Nat) (boundary : Option Nat) (keepLast : Bool) (support : Option (List Nat))
  /-- `a + b` -/
  | add (a b : Nat)
  /-- `a - b` -/
  | sub (a b : Nat)
  /-- `a * c` for a number `c` -/
  | scale (a : Nat) (c : K)
  /-- `a / c` -/
  | div (a : Nat) (c : K)
  /-- `a.degree_elevate(s)` -/
  | elevate (a s : Nat)
  /-- `a(x)` -/
  | call (a : Nat) (x : Fin m → K)
  /-- `a.evaluate_on_simplex(j, x)` -/
  | evaluate (a j : Nat) (x : Fin m → K)
  /-- `a.restrict_to_simplex(j)(x)` -/
  | restrict (a j : Nat) (x : Fin m → K)
  /-- look at `a.coeff` -/
  | coeff (a : Nat)
  /-- look at `a.support()` -/
  | support (a : Nat)
  /-- change the set `a.support()`; afterwards it contains `s` -/
  | editSupport (a : Nat) (s : List Nat)
  /-- look at `a.triangles` and `a.vertices` -/
  | mesh (a : Nat)

/-- Operations of a program. -/
inductive Op (K : Type) (m n : Nat) where
  /-- create an array of triangles or of boundary simplices -/
  | indexArray (t : List (List Nat))
  /-- create an array of vertices -/
  | pointArray (v : List (Fin m → K))
  /-- assign to the entries of the array of indices `l`; afterwards it contains `t` -/
  | writeIndex (l : Nat) (t : List (List Nat))
  /-- assign to the entries of the array of vertices `l`; afterwards it contains `v` -/
  | writePoints (l : Nat) (v : List (Fin m → K))
  | scalar (op : UOp K K m)
  | vector (op : UOp K (Fin n → K) m)
  /-- `a * b` -/
  | mul (a b : Nat)
  /-- `a ** k` -/
  | pow (a k : Nat)
  /-- `a[i]` of a vector valued piecewise polynomial -/
  | component (a i : Nat)
  /-- `a * c` for a vector `c` -/
  | outer (a : Nat) (c : Fin n → K)
  /-- `a ** exp` for a multi-index `exp` and a vector valued piecewise polynomial -/
  | powMulti (a : Nat) (exp : List Nat)
  /-- `a.weak_partial_derivative(i)`; `empty` is what `np.empty` returns -/
  | weakScalar (a i : Nat) (empty : Nat → List K)
  /-- `a.weak_partial_derivative(i)` of a vector valued piecewise polynomial -/
  | weakVector (a i : Nat) (empty : Nat → List (Fin n → K))

/-- The references with which a result is constructed: a missing `support` stands for a new set, a missing `root` for a new search tree. -/
structure Origin where
  triangles : Nat
  vertices : Nat
  boundary : Option Nat
  support : Option Nat
  root : Option Nat

/-- The new object, its references, and its set if that is new; an exception leaves everything as it was. -/
def result (sets : List (List Nat)) (polys : List (Ref K V m T)) (o : Option Origin) (p : Py (PObj K V m (T × List Nat))) :
    List (List Nat) × List (Ref K V m T) × Py (Out K V m) :=
  match p, o with
  | .error e, _ => (sets, polys, .error e)
  | .ok _, none => (sets, polys, .error .runtime)
  | .ok p, some o =>
    match o.support with
    | some s => (sets, polys ++ [⟨p, ⟨o.triangles, o.vertices, o.boundary, s, o.root.getD s⟩⟩], .ok .nothing)
    | none => (sets ++ [p.support], polys ++ [⟨p, ⟨o.triangles, o.vertices, o.boundary, sets.length, o.root.getD sets.length⟩⟩], .ok .nothing)

/-- The references of a result that is constructed with `self.triangles`, `self.vertices`, `self.boundary_simplices`, `self._bsp_tree` and either
`self.support()` or a new set. -/
def originOf (polys : List (Ref K V m T)) (a : Nat) (shared : Bool) : Option Origin :=
  polys[a]?.map (fun p => ⟨p.addr.triangles, p.addr.vertices, p.addr.boundary, if shared then some p.addr.support else none, some p.addr.root⟩)

/-- A query leaves everything as it was. -/
def query (sets : List (List Nat)) (polys : List (Ref K V m T)) (p : Py (Out K V m)) : List (List Nat) × List (Ref K V m T) × Py (Out K V m) := (sets, polys, p)

/-- Changing the set that `a.support()` returns. -/
def editSupport (sets : List (List Nat)) (polys : List (Ref K V m T)) (a : Nat) (s : List Nat) :
    List (List Nat) × List (Ref K V m T) × Py (Out K V m) :=
  match polys[a]? with
  | none => (sets, polys, .error .runtime)
  | some p => (sets.set p.addr.support s, polys, .ok .nothing)

/-- The constructor, called with arrays `t`, `v` and `boundary`. -/
noncomputable def construct (S : Search K m T) (M : Memory K m) (basis : Basis) (cont : Bool) (xs : List V) (t v : Nat) (r : Nat) (boundary : Option Nat)
    (keepLast : Bool) (support : Option (List Nat)) : Py (PObj K V m (T × List Nat)) := do
  let triangles ← deref M.index t
  let vertices ← deref M.points v
  let b ← derefOption M.index boundary
  PObj.new (S.tree triangles vertices) basis cont xs triangles vertices r none b keepLast support none none

/-- One operation with piecewise polynomials with values in `V`. Sums and differences have a new set as support (PP 718-719, 746-747); multiples with a
number other than zero (PP 785-792), quotients (PP 814-815) and degree elevations (PB 193-195, 216, PL 198-200, 221) share the set with the operand. -/
noncomputable def ustep (S : Search K m T) (M : Memory K m) (polys : List (Ref K V m T)) :
    UOp K V m → List (List Nat) × List (Ref K V m T) × Py (Out K V m)
  | .new basis cont xs t v r boundary keepLast support =>
    result M.sets polys (some ⟨t, v, boundary, none, none⟩) (construct S M basis cont xs t v r boundary keepLast support)
  | .add a b => result M.sets polys (originOf polys a false) (do
      let p ← view M polys a
      let q ← view M polys b
      p.add q)
  | .sub a b => result M.sets polys (originOf polys a false) (do
      let p ← view M polys a
      let q ← view M polys b
      p.sub q)
  | .scale a c => result M.sets polys (originOf polys a (decide (c ≠ 0))) (do
      let p ← view M polys a
      p.smul c)
  | .div a c => result M.sets polys (originOf polys a true) (do
      let p ← view M polys a
      p.divConst c)
  | .elevate a s => result M.sets polys (originOf polys a true) (do
      let p ← view M polys a
      p.degreeElevate s)
  | .call a x => query M.sets polys (do
      let p ← view M polys a
      let y ← p.call S.leafOf S.inside x
      return .value y)
  | .evaluate a j x => query M.sets polys (do
      let p ← view M polys a
      let y ← p.evaluateOnSimplex j x
      return .value y)
  | .restrict a j x => query M.sets polys (do
      let p ← view M polys a
      let q ← p.restrictToSimplex j
      let y ← q.call x
      return .value y)
  | .coeff a => query M.sets polys (do
      let p ← view M polys a
      return .coeffs p.coeff)
  | .support a => query M.sets polys (do
      let p ← view M polys a
      return .set p.support)
  | .editSupport a s => editSupport M.sets polys a s
  | .mesh a => query M.sets polys (do
      let p ← view M polys a
      return .mesh p.triangles p.vertices)

/-- The state: arrays and sets, scalar valued and vector valued piecewise polynomials. -/
structure Heap (K : Type) (m n : Nat) (T : Type) where
  mem : Memory K m
  scalars : List (Ref K K m T)
  vectors : List (Ref K (Fin n → K) m T)

/-- The result of an operation. -/
abbrev Result (K : Type) (m n : Nat) := Py (Out K K m ⊕ Out K (Fin n → K) m)

/-- The new state and the result of an operation that computes a scalar valued piecewise polynomial. -/
def Heap.scalarResult {n : Nat} (h : Heap K m n T) (s : List (List Nat) × List (Ref K K m T) × Py (Out K K m)) : Heap K m n T × Result K m n :=
  (⟨{ h.mem with sets := s.1 }, s.2.1, h.vectors⟩, s.2.2.map .inl)

/-- The new state and the result of an operation that computes a vector valued piecewise polynomial. -/
def Heap.vectorResult {n : Nat} (h : Heap K m n T) (s : List (List Nat) × List (Ref K (Fin n → K) m T) × Py (Out K (Fin n → K) m)) :
    Heap K m n T × Result K m n :=
  (⟨{ h.mem with sets := s.1 }, h.scalars, s.2.1⟩, s.2.2.map .inr)

/-- Is the support of `a ** exp` the set of the operand (PL 156-179)? -/
def powShares {n : Nat} (polys : List (Ref K (Fin n → K) m T)) (a : Nat) (exp : List Nat) : Bool :=
  match polys[a]? with
  | none => false
  | some p => decide (p.body.basis = .lagrange) && decide (p.body.r * MI.norm exp ≠ 0)

/-- `weak_partial_derivative` (method dispatch; only the classes of continuous functions have it). -/
noncomputable def weakScalar (p : PObj K K m (T × List Nat)) (i : Nat) (empty : Nat → List K) : Py (PObj K K m (T × List Nat)) :=
  if p.cont then
    match p.basis with
    | .lagrange => weakPartialDerivativeLagrange empty p i
    | _ => weakPartialDerivativeBernstein empty p i
  else .error .attribute

/-- `weak_partial_derivative` of a vector valued function (method dispatch). -/
noncomputable def weakVector {n : Nat} (p : PObj K (Fin n → K) m (T × List Nat)) (i : Nat) (empty : Nat → List (Fin n → K)) :
    Py (PObj K (Fin n → K) m (T × List Nat)) :=
  if p.cont then
    match p.basis with
    | .lagrange => weakPartialDerivativeLagrange empty p i
    | _ => weakPartialDerivativeBernsteinVector empty p i
  else .error .attribute

/-- One operation: new state and result. Products (PB 119, PL 118), components (PP 694-696), powers with exponent 0 and from 2 and multi-index powers in the
Bernstein basis have a new set as support; `a ** 1` (PB 153-156, PL 151-154) and multi-index powers of positive degree in the Lagrange basis (PL 178-179)
and weak derivatives (CB 121-123, CL 117-119) share the set with the operand. -/
noncomputable def Heap.step {n : Nat} (S : Search K m T) (h : Heap K m n T) : Op K m n → Heap K m n T × Result K m n
  | .indexArray t => ({ h with mem := { h.mem with index := h.mem.index ++ [t] } }, .ok (.inl .nothing))
  | .pointArray v => ({ h with mem := { h.mem with points := h.mem.points ++ [v] } }, .ok (.inl .nothing))
  | .writeIndex l t => if h.mem.index[l]?.map List.length = some t.length
      then ({ h with mem := { h.mem with index := h.mem.index.set l t } }, .ok (.inl .nothing)) else (h, .error .value)
  | .writePoints l v => if h.mem.points[l]?.map List.length = some v.length
      then ({ h with mem := { h.mem with points := h.mem.points.set l v } }, .ok (.inl .nothing)) else (h, .error .value)
  | .scalar op => h.scalarResult (ustep S h.mem h.scalars op)
  | .vector op => h.vectorResult (ustep S h.mem h.vectors op)
  | .mul a b => h.scalarResult (result h.mem.sets h.scalars (originOf h.scalars a false) (do
      let p ← view h.mem h.scalars a
      let q ← view h.mem h.scalars b
      p.mul q))
  | .pow a k => h.scalarResult (result h.mem.sets h.scalars (originOf h.scalars a (decide (k = 1))) (do
      let p ← view h.mem h.scalars a
      p.powNat k))
  | .component a i => h.scalarResult (result h.mem.sets h.scalars (originOf h.vectors a false) (do
      let p ← view h.mem h.vectors a
      p.component i))
  | .powMulti a exp => h.scalarResult (result h.mem.sets h.scalars (originOf h.vectors a (powShares h.vectors a exp)) (do
      let p ← view h.mem h.vectors a
      p.powMulti exp))
  | .outer a c => h.vectorResult (result h.mem.sets h.vectors (originOf h.scalars a (decide (c ≠ 0))) (do
      let p ← view h.mem h.scalars a
      p.outer c))
  | .weakScalar a i empty => h.scalarResult (result h.mem.sets h.scalars (originOf h.scalars a true) (do
      let p ← view h.mem h.scalars a
      weakScalar p i empty))
  | .weakVector a i empty => h.vectorResult (result h.mem.sets h.vectors (originOf h.vectors a true) (do
      let p ← view h.mem h.vectors a
      weakVector p i empty))

/-- The state before a program does anything. -/
def Heap.empty {n : Nat} : Heap K m n T := ⟨⟨[], [], []⟩, [], []⟩

/-- The state after a history of operations. -/
noncomputable def Heap.after {n : Nat} (S : Search K m T) (h : Heap K m n T) (ops : List (Op K m n)) : Heap K m n T :=
  ops.foldl (fun h op => (h.step S op).1) h

/-- The results of a history of operations. -/
noncomputable def Heap.results {n : Nat} (S : Search K m T) (h : Heap K m n T) : List (Op K m n) → List (Result K m n)
  | [] => []
  | op :: ops => (h.step S op).2 :: (h.step S op).1.results S ops

end Verif.PPHeap
