import Verif.Model.PolynomialOps
/-!
# Polynomial objects in a heap

`PolynomialBase.__init__` copies the array of coefficients (`_to_numpy_array`, polynomials_base.py:175, 448-464), and the constructors of the three
classes compile an evaluation function for the coefficients at that time (polynomials_monomial_basis.py:62-67,
polynomials_unit_simplex_bernstein_basis.py:77-93, polynomials_unit_simplex_lagrange_basis.py:250-255). The other models treat polynomials as values; this
one makes the sharing and the mutable state visible: a memory of NumPy arrays, objects that point into it, and the class attribute
`PolynomialLagrange._basis_polynomials_monomial_form` (polynomials_unit_simplex_lagrange_basis.py:247-248, 420).

Not included: conversion to another basis with dual basis functions (`convert_polynomial_to_basis`), changes of the attributes other than the entries of
`coeff`, and entries of the class attribute that are made by temporary objects inside of an operation (they would be the same as those made later).
-/

namespace Verif.PolyHeap
open Verif Verif.Poly

variable {K V : Type} [Field K] [DecidableEq K] [AddCommGroup V] [Module K V]

/-- A polynomial object: the array `coeff` it points to, and the compiled function `_eval_fn`, given by the coefficients it was generated for. -/
structure Ref (V : Type) where
  basis : Basis
  cell : Nat
  r : Nat
  m : Nat
  code : List V

/-- The arrays (with entries in `V`: numbers, or rows of a matrix), those of them that the program created itself, and the polynomial objects. -/
structure Mem (V : Type) where
  cells : List (List V)
  arrays : List Nat
  polys : List (Ref V)

/-- `PolynomialLagrange._basis_polynomials_monomial_form` (polynomials_unit_simplex_lagrange_basis.py:420): the key is `(m, r)`. -/
abbrev Memo (K : Type) := List ((Nat × Nat) × List (Obj K))

/-- What the methods of an object see: an object with the present content of `coeff`, and one with the coefficients of the compiled function. -/
structure View (V : Type) where
  stored : Obj V
  code : Obj V

/-- The object `a`. A dangling reference cannot occur (`RuntimeError` stands for it). -/
def Mem.view (h : Mem V) (a : Nat) : Py (View V) :=
  match h.polys[a]? with
  | none => .error .runtime
  | some p =>
    match h.cells[p.cell]? with
    | none => .error .runtime
    | some c => .ok ⟨⟨p.basis, c, p.r, p.m⟩, ⟨p.basis, p.code, p.r, p.m⟩⟩

/-! ## Methods -/

/-- `degree_elevate` (polynomials_monomial_basis.py:217-238, polynomials_unit_simplex_bernstein_basis.py:265-295,
polynomials_unit_simplex_lagrange_basis.py:394-408): the Lagrange class evaluates the object, the others read `coeff`. -/
noncomputable def View.elevate (K : Type) {V : Type} [Field K] [DecidableEq K] [AddCommGroup V] [Module K V] (v : View V) (s : Nat) : Py (Obj V) :=
  match v.stored.basis with
  | .monomial => degreeElevateMonomial v.stored s
  | .bernstein => degreeElevateBernstein K v.stored s
  | .lagrange => if s = v.stored.r then degreeElevateLagrange K v.stored s else degreeElevateLagrange K v.code s

/-- `__add__`, `__sub__` (polynomials_base.py:275-317). -/
noncomputable def View.combine (K : Type) {V : Type} [Field K] [DecidableEq K] [AddCommGroup V] [Module K V] (op : V → V → V) (v w : View V) :
    Py (Obj V) := do
  pyAssert (decide (v.stored.m = w.stored.m))
  pyAssert (decide (v.stored.basis = w.stored.basis))
  if v.stored.r = w.stored.r then combineSame op v.stored w.stored
  else if v.stored.r > w.stored.r then
    let w' ← w.elevate K v.stored.r
    combineSame op v.stored w'
  else
    let v' ← v.elevate K w.stored.r
    combineSame op v' w.stored

/-- `__mul__` for two polynomials (polynomials_monomial_basis.py:105-140, polynomials_unit_simplex_bernstein_basis.py:131-170,
polynomials_unit_simplex_lagrange_basis.py:293-306): the Lagrange class evaluates both objects. -/
noncomputable def View.mul (v w : View K) : Py (Obj K) :=
  match v.stored.basis with
  | .monomial => mulMonomial v.stored w.stored
  | .bernstein => mulBernstein v.stored w.stored
  | .lagrange => mulLagrange v.code w.code

/-- A new object sees the coefficients it was made with. -/
def View.ofObj (p : Obj V) : View V := ⟨p, p⟩

/-- `__pow__` with an integer exponent (polynomials_monomial_basis.py:156-163, polynomials_unit_simplex_bernstein_basis.py:186-193,
polynomials_unit_simplex_lagrange_basis.py:322-329). -/
noncomputable def View.powNat (v : View K) : Nat → Py (Obj K)
  | 0 => unitOf v.stored.basis K 0 v.stored.m
  | 1 => Obj.new v.stored.basis v.stored.coeff (some v.stored.r) v.stored.m
  | k + 2 => do
    let q ← v.powNat (k + 1)
    v.mul (.ofObj q)

/-- `__pow__` with a multi-index exponent (polynomials_monomial_basis.py:164-170, polynomials_unit_simplex_bernstein_basis.py:194-205,
polynomials_unit_simplex_lagrange_basis.py:330-342). -/
noncomputable def View.powMulti {n : Nat} (v : View (Fin n → K)) (exp : List Nat) : Py (Obj K) :=
  match v.stored.basis with
  | .monomial => powMultiMonomial v.stored exp
  | .bernstein => powMultiBernstein v.stored exp
  | .lagrange => powMultiLagrange v.code exp

/-- `to_monomial_basis` of the Bernstein and Lagrange classes (polynomials_unit_simplex_bernstein_basis.py:304-306,
polynomials_unit_simplex_lagrange_basis.py:417-418); the Lagrange class looks up its basis polynomials. (For the monomial class see `copyPoly`.) -/
noncomputable def toMonomial (memo : Memo K) (p : Obj V) : Py (Obj V) :=
  match p.basis with
  | .lagrange => do
    let basis ← keyE (memo.lookup (p.m, p.r))
    let z ← zeroPolynomial .monomial V 0 p.m
    sumScaled K (p.coeff.zip basis) z
  | _ => p.toMonomialBasis K

/-- `partial_derivative` (polynomials_monomial_basis.py:180-199, polynomials_unit_simplex_bernstein_basis.py:215-245,
polynomials_unit_simplex_lagrange_basis.py:352-374). -/
noncomputable def derivative (memo : Memo K) (p : Obj V) (i : Nat) : Py (Obj V) :=
  match p.basis with
  | .monomial => partialDerivativeMonomial p i
  | .bernstein => partialDerivativeBernstein K p i
  | .lagrange => do
    pyAssert (decide (i < p.m))
    if p.r = 0 then zeroPolynomial .lagrange V 0 p.m
    else
      let q ← toMonomial memo p
      let dp ← partialDerivativeMonomial q i
      let coeff ← fillLoop (fun (x : List K) => dp.call x)
        (generateLagrangePoints K p.m (p.r - 1)) 0 (zeros V (getDimension (p.r - 1) p.m))
      Obj.new .lagrange coeff (some (p.r - 1)) p.m

/-! ## Operations of a program -/

/-- The results that a program can look at. -/
inductive Out (V : Type) where
  | nothing
  | value (v : V)
  | array (xs : List V)

/-- What a program does with polynomials with values in `V` (`l`: number of one of its arrays, `a`, `b`: numbers of polynomials). -/
inductive UOp (K V : Type) where
  /-- `np.array(xs)` -/
  | array (xs : List V)
  /-- `l[i] = v` -/
  | write (l i : Nat) (v : V)
  /-- look at the entries of `l` -/
  | read (l : Nat)
  /-- construct a polynomial from the array `l` -/
  | new (basis : Basis) (l : Nat) (r : Option Nat) (m : Nat)
  /-- construct a polynomial from a list -/
  | newList (basis : Basis) (xs : List V) (r : Option Nat) (m : Nat)
  /-- `copy.deepcopy(a)`, also `derivative(a, alpha)` for `alpha = 0` and `to_monomial_basis` of a polynomial in the monomial basis -/
  | copy (a : Nat)
  /-- `a + b` -/
  | add (a b : Nat)
  /-- `a - b` -/
  | sub (a b : Nat)
  /-- `a * c` for a number `c` -/
  | scale (a : Nat) (c : K)
  /-- `a / c` -/
  | div (a : Nat) (c : K)
  /-- `a.partial_derivative(i)` -/
  | derivative (a i : Nat)
  /-- `a.degree_elevate(s)` -/
  | elevate (a s : Nat)
  /-- `a.to_monomial_basis()` -/
  | toMonomial (a : Nat)
  /-- `a(x)` -/
  | call (a : Nat) (x : List K)
  /-- look at `a.coeff` -/
  | coeff (a : Nat)
  /-- `a.coeff[i] = v`, behind the back of the object -/
  | coeffWrite (a i : Nat) (v : V)

/-- Operations with scalar valued and vector valued polynomials. -/
inductive Op (K : Type) (n : Nat) where
  | scalar (op : UOp K K)
  | vector (op : UOp K (Fin n → K))
  /-- `a * b` -/
  | mul (a b : Nat)
  /-- `a ** k` -/
  | pow (a k : Nat)
  /-- `a[i]` of a vector valued polynomial -/
  | component (a : Nat) (i : Fin n)
  /-- `a * c` for a vector `c` -/
  | outer (a : Nat) (c : Fin n → K)
  /-- `a ** exp` for a multi-index `exp` and a vector valued polynomial -/
  | powMulti (a : Nat) (exp : List Nat)

/-- The program assigns to the coefficients of a polynomial object. -/
def Op.writesCoeff {n : Nat} : Op K n → Bool
  | .scalar (.coeffWrite ..) => true
  | .vector (.coeffWrite ..) => true
  | _ => false

/-- The entry for `(m, r)` of the class attribute is made by the constructor if there is none (polynomials_unit_simplex_lagrange_basis.py:246-248). -/
noncomputable def Memo.ensure (memo : Memo K) (m r : Nat) : Py (Memo K) :=
  match memo.lookup (m, r) with
  | some _ => .ok memo
  | none => do
    let l ← lagrangeBasisMonomial K r m
    return memo ++ [((m, r), l)]

/-- A new object for the coefficients in `p` (`__init__` of the three classes): a new array with a copy of the coefficients, and a function compiled for
them. -/
noncomputable def Mem.make (h : Mem V) (memo : Memo K) (p : Obj V) : Mem V × Memo K × Py (Out V) :=
  match (if p.basis = .lagrange then memo.ensure p.m p.r else .ok memo) with
  | .error e => (h, memo, .error e)
  | .ok memo' =>
    ({ h with cells := h.cells ++ [p.coeff], polys := h.polys ++ [⟨p.basis, h.cells.length, p.r, p.m, p.coeff⟩] }, memo', .ok .nothing)

/-- An operation that computes an object: an exception leaves the memory as it was. -/
noncomputable def Mem.result (h : Mem V) (memo : Memo K) (p : Py (Obj V)) : Mem V × Memo K × Py (Out V) :=
  match p with
  | .error e => (h, memo, .error e)
  | .ok p => h.make memo p

/-- `copy.deepcopy` of an object (polynomials_monomial_basis.py:247, polynomials_calculus.py:83): the array is copied, the compiled function is not compiled
again. -/
def Mem.copyPoly (h : Mem V) (memo : Memo K) (a : Nat) : Mem V × Memo K × Py (Out V) :=
  match h.polys[a]?, h.view a with
  | some p, .ok v => ({ h with cells := h.cells ++ [v.stored.coeff], polys := h.polys ++ [{ p with cell := h.cells.length }] }, memo, .ok .nothing)
  | _, .error e => (h, memo, .error e)
  | none, .ok _ => (h, memo, .error .runtime)

/-- Apply a function to the array at address `l`. -/
def Mem.cell (h : Mem V) (l : Nat) : Py (List V) :=
  match h.arrays[l]? with
  | none => .error .runtime
  | some k =>
    match h.cells[k]? with
    | none => .error .runtime
    | some c => .ok c

/-- Assignment to an entry of the array with address `k`; an index that is out of range raises IndexError. -/
def Mem.assign (h : Mem V) (memo : Memo K) (k : Option Nat) (i : Nat) (v : V) : Mem V × Memo K × Py (Out V) :=
  match k with
  | none => (h, memo, .error .runtime)
  | some k =>
    match h.cells[k]? with
    | none => (h, memo, .error .runtime)
    | some c =>
      match setE c i v with
      | .error e => (h, memo, .error e)
      | .ok c' => ({ h with cells := h.cells.set k c' }, memo, .ok .nothing)

/-- One operation with polynomials with values in `V`. -/
noncomputable def Mem.step (h : Mem V) (memo : Memo K) : UOp K V → Mem V × Memo K × Py (Out V)
  | .array xs => ({ h with cells := h.cells ++ [xs], arrays := h.arrays ++ [h.cells.length] }, memo, .ok .nothing)
  | .write l i v => h.assign memo h.arrays[l]? i v
  | .read l => (h, memo, (h.cell l).map .array)
  | .new basis l r m => h.result memo (do
      let c ← h.cell l
      Obj.new basis c r m)
  | .newList basis xs r m => h.result memo (Obj.new basis xs r m)
  | .copy a => h.copyPoly memo a
  | .add a b => h.result memo (do
      let v ← h.view a
      let w ← h.view b
      v.combine K (· + ·) w)
  | .sub a b => h.result memo (do
      let v ← h.view a
      let w ← h.view b
      v.combine K (· - ·) w)
  | .scale a c => h.result memo (do
      let v ← h.view a
      v.stored.smul c)
  | .div a c => h.result memo (do
      let v ← h.view a
      v.stored.divConst c)
  | .derivative a i => h.result memo (do
      let v ← h.view a
      PolyHeap.derivative memo v.stored i)
  | .elevate a s => h.result memo (do
      let v ← h.view a
      v.elevate K s)
  | .toMonomial a =>
    match h.view a with
    | .error e => (h, memo, .error e)
    | .ok v => if v.stored.basis = .monomial then h.copyPoly memo a else h.result memo (PolyHeap.toMonomial memo v.stored)
  | .call a x => (h, memo, do
      let v ← h.view a
      let y ← v.code.call x
      return .value y)
  | .coeff a => (h, memo, (h.view a).map (fun v => .array v.stored.coeff))
  | .coeffWrite a i v => h.assign memo (h.polys[a]?.map Ref.cell) i v

/-- The whole state: arrays of numbers and scalar valued polynomials, matrices with `n` columns and vector valued polynomials, and the class attribute. -/
structure Heap (K : Type) (n : Nat) where
  scalars : Mem K
  vectors : Mem (Fin n → K)
  memo : Memo K

/-- The result of an operation. -/
abbrev Result (K : Type) (n : Nat) := Py (Out K ⊕ Out (Fin n → K))

/-- One operation: new state and result. -/
noncomputable def Heap.step {n : Nat} (h : Heap K n) : Op K n → Heap K n × Result K n
  | .scalar op =>
    let s := h.scalars.step h.memo op
    (⟨s.1, h.vectors, s.2.1⟩, s.2.2.map .inl)
  | .vector op =>
    let s := h.vectors.step h.memo op
    (⟨h.scalars, s.1, s.2.1⟩, s.2.2.map .inr)
  | .mul a b =>
    let s := h.scalars.result h.memo (do
      let v ← h.scalars.view a
      let w ← h.scalars.view b
      v.mul w)
    (⟨s.1, h.vectors, s.2.1⟩, s.2.2.map .inl)
  | .pow a k =>
    let s := h.scalars.result h.memo (do
      let v ← h.scalars.view a
      v.powNat k)
    (⟨s.1, h.vectors, s.2.1⟩, s.2.2.map .inl)
  | .component a i =>
    let s := h.scalars.result h.memo (do
      let v ← h.vectors.view a
      v.stored.component i)
    (⟨s.1, h.vectors, s.2.1⟩, s.2.2.map .inl)
  | .powMulti a exp =>
    let s := h.scalars.result h.memo (do
      let v ← h.vectors.view a
      v.powMulti exp)
    (⟨s.1, h.vectors, s.2.1⟩, s.2.2.map .inl)
  | .outer a c =>
    let s := h.vectors.result h.memo (do
      let v ← h.scalars.view a
      v.stored.outer c)
    (⟨h.scalars, s.1, s.2.1⟩, s.2.2.map .inr)

/-- The state before a program does anything. -/
def Heap.empty {n : Nat} : Heap K n := ⟨⟨[], [], []⟩, ⟨[], [], []⟩, []⟩

/-- The state after a history of operations. -/
noncomputable def Heap.after {n : Nat} (h : Heap K n) (ops : List (Op K n)) : Heap K n := ops.foldl (fun h op => (h.step op).1) h

/-- The results of a history of operations. -/
noncomputable def Heap.results {n : Nat} (h : Heap K n) : List (Op K n) → List (Result K n)
  | [] => []
  | op :: ops => (h.step op).2 :: (h.step op).1.results ops

end Verif.PolyHeap
