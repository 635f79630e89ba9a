import Verif.Model.LocalToGlobal
import Verif.Model.SimplexPolynomial
/-!
# Model of the piecewise polynomial classes

`polynomials_on_simplices/piecewise_polynomial/piecewise_polynomial.py` (PP below), `continuous_piecewise_polynomial.py` (CP),
`piecewise_polynomial_bernstein_basis.py` (PB), `piecewise_polynomial_lagrange_basis.py` (PL),
`continuous_piecewise_polynomial_bernstein_basis.py` (CB) and `continuous_piecewise_polynomial_lagrange_basis.py` (CL).

The four concrete classes are one structure with the fields `basis` and `cont`. Numbers are elements of a field. The target dimension is part of the
type `V` of the coefficients: `K` for scalar valued and `Fin n → K` for vector valued functions. Vertices are points of `Kᵐ`; only simplices
with `m + 1` vertices are modelled. Sets of simplex indices are lists; where the program iterates over a set the order is that of
the list. Meshes and boundary simplices are arrays, whose `.data` are equal if the arrays are. The space partitioning tree has an arbitrary
type `Tr`, and `mkTree` is the call of `create_kd_tree` in PP 563-565 as a function of the simplices of interest.
-/

namespace Verif.PP
open Verif Verif.Poly Verif.Simplex Verif.SPoly Verif.L2G

/-- A piecewise polynomial object (PP 518-570). -/
structure PObj (K V : Type) (m : Nat) (Tr : Type) where
  basis : Basis
  cont : Bool
  coeff : List V
  tau : Int → List Nat → Py Int
  triangles : List (List Nat)
  vertices : List (Fin m → K)
  boundary : Option (List (List Nat))
  keepLast : Bool
  r : Nat
  support : List Nat
  tree : Tr
  /-- `_basis_polynomials` -/
  polys : List (Nat × List (SObj K K m))

section Basics
variable {K V : Type} {m : Nat} {Tr : Type}

/-- `simplex_vertices(triangles[j], vertices)` for a simplex with `m + 1` vertices. -/
def cellVertices (T : List Nat) (vertices : List (Fin m → K)) : Py (Vertices K m m) := do
  let v ← Complex.simplexVertices T vertices
  if h : v.length = m + 1 then .ok (fun i => v[(i : Nat)]'(by omega)) else .error .value

/-- `simplex_vertices(triangles[j], vertices)`. -/
def cell (triangles : List (List Nat)) (vertices : List (Fin m → K)) (j : Nat) : Py (Vertices K m m) := do
  let T ← getE triangles j
  cellVertices T vertices

/-- `generate_local_to_global_map` of the class (PP 871-878, CP 486-493). -/
def genMap (cont : Bool) (triangles : List (List Nat)) (r : Nat) (boundary : Option (List (List Nat))) (keepLast : Bool) : Py L2G.Map :=
  if cont then contMap triangles r boundary keepLast else discMap triangles r boundary keepLast

/-- The argument `tau` of the constructor. A discontinuous class (PP 519-524) unpacks the result of `generate_local_to_global_map` into two
variables, which fails with `keep_boundary_dofs_last`; the continuous classes are in CB 69-76 and CL 68-75. -/
def tauArg (cont : Bool) (numCoeff : Nat) (triangles : List (List Nat)) (r : Nat) (tau : Option (Int → List Nat → Py Int))
    (boundary : Option (List (List Nat))) (keepLast : Bool) : Py (Int → List Nat → Py Int) :=
  match tau with
  | some t => .ok t
  | none => do
    let M ← genMap cont triangles r boundary keepLast
    if !cont && keepLast then .error .value
    else
      pyAssert (decide (M.numDofs = numCoeff))
      .ok M.tau

/-- The inner loop of the computation of the support (PP 552-556): is one of the coefficients of the simplex non-zero? The index -1 of
a degree of freedom that is not part of the space is used as an index. -/
def anyNonzero [Zero V] [DecidableEq V] (tau : Int → List Nat → Py Int) (coeff : List V) (j : Nat) : List (List Nat) → Py Bool
  | [] => .ok false
  | mi :: l => do
    let i ← tau j mi
    let c ← pyGet coeff i
    if c ≠ 0 then .ok true else anyNonzero tau coeff j l

/-- The computation of the support (PP 549-556). -/
def supportLoop [Zero V] [DecidableEq V] (tau : Int → List Nat → Py Int) (coeff : List V) (mis : List (List Nat)) : List Nat → Py (List Nat)
  | [] => .ok []
  | j :: js => do
    let b ← anyNonzero tau coeff j mis
    let rest ← supportLoop tau coeff mis js
    return if b then j :: rest else rest

/-- The argument `support` of the constructor (PP 546-556). -/
def supportArg [Zero V] [DecidableEq V] (tau : Int → List Nat → Py Int) (coeff : List V) (mis : List (List Nat)) (numTriangles : Nat)
    (support : Option (List Nat)) : Py (List Nat) :=
  match support with
  | some s => .ok s
  | none => supportLoop tau coeff mis (List.range numTriangles)

/-- NumPy's addition and subtraction of coefficient arrays: arrays of different lengths are rejected, unless one of them has length
one. -/
def npBinary (op : V → V → V) (a b : List V) : Py (List V) :=
  if a.length = b.length then .ok (List.zipWith op a b)
  else match a, b with
    | [x], b => .ok (b.map (op x))
    | a, [y] => .ok (a.map (fun x => op x y))
    | _, _ => .error .value

/-- The test of the boundary simplices in the operators (PP 715-716): if only one of them is None, None has no attribute `data`. -/
def boundaryCheck (b b' : Option (List (List Nat))) : Py Unit :=
  match b, b' with
  | none, none => .ok ()
  | some s, some s' => pyAssert (decide (s = s'))
  | _, _ => .error .attribute

end Basics

variable {K V : Type} [Field K] [DecidableEq K] [AddCommGroup V] [DecidableEq V] [Module K V] {m : Nat} {Tr : Type}

/-- The argument `basis_polynomials` of the constructor (PB 68-75, PL 67-74). -/
noncomputable def polysArg (basis : Basis) (triangles : List (List Nat)) (vertices : List (Fin m → K)) (r : Nat) (support : List Nat)
    (polys : Option (List (Nat × List (SObj K K m)))) : Py (List (Nat × List (SObj K K m))) :=
  match polys with
  | some d => support.mapM (fun j => do
      let l ← keyE (dget? d j)
      return (j, l))
  | none => support.mapM (fun j => do
      let v ← cell triangles vertices j
      let l ← basisSimplex basis r v
      return (j, l))

/-- `__init__` of the concrete classes (PP 489-570, PB 34-75, PL 33-74, CB 35-78, CL 34-77). The target dimension is `len(coeff[0])` (IndexError without
coefficients) and the domain dimension `len(vertices[0])`. -/
noncomputable def PObj.new (mkTree : List Nat → Py Tr) (basis : Basis) (cont : Bool) (coeff : List V) (triangles : List (List Nat))
    (vertices : List (Fin m → K)) (r : Nat) (tau : Option (Int → List Nat → Py Int)) (boundary : Option (List (List Nat))) (keepLast : Bool)
    (support : Option (List Nat)) (tree : Option Tr) (polys : Option (List (Nat × List (SObj K K m)))) : Py (PObj K V m Tr) := do
  let tau ← tauArg cont coeff.length triangles r tau boundary keepLast
  let _ ← getE coeff 0
  let _ ← getE vertices 0
  let support ← supportArg tau coeff (MI.generateAll m r) triangles.length support
  let tree ← match tree with
    | some t => .ok t
    | none => mkTree support
  let polys ← polysArg basis triangles vertices r support polys
  return ⟨basis, cont, coeff, tau, triangles, vertices, boundary, keepLast, r, support, tree, polys⟩

/-- Calling the constructor with everything given. -/
noncomputable def PObj.remake (p : PObj K V m Tr) {W : Type} [AddCommGroup W] [DecidableEq W] (coeff : List W) (support : Option (List Nat)) :
    Py (PObj K W m Tr) :=
  PObj.new (fun _ => .ok p.tree) p.basis p.cont coeff p.triangles p.vertices p.r (some p.tau) p.boundary p.keepLast support (some p.tree) (some p.polys)

/-- The loop of `evaluate_on_simplex` (PP 669-676) over the multi-indices and their positions. -/
noncomputable def evalLoop (p : PObj K V m Tr) (j : Nat) (x : Fin m → K) : List (List Nat) → Nat → V → Py V
  | [], _, value => .ok value
  | nu :: l, k, value => do
    let i ← p.tau j nu
    if i = -1 then evalLoop p j x l (k + 1) value
    else
      let c ← pyGet p.coeff i
      let b ← keyE (dget? p.polys j)
      let q ← getE b k
      let y ← q.call x
      evalLoop p j x l (k + 1) (value + y • c)

/-- `evaluate_on_simplex` (PP 646-678). -/
noncomputable def PObj.evaluateOnSimplex (p : PObj K V m Tr) (j : Nat) (x : Fin m → K) : Py V :=
  if j ∉ p.support then .ok 0 else evalLoop p j x (MI.generateAll m p.r) 0 0

/-- The search for a simplex that contains the point (PP 629-633); `inside` is the call of `inside_simplex`. -/
def findCell (triangles : List (List Nat)) (vertices : List (Fin m → K)) (inside : (Fin m → K) → Vertices K m m → Bool) (x : Fin m → K) :
    List Nat → Py (Option Nat)
  | [] => .ok none
  | j :: js => do
    let v ← cell triangles vertices j
    if inside x v then .ok (some j) else findCell triangles vertices inside x js

/-- `__call__` (PP 618-644); `leaf` stands for `find_leaf_containing_point` followed by `potentially_intersecting_simplices`. -/
noncomputable def PObj.call (leaf : Tr → (Fin m → K) → Py (List Nat)) (inside : (Fin m → K) → Vertices K m m → Bool) (p : PObj K V m Tr)
    (x : Fin m → K) : Py V := do
  let js ← leaf p.tree x
  let j ← findCell p.triangles p.vertices inside x js
  match j with
  | none => return 0
  | some j => p.evaluateOnSimplex j x

/-- `__getitem__` of a vector valued piecewise polynomial (PP 680-696). -/
noncomputable def PObj.component {n : Nat} (p : PObj K (Fin n → K) m Tr) (i : Nat) : Py (PObj K K m Tr) :=
  if h : i < n then p.remake (p.coeff.map (fun c => c ⟨i, h⟩)) none else .error .assertion

/-- `restrict_to_simplex` (PB 218-243, PL 223-248). -/
noncomputable def PObj.restrictToSimplex (p : PObj K V m Tr) (i : Nat) : Py (SObj K V m) := do
  pyAssert (decide (i < p.triangles.length))
  let v ← cell p.triangles p.vertices i
  if i ∉ p.support then zeroPolynomialSimplex p.basis V v p.r
  else
    let coeff ← fillLoop (fun mi => do
        let idx ← p.tau i mi
        pyGet p.coeff idx) (MI.generateAll m p.r) 0 (zeros V (getDimension p.r m))
    SObj.new p.basis coeff v (some p.r)

/-- The loop that stores coefficients of one simplex in the global coefficient array (PB 124-128, 212-214, PL 217-219). -/
def storeLoop (tau : Int → List Nat → Py Int) (j : Nat) (val : Nat → List Nat → Py V) : List (List Nat) → Nat → List V → Py (List V)
  | [], _, coeff => .ok coeff
  | mi :: l, k, coeff => do
    let i ← tau j mi
    let v ← val k mi
    let coeff ← pySet coeff i v
    storeLoop tau j val l (k + 1) coeff

/-- `degree_elevate` (PB 176-216, PL 181-221). -/
noncomputable def PObj.degreeElevate (p : PObj K V m Tr) (s : Nat) : Py (PObj K V m Tr) := do
  pyAssert (decide (s ≥ p.r))
  if s = p.r then p.remake p.coeff (some p.support)
  else
    let M ← genMap p.cont p.triangles s p.boundary p.keepLast
    let coeff ← (List.range p.triangles.length).foldlM (fun coeff j => do
        let q ← p.restrictToSimplex j
        let q ← q.degreeElevate s
        storeLoop M.tau j (fun k _ => getE q.poly.coeff k) (MI.generateAll m s) 0 coeff) (zeros V M.numDofs.toNat)
    PObj.new (fun _ => .ok p.tree) p.basis p.cont coeff p.triangles p.vertices s (some M.tau) p.boundary p.keepLast (some p.support) (some p.tree) none

/-- The assertions of the operators on the meshes (PP 713-716). -/
def sameMesh (p : PObj K V m Tr) {W : Type} (q : PObj K W m Tr) : Py Unit := do
  pyAssert (decide (p.triangles = q.triangles))
  pyAssert (decide (p.vertices = q.vertices))
  boundaryCheck p.boundary q.boundary

/-- The branch of `__add__` / `__sub__` for equal degrees (PP 707-720, 735-748) with the assertions of the (recursive) call. A recursive call
with different degrees does not occur, because `degree_elevate` returns the requested degree; it is reported as an error here. -/
noncomputable def combineSame (op : V → V → V) (p q : PObj K V m Tr) : Py (PObj K V m Tr) := do
  pyAssert (decide (p.basis = q.basis))
  sameMesh p q
  if p.r = q.r then
    let c ← npBinary op p.coeff q.coeff
    p.remake c none
  else .error .runtime

/-- `__add__` (PP 698-724) with `op = +`, `__sub__` (PP 726-752) with `op = -`. -/
noncomputable def combine (op : V → V → V) (p q : PObj K V m Tr) : Py (PObj K V m Tr) := do
  pyAssert (decide (p.basis = q.basis))
  sameMesh p q
  if p.r = q.r then combineSame op p q
  else if p.r > q.r then
    let q' ← q.degreeElevate p.r
    combineSame op p q'
  else
    let p' ← p.degreeElevate q.r
    combineSame op p' q

/-- `__add__` (PP 698-724). -/
noncomputable def PObj.add (p q : PObj K V m Tr) : Py (PObj K V m Tr) := combine (· + ·) p q

/-- `__sub__` (PP 726-752). -/
noncomputable def PObj.sub (p q : PObj K V m Tr) : Py (PObj K V m Tr) := combine (· - ·) p q

/-- `multiply_with_constant` with a scalar (PP 784-792). -/
noncomputable def PObj.smul (c : K) (p : PObj K V m Tr) : Py (PObj K V m Tr) :=
  p.remake (p.coeff.map (fun a => c • a)) (some (if c = 0 then [] else p.support))

/-- `multiply_with_constant` with a vector (PP 793-803). -/
noncomputable def PObj.outer {n : Nat} (p : PObj K K m Tr) (c : Fin n → K) : Py (PObj K (Fin n → K) m Tr) :=
  p.remake (p.coeff.map (fun a => a • c)) (some (if c = 0 then [] else p.support))

/-- `__truediv__` (PP 805-815) for a non-zero divisor; for division by zero see `Verif.Model.NonFinite`. -/
noncomputable def PObj.divConst (p : PObj K V m Tr) (s : K) : Py (PObj K V m Tr) :=
  p.remake (p.coeff.map (fun a => s⁻¹ • a)) (some p.support)

/-- The coefficients of a product on simplex `j` (PB 121-123): multiply the restrictions. -/
noncomputable def productOnSimplex (p q : PObj K K m Tr) (j : Nat) : Py (List K) := do
  let a ← p.restrictToSimplex j
  let b ← q.restrictToSimplex j
  let c ← a.mul b
  return c.poly.coeff

/-- The loop over the support in `PiecewisePolynomialBernstein.__mul__` (PB 120-128). -/
noncomputable def mulLoopBernstein (p q : PObj K K m Tr) (tau : Int → List Nat → Py Int) (r : Nat) (coeff : List K) (j : Nat) : Py (List K) := do
  let c ← productOnSimplex p q j
  storeLoop tau j (fun k _ => getE c k) (MI.generateAll m r) 0 coeff

/-- The loop over the support in `PiecewisePolynomialLagrange.__mul__` (PL 119-126). -/
noncomputable def mulLoopLagrange (p q : PObj K K m Tr) (tau : Int → List Nat → Py Int) (r : Nat) (coeff : List K) (j : Nat) : Py (List K) := do
  let v ← cell p.triangles p.vertices j
  storeLoop tau j (fun _ nu => do
      let x ← lagrangePointSimplex v r nu
      let a ← p.evaluateOnSimplex j x
      let b ← q.evaluateOnSimplex j x
      return a * b) (MI.generateAll m r) 0 coeff

/-- `__mul__` for two piecewise polynomials (PB 97-130, PL 96-128). In PL 122-126 the point is computed before the index; both succeed. -/
noncomputable def PObj.mul (p q : PObj K K m Tr) : Py (PObj K K m Tr) := do
  sameMesh p q
  pyAssert (decide (p.keepLast = q.keepLast))
  let r := p.r + q.r
  let M ← genMap p.cont p.triangles r p.boundary p.keepLast
  let support := p.support.filter (fun j => decide (j ∈ q.support))
  let coeff ← support.foldlM (match p.basis with
      | .lagrange => mulLoopLagrange p q M.tau r
      | _ => mulLoopBernstein p q M.tau r) (zeros K M.numDofs.toNat)
  PObj.new (fun _ => .ok p.tree) p.basis p.cont coeff p.triangles p.vertices r (some M.tau) p.boundary p.keepLast (some support) (some p.tree) none

/-- `unit_piecewise_polynomial_*` and `unit_continuous_piecewise_polynomial_*` (PB 494-528, CB 383-417 and the Lagrange versions) for scalar valued
functions. -/
noncomputable def unitPiecewise (mkTree : List Nat → Py Tr) (basis : Basis) (cont : Bool) (triangles : List (List Nat)) (vertices : List (Fin m → K))
    (tau : Option (Int → List Nat → Py Int)) (boundary : Option (List (List Nat))) (keepLast : Bool) (tree : Option Tr) : Py (PObj K K m Tr) :=
  PObj.new mkTree basis cont (List.replicate (if cont then vertices.length else triangles.length) 1) triangles vertices (if cont then 1 else 0) tau
    boundary keepLast (some (List.range triangles.length)) tree none

/-- `zero_piecewise_polynomial_*` and `zero_continuous_piecewise_polynomial_*` (PB 457-491, CB 346-380 and the Lagrange versions). -/
noncomputable def zeroPiecewise (V : Type) [AddCommGroup V] [DecidableEq V] (mkTree : List Nat → Py Tr) (basis : Basis) (cont : Bool)
    (triangles : List (List Nat)) (vertices : List (Fin m → K)) (tau : Option (Int → List Nat → Py Int)) (boundary : Option (List (List Nat)))
    (keepLast : Bool) (tree : Option Tr) : Py (PObj K V m Tr) :=
  PObj.new mkTree basis cont (zeros V (if cont then vertices.length else triangles.length)) triangles vertices (if cont then 1 else 0) tau boundary
    keepLast (some []) tree none

/-- `__pow__` with an integer exponent (PB 146-157, PL 144-155). -/
noncomputable def PObj.powNat (p : PObj K K m Tr) : Nat → Py (PObj K K m Tr)
  | 0 => unitPiecewise (fun _ => .ok p.tree) p.basis p.cont p.triangles p.vertices none p.boundary p.keepLast (some p.tree)
  | 1 => p.remake p.coeff (some p.support)
  | k + 2 => do
    let q ← p.powNat (k + 1)
    p.mul q

/-- `*_basis_fn` (PB 291-301, CB 172-183 and the Lagrange versions) with given local-to-global map. -/
noncomputable def basisFn (mkTree : List Nat → Py Tr) (basis : Basis) (cont : Bool) (triangles : List (List Nat)) (vertices : List (Fin m → K)) (r : Nat)
    (i : Int) (M : L2G.Map) (boundary : Option (List (List Nat))) (keepLast : Bool) (tree : Option Tr)
    (polys : Option (List (Nat × List (SObj K K m)))) : Py (PObj K K m Tr) := do
  let coeff ← pySet (zeros K M.numDofs.toNat) i 1
  PObj.new mkTree basis cont coeff triangles vertices r (some M.tau) boundary keepLast none tree polys

/-- `*_basis` (PB 332-347, CB 215-231 and the Lagrange versions) without given local-to-global map. -/
noncomputable def piecewiseBasis (mkTree : List Nat → Py Tr) (basis : Basis) (cont : Bool) (triangles : List (List Nat)) (vertices : List (Fin m → K))
    (r : Nat) (boundary : Option (List (List Nat))) (keepLast : Bool) (tree : Option Tr) : Py (List (PObj K K m Tr)) := do
  let M ← genMap cont triangles r boundary keepLast
  let polys ← (List.range triangles.length).mapM (fun j => do
      let v ← cell triangles vertices j
      let l ← basisSimplex basis r v
      return (j, l))
  (List.range M.numDofs.toNat).mapM (fun (i : Nat) => basisFn mkTree basis cont triangles vertices r i M boundary keepLast tree (some polys))

end Verif.PP
