import Verif.Model.SimplexGeometry
/-!
# Model of `calculus/affine_map.py` and of the affine transformations of `simplex.py` on numpy values

`Verif/Model/Simplex.lean` and `Verif/Model/SimplexGeometry.lean` represent an affine transformation by a matrix and a vector. The code represents
one dimensional quantities in several ways (numbers, arrays of length one, matrices with one row or one column), and the functions of
`affine_map.py` and `np.dot` do different things for each of them. Here values are what numpy sees: numbers, one and two dimensional arrays.
Arrays with more dimensions do not occur. Floating point numbers are replaced by elements of a field; a division of numbers by zero raises
ZeroDivisionError as for Python's numbers (a numpy number gives an infinite result with a warning).
-/

namespace Verif.AffineMap
open Verif Verif.Simplex

/-- A number, a one dimensional array or a two dimensional array. -/
inductive Arr (K : Type)
  | num (x : K)
  | vec (n : ℕ) (v : Fin n → K)
  | mat (n m : ℕ) (a : Matrix (Fin n) (Fin m) K)

section
variable {K : Type} [Field K]

/-- Index into an axis of length `n` when it is broadcast to length `k` (numpy's rule: equal lengths, or length one). -/
def bidx {n k : ℕ} (h : n = k ∨ n = 1) (i : Fin k) : Fin n := if e : n = k then i.cast e.symm else ⟨0, by omega⟩

/-- The common length of two axes under broadcasting. -/
def blen (n m : ℕ) : ℕ := if n = 1 then m else n

theorem bleft (n m : ℕ) : n = blen n m ∨ n = 1 := by unfold blen; split <;> simp_all

theorem bright {n m : ℕ} (h : n = m ∨ n = 1 ∨ m = 1) : m = blen n m ∨ m = 1 := by unfold blen; split <;> omega

/-- An elementwise operation of numpy, with broadcasting; shapes that do not fit raise ValueError. -/
def npOp (op : K → K → K) : Arr K → Arr K → Py (Arr K)
  | .num x, .num y => .ok (.num (op x y))
  | .num x, .vec n v => .ok (.vec n fun i => op x (v i))
  | .num x, .mat n m a => .ok (.mat n m (Matrix.of fun i j => op x (a i j)))
  | .vec n v, .num y => .ok (.vec n fun i => op (v i) y)
  | .mat n m a, .num y => .ok (.mat n m (Matrix.of fun i j => op (a i j) y))
  | .vec n v, .vec m w =>
    if h : n = m ∨ n = 1 ∨ m = 1 then
      .ok (.vec (blen n m) fun i => op (v (bidx (bleft n m) i)) (w (bidx (bright h) i)))
    else .error .value
  | .vec l v, .mat n m a =>
    if h : l = m ∨ l = 1 ∨ m = 1 then
      .ok (.mat n (blen l m) (Matrix.of fun i j => op (v (bidx (bleft l m) j)) (a i (bidx (bright h) j))))
    else .error .value
  | .mat n m a, .vec l v =>
    if h : m = l ∨ m = 1 ∨ l = 1 then
      .ok (.mat n (blen m l) (Matrix.of fun i j => op (a i (bidx (bleft m l) j)) (v (bidx (bright h) j))))
    else .error .value
  | .mat n m a, .mat n' m' a' =>
    if h : (n = n' ∨ n = 1 ∨ n' = 1) ∧ (m = m' ∨ m = 1 ∨ m' = 1) then
      .ok (.mat (blen n n') (blen m m') (Matrix.of fun i j =>
        op (a (bidx (bleft n n') i) (bidx (bleft m m') j)) (a' (bidx (bright h.1) i) (bidx (bright h.2) j))))
    else .error .value

/-- `x + y`. -/
def npAdd : Arr K → Arr K → Py (Arr K) := npOp (· + ·)

/-- `x * y`. -/
def npMul : Arr K → Arr K → Py (Arr K) := npOp (· * ·)

/-- `-x`. -/
def npNeg : Arr K → Arr K
  | .num x => .num (-x)
  | .vec n v => .vec n (-v)
  | .mat n m a => .mat n m (-a)

/-- `np.dot(x, y)`: the product with a number, the inner product of two vectors, or the matrix product; ValueError if the shapes do not
fit. -/
def npDot : Arr K → Arr K → Py (Arr K)
  | .num x, y => npMul (.num x) y
  | x, .num y => npMul x (.num y)
  | .vec n v, .vec m w => if h : n = m then .ok (.num (∑ i, v i * w (i.cast h))) else .error .value
  | .vec l v, .mat n m a => if h : l = n then .ok (.vec m fun j => ∑ i, v i * a (i.cast h) j) else .error .value
  | .mat n m a, .vec l v => if h : m = l then .ok (.vec n fun i => ∑ j, a i j * v (j.cast h)) else .error .value
  | .mat n m a, .mat n' m' b =>
    if h : m = n' then .ok (.mat n m' (Matrix.of fun i j => ∑ k, a i k * b (k.cast h) j)) else .error .value

/-- `x[0]`. A number is not subscriptable: TypeError for Python's, IndexError for numpy's numbers. -/
def npIndex0 : Arr K → Py (Arr K)
  | .num _ => .error .index
  | .vec n v => if h : 0 < n then .ok (.num (v ⟨0, h⟩)) else .error .index
  | .mat n m a => if h : 0 < n then .ok (.vec m (a ⟨0, h⟩)) else .error .index

/-- `len(x)`. -/
def npLen : Arr K → Py ℕ
  | .num _ => .error .type
  | .vec n _ => .ok n
  | .mat n _ _ => .ok n

/-- `isinstance(x, numbers.Number)`. -/
def isNumber : Arr K → Bool
  | .num _ => true
  | _ => false

/-- The number in a value. -/
def asNum : Arr K → Py K
  | .num x => .ok x
  | _ => .error .type

/-- The arguments of a map created with `multiple_arguments`, `np.array(x)` for a tuple of numbers (other tuples are not modelled). -/
def npArray (args : List (Arr K)) : Py (Arr K) := do
  let l ← args.mapM asNum
  return .vec l.length fun i => l.get i

/-- A call of a map with one argument. -/
def single (f : Arr K → Py (Arr K)) (args : List (Arr K)) : Py (Arr K) := match args with
  | [x] => f x
  | _ => .error .type

/-- A call of a map with one argument or with the argument list `*x`. -/
def callWith (multi : Bool) (f : Arr K → Py (Arr K)) (args : List (Arr K)) : Py (Arr K) :=
  if multi then do
    let x ← npArray args
    f x
  else single f args

/-- `create_affine_map` (affine_map.py:14-90): the created function as a function of the list of its arguments. The array
`a.flatten()` (72) of a matrix with one column is its column. -/
def createAffineMap (a b : Arr K) (multi : Bool) : Py (List (Arr K) → Py (Arr K)) := match a with
  | .num a => do
    pyAssert (isNumber b)
    return single fun x => do
      let y ← npMul (.num a) x
      npAdd y b
  | .vec n a =>
    if isNumber b then
      .ok (callWith multi fun x => do
        let y ← npDot (.vec n a) x
        npAdd y b)
    else
      .ok (single fun x => do
        let y ← npMul (.vec n a) x
        npAdd y b)
  | .mat n m a =>
    if h : m = 1 then
      if n = 1 then .error .assertion
      else do
        let l ← npLen b
        pyAssert (decide (l = n))
        return single fun x => do
          let y ← npMul (.vec n fun i => a i ⟨0, by omega⟩) x
          npAdd y b
    else if n = 1 then do
      pyAssert (isNumber b)
      return callWith multi fun x => do
        let y ← npDot (.mat n m a) x
        let z ← npIndex0 y
        npAdd z b
    else do
      let l ← npLen b
      pyAssert (decide (l = n))
      return callWith multi fun x => do
        let y ← npDot (.mat n m a) x
        npAdd y b

/-- `np.linalg.inv`: LinAlgError (a ValueError) unless the argument is an invertible square matrix. -/
noncomputable def npInv [DecidableEq K] : Arr K → Py (Arr K)
  | .mat n m a =>
    if h : m = n then
      let b : Matrix (Fin n) (Fin n) K := Matrix.of fun i j => a i (j.cast h.symm)
      if b.det = 0 then .error .value else .ok (.mat n n b⁻¹)
    else .error .value
  | _ => .error .value

/-- `inverse_affine_transformation` (affine_map.py:93-115). -/
noncomputable def inverseAffine [DecidableEq K] (a b : Arr K) : Py (Arr K × Arr K) := match a with
  | .num x =>
    if x = 0 then .error .zeroDivision
    else do
      let binv ← npMul (npNeg b) (.num (1 / x))
      return (.num (1 / x), binv)
  | a => do
    let ainv ← npInv a
    let y ← npDot ainv b
    return (ainv, npNeg y)

/-- `affine_composition` (affine_map.py:159-172). -/
def affineComposition (phi1 phi2 : Arr K × Arr K) : Py (Arr K × Arr K) := do
  let a ← npDot phi2.1 phi1.1
  let y ← npDot phi2.1 phi1.2
  let b ← npAdd y phi2.2
  return (a, b)

/-- `affine_transformation_from_unit` (simplex.py:183-208) for an array of vertices of shape `(k + 1, n)`. -/
def fromUnit {k n : ℕ} (v : Vertices K k n) : Py (Arr K × Arr K) := do
  pyAssert (decide (k ≤ n))
  if h : k = 1 ∧ n = 1 then
    return (.num (v ⟨1, by omega⟩ ⟨0, by omega⟩ - v 0 ⟨0, by omega⟩), .num (v 0 ⟨0, by omega⟩))
  else if k = 0 then .error .index
  else return (.mat n k (Matrix.of fun j i => v i.succ j - v 0 j), .vec n (v 0))

end

noncomputable section

/-- `_is_invertible` (affine_map.py:118-130). -/
def isInvertible (a : Arr ℝ) : Bool := open Classical in match npInv a with
  | .ok _ => true
  | .error _ => false

/-- `a.T`: the transpose of a matrix; vectors and numbers are not changed. -/
def npT : Arr ℝ → Arr ℝ
  | .num x => .num x
  | .vec n v => .vec n v
  | .mat n m a => .mat m n a.transpose

/-- The part of `pseudoinverse_affine_transformation` (affine_map.py:145-156) for a matrix. `np.linalg.pinv` is used for matrices with
linearly independent columns only, where it is `(aᵀ a)⁻¹ aᵀ`. -/
def pseudoinverseMat {n m : ℕ} (a : Matrix (Fin n) (Fin m) ℝ) (b : Arr ℝ) : Py (Arr ℝ × Arr ℝ) := do
  let g ← npDot (npT (.mat n m a)) (.mat n m a)
  pyAssert (isInvertible g || isNumber g)
  let y ← npDot (.mat m n (Linalg.pinv a)) b
  if m = 1 then
    let z ← npIndex0 y
    return (.mat m n (Linalg.pinv a), npNeg z)
  else return (.mat m n (Linalg.pinv a), npNeg y)

/-- `pseudoinverse_affine_transformation` (affine_map.py:133-156). A vector is reshaped to a matrix with one column; a number has no two
dimensional shape: ValueError (AttributeError for Python's numbers). -/
def pseudoinverseAffine (a b : Arr ℝ) : Py (Arr ℝ × Arr ℝ) := match a with
  | .num _ => .error .value
  | .vec n v => do
    let g ← npDot (npT (.vec n v)) (.vec n v)
    pyAssert (isInvertible g || isNumber g)
    pseudoinverseMat (Matrix.of fun (i : Fin n) (_ : Fin 1) => v i) b
  | .mat _ _ a => pseudoinverseMat a b

/-- `affine_transformation_to_unit` (simplex.py:144-157). -/
def toUnit {k n : ℕ} (v : Vertices ℝ k n) : Py (Arr ℝ × Arr ℝ) := open Classical in do
  let ab ← fromUnit v
  if n ≠ k then pseudoinverseAffine ab.1 ab.2 else inverseAffine ab.1 ab.2

/-- `affine_transformation` (simplex.py:224-235). -/
def affineTransformation {k n m : ℕ} (v1 : Vertices ℝ k n) (v2 : Vertices ℝ k m) : Py (Arr ℝ × Arr ℝ) := do
  let phi1 ← toUnit v1
  let phi2 ← fromUnit v2
  affineComposition phi1 phi2

/-- `subspace_projection_map` (vector_space_projection.py:108-130) on numpy values; `q` is the first result of `np.linalg.qr(basis)`. -/
def subspaceProjectionMap {n m : ℕ} (basis q : Matrix (Fin n) (Fin m) ℝ) (origin : Option (Fin n → ℝ)) : Py (List (Arr ℝ) → Py (Arr ℝ)) := do
  let ab ← Linalg.subspaceProjectionTransformation basis q origin
  createAffineMap (.mat n n ab.1) (.vec n ab.2) false

end

end Verif.AffineMap
