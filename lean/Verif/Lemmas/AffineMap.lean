import Verif.Spec.AffineMap
import Verif.Lemmas.SimplexGeometry3
/-!
# Lemmas for the numpy values of affine maps (C93)
-/

namespace Verif.AffineMap
open Verif Verif.Spec Matrix

variable {K : Type}

theorem vec_ext {n m : ℕ} {v : Fin n → K} {w : Fin m → K} (h : n = m) (e : ∀ i, v i = w (i.cast h)) : Arr.vec n v = Arr.vec m w := by
  subst h
  congr 1
  funext i
  exact e i

theorem mat_ext {n m n' m' : ℕ} {a : Matrix (Fin n) (Fin m) K} {b : Matrix (Fin n') (Fin m') K} (h : n = n') (h' : m = m')
    (e : ∀ i j, a i j = b (i.cast h) (j.cast h')) : Arr.mat n m a = Arr.mat n' m' b := by
  subst h h'
  congr 1
  funext i j
  exact e i j

theorem blen_self (n : ℕ) : blen n n = n := by unfold blen; split <;> rfl

theorem blen_one (n : ℕ) : blen 1 n = n := by unfold blen; simp

theorem bidx_self {n k : ℕ} (h : n = k ∨ n = 1) (e : n = k) (i : Fin k) : bidx h i = i.cast e.symm := by
  unfold bidx; rw [dif_pos e]

theorem bidx_one {k : ℕ} (h : 1 = k ∨ 1 = 1) (i : Fin k) : bidx h i = 0 := Subsingleton.elim _ _

variable [Field K]

theorem npOp_vec (op : K → K → K) {n : ℕ} (v w : Fin n → K) : npOp op (.vec n v) (.vec n w) = .ok (.vec n fun i => op (v i) (w i)) := by
  have h : n = n ∨ n = 1 ∨ n = 1 := Or.inl rfl
  show (if h : n = n ∨ n = 1 ∨ n = 1 then _ else _) = _
  rw [dif_pos h]
  congr 1
  refine vec_ext (blen_self n) fun i => ?_
  rw [bidx_self _ (blen_self n).symm]

theorem npOp_col_vec (op : K → K → K) {n l : ℕ} (a : Matrix (Fin n) (Fin 1) K) (v : Fin l → K) :
    npOp op (.mat n 1 a) (.vec l v) = .ok (.mat n l (Matrix.of fun i j => op (a i 0) (v j))) := by
  have h : 1 = l ∨ 1 = 1 ∨ l = 1 := Or.inr (Or.inl rfl)
  show (if h : 1 = l ∨ 1 = 1 ∨ l = 1 then _ else _) = _
  rw [dif_pos h]
  congr 1
  refine mat_ext rfl (blen_one l) fun i j => ?_
  rw [Matrix.of_apply, Matrix.of_apply, bidx_one, bidx_self _ (blen_one l).symm]
  rfl

theorem npOp_vec_mat (op : K → K → K) {k m : ℕ} (v : Fin m → K) (a : Matrix (Fin k) (Fin m) K) :
    npOp op (.vec m v) (.mat k m a) = .ok (.mat k m (Matrix.of fun i j => op (v j) (a i j))) := by
  have h : m = m ∨ m = 1 ∨ m = 1 := Or.inl rfl
  show (if h : m = m ∨ m = 1 ∨ m = 1 then _ else _) = _
  rw [dif_pos h]
  congr 1
  refine mat_ext rfl (blen_self m) fun i j => ?_
  rw [Matrix.of_apply, Matrix.of_apply, bidx_self _ (blen_self m).symm]
  rfl

theorem npAdd_vec {n : ℕ} (v w : Fin n → K) : npAdd (.vec n v) (.vec n w) = .ok (.vec n (v + w)) := npOp_vec _ v w

theorem npDot_mat_vec {n m : ℕ} (a : Matrix (Fin n) (Fin m) K) (v : Fin m → K) : npDot (.mat n m a) (.vec m v) = .ok (.vec n (a *ᵥ v)) := by
  unfold npDot
  simp only [dite_true]
  rfl

theorem npDot_vec_vec {m : ℕ} (a v : Fin m → K) : npDot (.vec m a) (.vec m v) = .ok (.num (a ⬝ᵥ v)) := by
  unfold npDot
  simp only [dite_true]
  rfl

theorem npDot_mat_mat {n m l : ℕ} (a : Matrix (Fin n) (Fin m) K) (b : Matrix (Fin m) (Fin l) K) :
    npDot (.mat n m a) (.mat m l b) = .ok (.mat n l (a * b)) := by
  unfold npDot
  simp only [dite_true]
  congr 2

theorem npDot_vec_mat {m l : ℕ} (a : Fin m → K) (b : Matrix (Fin m) (Fin l) K) :
    npDot (.vec m a) (.mat m l b) = .ok (.vec l (a ᵥ* b)) := by
  unfold npDot
  simp only [dite_true]
  rfl

theorem npArray_nums {m : ℕ} (x : Fin m → K) : npArray (List.ofFn fun i => Arr.num (x i)) = .ok (.vec m x) := by
  unfold npArray
  have h : (List.ofFn fun i => Arr.num (x i)).mapM asNum = .ok (List.ofFn x) := by
    rw [List.ofFn_eq_map, List.ofFn_eq_map, List.mapM_map]
    exact mapM_eq_ok x _ fun i _ => rfl
  rw [h]
  simp only [Py.bind_ok, Py.pure_eq]
  congr 1
  exact vec_ext (by simp) fun i => by rw [List.get_ofFn]

theorem pointArr_one (x : Fin 1 → K) : pointArr x = .num (x 0) := by unfold pointArr; rw [dif_pos rfl]; rfl

theorem pointArr_vec {n : ℕ} (h : n ≠ 1) (x : Fin n → K) : pointArr x = .vec n x := by unfold pointArr; rw [dif_neg h]

theorem col_call {n : ℕ} (v b : Fin n → K) (x : K) : single (fun x => do
      let y ← npMul (.vec n v) x
      npAdd y (.vec n b)) [.num x] = .ok (.vec n ((fun i => v i * x) + b)) := by
  show npAdd (.vec n fun i => v i * x) (.vec n b) = _
  exact npAdd_vec _ _

/-- The map created from any representation evaluates the affine map. -/
theorem createAffineMap_rep {n m : ℕ} {A : Matrix (Fin n) (Fin m) K} {a : Arr K} (hA : RepMatrix A a) (b : Fin n → K) (multi : Bool) :
    ∃ f, createAffineMap a (pointArr b) multi = .ok f ∧ (multi = false → ∀ x, f [pointArr x] = .ok (pointArr (A *ᵥ x + b))) ∧
      (multi = true → ∀ x : Fin m → K, f (List.ofFn fun i => .num (x i)) = .ok (pointArr (A *ᵥ x + b))) := by
  cases hA with
  | number A =>
    have e : ∀ x : Fin 1 → K, A *ᵥ x + b = fun _ => A 0 0 * x 0 + b 0 := fun x => by
      funext i
      obtain rfl := Subsingleton.elim i 0
      simp [mulVec, dotProduct]
    rw [pointArr_one]
    refine ⟨_, rfl, fun _ x => ?_, fun _ x => ?_⟩
    · rw [pointArr_one, pointArr_one, e]
      rfl
    · rw [pointArr_one, e]
      rfl
  | column hn A =>
    have e : ∀ x : Fin 1 → K, A *ᵥ x + b = (fun i => A i 0 * x 0) + b := fun x => by
      funext i
      simp [mulVec, dotProduct]
    rw [pointArr_vec hn]
    refine ⟨_, rfl, fun _ x => ?_, fun _ x => ?_⟩
    · rw [pointArr_one, pointArr_vec hn, e]
      exact col_call _ _ _
    · rw [pointArr_vec hn, e]
      exact col_call _ _ _
  | row hm A =>
    have e : ∀ x, A *ᵥ x + b = fun _ => A 0 ⬝ᵥ x + b 0 := fun x => by
      funext i
      obtain rfl := Subsingleton.elim i 0
      simp [mulVec]
    rw [pointArr_one]
    refine ⟨_, rfl, fun h x => ?_, fun h x => ?_⟩
    · subst h
      rw [pointArr_one, pointArr_vec hm, e]
      show (do
        let y ← npDot _ _
        npAdd y _) = _
      rw [npDot_vec_vec]
      rfl
    · subst h
      rw [pointArr_one, e]
      show (do
        let x ← npArray _
        let y ← npDot _ x
        npAdd y _) = _
      rw [npArray_nums, Py.bind_ok, npDot_vec_vec]
      rfl
  | matrix h A =>
    by_cases hm : m = 1
    · subst hm
      have hn : n ≠ 1 := by omega
      have e : ∀ x : Fin 1 → K, A *ᵥ x + b = (fun i => A i 0 * x 0) + b := fun x => by
        funext i
        simp [mulVec, dotProduct]
      rw [pointArr_vec hn]
      refine ⟨single fun x => do
          let y ← npMul (.vec n fun i => A i 0) x
          npAdd y (.vec n b), ?_, fun _ x => ?_, fun _ x => ?_⟩
      · simp [createAffineMap, hn, npLen]
      · rw [pointArr_one, pointArr_vec hn, e]
        exact col_call _ _ _
      · rw [pointArr_vec hn, e]
        exact col_call _ _ _
    · by_cases hn : n = 1
      · subst hn
        have e : ∀ x, A *ᵥ x + b = fun _ => A 0 ⬝ᵥ x + b 0 := fun x => by
          funext i
          obtain rfl := Subsingleton.elim i 0
          simp [mulVec]
        rw [pointArr_one]
        refine ⟨callWith multi fun x => do
          let y ← npDot (.mat 1 m A) x
          let z ← npIndex0 y
          npAdd z (.num (b 0)), ?_, fun h x => ?_, fun h x => ?_⟩
        · simp [createAffineMap, hm, isNumber]
        · subst h
          rw [pointArr_one, pointArr_vec hm, e]
          show (do
            let y ← npDot _ _
            let z ← npIndex0 y
            npAdd z _) = _
          rw [npDot_mat_vec]
          rfl
        · subst h
          rw [pointArr_one, e]
          show (do
            let x ← npArray _
            let y ← npDot _ x
            let z ← npIndex0 y
            npAdd z _) = _
          rw [npArray_nums, Py.bind_ok, npDot_mat_vec]
          rfl
      · rw [pointArr_vec hn]
        refine ⟨callWith multi fun x => do
          let y ← npDot (.mat n m A) x
          npAdd y (.vec n b), ?_, fun h x => ?_, fun h x => ?_⟩
        · simp [createAffineMap, hm, hn, npLen]
        · subst h
          rw [pointArr_vec hn, pointArr_vec hm]
          show (do
            let y ← npDot _ _
            npAdd y _) = _
          rw [npDot_mat_vec]
          exact npAdd_vec _ _
        · subst h
          rw [pointArr_vec hn]
          show (do
            let x ← npArray _
            let y ← npDot _ x
            npAdd y _) = _
          rw [npArray_nums, Py.bind_ok, npDot_mat_vec]
          exact npAdd_vec _ _

/-! ## Inverse and pseudoinverse -/

/-- The value used for the matrix of a transformation of `simplex.py`: a number or a two dimensional array. -/
def matArr {n m : ℕ} (A : Matrix (Fin n) (Fin m) K) : Arr K :=
  if h : n = 1 ∧ m = 1 then .num (A ⟨0, by omega⟩ ⟨0, by omega⟩) else .mat n m A

omit [Field K] in
theorem matArr_one (A : Matrix (Fin 1) (Fin 1) K) : matArr A = .num (A 0 0) := by unfold matArr; rw [dif_pos ⟨rfl, rfl⟩]; rfl

omit [Field K] in
theorem matArr_mat {n m : ℕ} (h : n ≠ 1 ∨ m ≠ 1) (A : Matrix (Fin n) (Fin m) K) : matArr A = .mat n m A := by
  unfold matArr; rw [dif_neg (by tauto)]

omit [Field K] in
theorem matArr_rep {n m : ℕ} (A : Matrix (Fin n) (Fin m) K) : RepMatrix A (matArr A) := by
  by_cases h : n = 1 ∧ m = 1
  · obtain ⟨rfl, rfl⟩ := h
    rw [matArr_one]
    exact .number A
  · rw [matArr_mat (by tauto)]
    exact .matrix (by tauto) A

theorem npNeg_point {n : ℕ} (x : Fin n → K) : npNeg (pointArr x) = pointArr (-x) := by
  by_cases h : n = 1
  · subst h
    rw [pointArr_one, pointArr_one]; rfl
  · rw [pointArr_vec h, pointArr_vec h]; rfl

theorem npInv_mat [DecidableEq K] {n : ℕ} (A : Matrix (Fin n) (Fin n) K) :
    npInv (.mat n n A) = if A.det = 0 then .error .value else .ok (.mat n n A⁻¹) := by
  unfold npInv
  simp only [dite_true]
  rfl

/-- The square matrices: a number or a two dimensional array. -/
theorem rep_square {n : ℕ} {A : Matrix (Fin n) (Fin n) K} {a : Arr K} (h : RepMatrix A a) : a = matArr A := by
  by_cases hn : n = 1
  · subst hn
    rw [matArr_one]
    cases h with
    | number => rfl
    | column h => exact absurd rfl h
    | row h => exact absurd rfl h
    | matrix h => omega
  · rw [matArr_mat (Or.inl hn)]
    cases h with
    | number => exact absurd rfl hn
    | column h => exact absurd rfl hn
    | row h => exact absurd rfl hn
    | matrix h => rfl

theorem inverse_rep [DecidableEq K] {n : ℕ} (A : Matrix (Fin n) (Fin n) K) (c : Fin n → K) (h : A.det ≠ 0) :
    inverseAffine (matArr A) (pointArr c) = .ok (matArr A⁻¹, pointArr (-(A⁻¹ *ᵥ c))) := by
  by_cases hn : n = 1
  · subst hn
    have h0 : A 0 0 ≠ 0 := by rwa [Matrix.det_fin_one] at h
    have hi : A⁻¹ 0 0 = 1 / A 0 0 := by rw [Matrix.inv_subsingleton]; simp
    rw [matArr_one, matArr_one, pointArr_one, pointArr_one, hi]
    unfold inverseAffine
    simp only [h0, if_false]
    show Except.ok _ = _
    congr 3
    simp [mulVec, dotProduct, hi, mul_comm]
  · rw [matArr_mat (Or.inl hn), matArr_mat (Or.inl hn), pointArr_vec hn, pointArr_vec hn]
    unfold inverseAffine
    simp only [npInv_mat, h, if_false, Py.bind_ok, npDot_mat_vec, Py.pure_eq]
    rfl

theorem inverse_singular [DecidableEq K] {n : ℕ} (A : Matrix (Fin n) (Fin n) K) (c : Fin n → K) (h : A.det = 0) :
    inverseAffine (matArr A) (pointArr c) = .error (if n = 1 then .zeroDivision else .value) := by
  by_cases hn : n = 1
  · subst hn
    have h0 : A 0 0 = 0 := by rwa [Matrix.det_fin_one] at h
    rw [matArr_one]
    unfold inverseAffine
    simp [h0]
  · rw [matArr_mat (Or.inl hn)]
    unfold inverseAffine
    simp [npInv_mat, h, hn]

theorem isInvertible_mat {m : ℕ} (G : Matrix (Fin m) (Fin m) ℝ) : isInvertible (.mat m m G) = true ↔ G.det ≠ 0 := by
  unfold isInvertible
  rw [npInv_mat]
  by_cases h : G.det = 0 <;> simp [h]

theorem pseudo_mat {n m : ℕ} (A : Matrix (Fin n) (Fin m) ℝ) (c : Fin n → ℝ) (hn : n ≠ 1) :
    pseudoinverseMat A (pointArr c) = if (Aᵀ * A).det = 0 then .error .assertion
      else .ok (.mat m n (Linalg.pinv A), pointArr (-(Linalg.pinv A *ᵥ c))) := by
  have h : pseudoinverseMat A (pointArr c) = (do
      pyAssert (isInvertible (.mat m m (Aᵀ * A)) || isNumber (.mat m m (Aᵀ * A)))
      if m = 1 then
        let z ← npIndex0 (.vec m (Linalg.pinv A *ᵥ c))
        return (.mat m n (Linalg.pinv A), npNeg z)
      else return (.mat m n (Linalg.pinv A), npNeg (.vec m (Linalg.pinv A *ᵥ c)))) := by
    unfold pseudoinverseMat
    rw [show npT (.mat n m A) = .mat m n Aᵀ from rfl, npDot_mat_mat, pointArr_vec hn]
    simp only [Py.bind_ok, npDot_mat_vec]
  rw [h]
  by_cases hd : (Aᵀ * A).det = 0
  · have : isInvertible (.mat m m (Aᵀ * A)) = false := by
      rw [Bool.eq_false_iff]
      intro h0
      exact (isInvertible_mat _).1 h0 hd
    rw [if_pos hd, this]
    rfl
  · rw [if_neg hd, (isInvertible_mat _).2 hd]
    simp only [Bool.true_or, pyAssert_true, Py.bind_ok]
    by_cases hm : m = 1
    · subst hm
      rw [if_pos rfl, pointArr_one]
      rfl
    · rw [if_neg hm, pointArr_vec hm]
      rfl

theorem pseudo_rep {n m : ℕ} {A : Matrix (Fin n) (Fin m) ℝ} {a : Arr ℝ} (hA : RepMatrix A a) (c : Fin n → ℝ) (hn : n ≠ 1) :
    pseudoinverseAffine a (pointArr c) = if (Aᵀ * A).det = 0 then .error .assertion
      else .ok (.mat m n (Linalg.pinv A), pointArr (-(Linalg.pinv A *ᵥ c))) := by
  cases hA with
  | number => exact absurd rfl hn
  | row => exact absurd rfl hn
  | matrix => exact pseudo_mat A c hn
  | column hn A =>
    rw [← pseudo_mat A c hn]
    have e : (Matrix.of fun (i : Fin n) (_ : Fin 1) => A i 0) = A := by
      funext i j
      obtain rfl := Subsingleton.elim j 0
      rfl
    show (do
      let g ← npDot (.vec n fun i => A i 0) (.vec n fun i => A i 0)
      pyAssert (isInvertible g || isNumber g)
      pseudoinverseMat (Matrix.of fun (i : Fin n) (_ : Fin 1) => A i 0) (pointArr c)) = _
    rw [npDot_vec_vec, e]
    simp only [Py.bind_ok, isNumber, Bool.or_true, pyAssert_true]

/-! ## Composition -/

/-- A one dimensional array. -/
def IsVec : Arr K → Prop
  | .vec _ _ => True
  | _ => False

omit [Field K] in
theorem rep_num {n m : ℕ} {A : Matrix (Fin n) (Fin m) K} {x : K} (h : RepMatrix A (.num x)) : n = 1 ∧ m = 1 := by
  cases h; exact ⟨rfl, rfl⟩

omit [Field K] in
theorem rep_vec {n m k : ℕ} {A : Matrix (Fin n) (Fin m) K} {v : Fin k → K} (h : RepMatrix A (.vec k v)) :
    (n ≠ 1 ∧ m = 1) ∨ (n = 1 ∧ m ≠ 1) := by
  cases h with
  | column h => exact Or.inl ⟨h, rfl⟩
  | row h => exact Or.inr ⟨rfl, h⟩

/-- When `affine_composition` returns the composition; `l`, `m`, `n` are the dimensions of the spaces. -/
def Fits (l m n : ℕ) (a1 a2 : Arr K) : Prop :=
  (m = 1 → n = 1 ∨ (l = 1 ∧ IsVec a2)) ∧ (m ≠ 1 → n = 1 → IsVec a2 ∧ (l = 1 → IsVec a1))

theorem comp_ok {l m n : ℕ} {A1 : Matrix (Fin m) (Fin l) K} {A2 : Matrix (Fin n) (Fin m) K} {a1 a2 : Arr K} (c1 : Fin m → K) (c2 : Fin n → K)
    (h1 : RepMatrix A1 a1) (h2 : RepMatrix A2 a2) (hf : Fits l m n a1 a2) :
    ∃ ab, affineComposition (a1, pointArr c1) (a2, pointArr c2) = .ok ab ∧ RepMap (A2 * A1) (A2 *ᵥ c1 + c2) ab := by
  cases h2 with
  | number A2 =>
    have e : A2 *ᵥ c1 + c2 = fun _ => A2 0 0 * c1 0 + c2 0 := by
      funext i
      obtain rfl := Subsingleton.elim i 0
      simp [mulVec, dotProduct]
    have e1 : ∀ j, (A2 * A1) 0 j = A2 0 0 * A1 0 j := fun j => by simp [Matrix.mul_apply]
    rw [pointArr_one, pointArr_one]
    cases h1 with
    | number A1 =>
      refine ⟨(.num (A2 0 0 * A1 0 0), .num (A2 0 0 * c1 0 + c2 0)), rfl, ?_, ?_⟩
      · rw [← e1]; exact .number _
      · rw [pointArr_one, e]
    | column h => exact absurd rfl h
    | row h A1 =>
      refine ⟨(.vec l fun i => A2 0 0 * A1 0 i, .num (A2 0 0 * c1 0 + c2 0)), rfl, ?_, ?_⟩
      · have := RepMatrix.row h (A2 * A1)
        rwa [show (A2 * A1) 0 = fun i => A2 0 0 * A1 0 i from funext e1] at this
      · rw [pointArr_one, e]
    | matrix h A1 =>
      refine ⟨(.mat 1 l (Matrix.of fun i j => A2 0 0 * A1 i j), .num (A2 0 0 * c1 0 + c2 0)), rfl, ?_, ?_⟩
      · have := RepMatrix.matrix h (A2 * A1)
        have e2 : A2 * A1 = Matrix.of fun i j => A2 0 0 * A1 i j := by
          funext i j
          obtain rfl := Subsingleton.elim i 0
          exact e1 j
        rw [e2] at this ⊢
        exact this
      · rw [pointArr_one, e]
  | column hn A2 =>
    have e : A2 *ᵥ c1 + c2 = (fun i => A2 i 0 * c1 0) + c2 := by
      funext i
      simp [mulVec, dotProduct]
    rcases hf.1 rfl with h | ⟨hl, _⟩
    · exact absurd h hn
    · subst hl
      rw [pointArr_one, pointArr_vec hn]
      obtain rfl := rep_square h1
      rw [matArr_one]
      refine ⟨(.vec n fun i => A2 i 0 * A1 0 0, .vec n ((fun i => A2 i 0 * c1 0) + c2)), ?_, ?_, ?_⟩
      · show (do
          let b ← npAdd (.vec n fun i => A2 i 0 * c1 0) (.vec n c2)
          return ((.vec n fun i => A2 i 0 * A1 0 0 : Arr K), b)) = _
        rw [npAdd_vec]
        rfl
      · have := RepMatrix.column hn (A2 * A1)
        rwa [show (fun i => (A2 * A1) i 0) = fun i => A2 i 0 * A1 0 0 from funext fun i => by simp [Matrix.mul_apply]] at this
      · rw [pointArr_vec hn, e]
  | row hm A2 =>
    have e : A2 *ᵥ c1 + c2 = fun _ => A2 0 ⬝ᵥ c1 + c2 0 := by
      funext i
      obtain rfl := Subsingleton.elim i 0
      simp [mulVec]
    rw [pointArr_one, pointArr_vec hm]
    cases h1 with
    | number => exact absurd rfl hm
    | row => exact absurd rfl hm
    | column h A1 =>
      refine ⟨(.num (A2 0 ⬝ᵥ fun i => A1 i 0), .num (A2 0 ⬝ᵥ c1 + c2 0)), ?_, ?_, ?_⟩
      · unfold affineComposition
        simp only [npDot_vec_vec, Py.bind_ok]
        rfl
      · exact RepMatrix.number (A2 * A1)
      · rw [pointArr_one, e]
    | matrix h A1 =>
      by_cases hl : l = 1
      · exact absurd ((hf.2 hm rfl).2 hl) (fun h => h)
      · refine ⟨(.vec l (A2 0 ᵥ* A1), .num (A2 0 ⬝ᵥ c1 + c2 0)), ?_, ?_, ?_⟩
        · unfold affineComposition
          simp only [npDot_vec_vec, npDot_vec_mat, Py.bind_ok]
          rfl
        · exact RepMatrix.row hl (A2 * A1)
        · rw [pointArr_one, e]
  | matrix h A2 =>
    by_cases hm : m = 1
    · rcases hf.1 hm with h' | ⟨_, h'⟩
      · omega
      · exact absurd h' (fun h => h)
    · have hn : n ≠ 1 := fun hn => absurd (hf.2 hm hn).1 (fun h => h)
      rw [pointArr_vec hm, pointArr_vec hn]
      cases h1 with
      | number => exact absurd rfl hm
      | row => exact absurd rfl hm
      | column h' A1 =>
        refine ⟨(.vec n (A2 *ᵥ fun i => A1 i 0), .vec n (A2 *ᵥ c1 + c2)), ?_, ?_, ?_⟩
        · unfold affineComposition
          simp only [npDot_mat_vec, Py.bind_ok, npAdd_vec, Py.pure_eq]
        · exact RepMatrix.column hn (A2 * A1)
        · rw [pointArr_vec hn]
      | matrix h' A1 =>
        refine ⟨(.mat n l (A2 * A1), .vec n (A2 *ᵥ c1 + c2)), ?_, ?_, ?_⟩
        · unfold affineComposition
          simp only [npDot_mat_vec, npDot_mat_mat, Py.bind_ok, npAdd_vec, Py.pure_eq]
        · exact RepMatrix.matrix (Or.inl hn) (A2 * A1)
        · rw [pointArr_vec hn]

/-- The second component of a composition, whatever the first one is. -/
theorem comp_snd {phi1 phi2 ab : Arr K × Arr K} (h : affineComposition phi1 phi2 = .ok ab) :
    npDot phi2.1 phi1.1 = .ok ab.1 ∧ ∃ y, npDot phi2.1 phi1.2 = .ok y ∧ npAdd y phi2.2 = .ok ab.2 := by
  unfold affineComposition at h
  cases h1 : npDot phi2.1 phi1.1 with
  | error e => rw [h1] at h; cases h
  | ok a =>
    cases h2 : npDot phi2.1 phi1.2 with
    | error e => rw [h1, h2] at h; cases h
    | ok y =>
      cases h3 : npAdd y phi2.2 with
      | error e => rw [h1, h2] at h; simp only [Py.bind_ok, h3] at h; cases h
      | ok b =>
        rw [h1, h2] at h
        simp only [Py.bind_ok, h3, Py.pure_eq, Except.ok.injEq] at h
        subst h
        exact ⟨rfl, y, rfl, h3⟩

theorem comp_fits {l m n : ℕ} {A1 : Matrix (Fin m) (Fin l) K} {A2 : Matrix (Fin n) (Fin m) K} {a1 a2 : Arr K} (c1 : Fin m → K) (c2 : Fin n → K)
    (h1 : RepMatrix A1 a1) (h2 : RepMatrix A2 a2) {ab : Arr K × Arr K}
    (hr : affineComposition (a1, pointArr c1) (a2, pointArr c2) = .ok ab) {A : Matrix (Fin n) (Fin l) K} {c : Fin n → K}
    (hab : RepMap A c ab) : Fits l m n a1 a2 := by
  obtain ⟨r1, y, r2, r3⟩ := comp_snd hr
  obtain ⟨q1, q2⟩ := hab
  cases h2 with
  | number A2 => exact ⟨fun _ => Or.inl rfl, fun h => absurd rfl h⟩
  | column hn A2 =>
    refine ⟨fun _ => Or.inr ⟨?_, trivial⟩, fun h => absurd rfl h⟩
    cases h1 with
    | number => rfl
    | column h => exact absurd rfl h
    | row h A1 =>
      exfalso
      simp only [npDot] at r1
      split at r1
      · simp only [Except.ok.injEq] at r1
        rw [← r1] at q1
        exact hn (rep_num q1).1
      · cases r1
    | matrix h A1 =>
      exfalso
      simp only [npDot, dif_neg hn] at r1
      cases r1
  | row hm A2 =>
    refine ⟨fun h => absurd h hm, fun _ _ => ⟨trivial, fun hl => ?_⟩⟩
    subst hl
    cases h1 with
    | number => exact absurd rfl hm
    | row => exact absurd rfl hm
    | column h A1 => trivial
    | matrix h A1 =>
      exfalso
      simp only [npDot_vec_mat, Except.ok.injEq] at r1
      rw [← r1] at q1
      rcases rep_vec q1 with h | h
      · exact h.1 rfl
      · exact h.2 rfl
  | matrix h A2 =>
    by_cases hm : m = 1
    · exfalso
      subst hm
      have hn : n ≠ 1 := by omega
      rw [pointArr_one] at r2
      have r2' : npDot (.mat n 1 A2) (.num (c1 0)) = .ok (.mat n 1 (Matrix.of fun i j => A2 i j * c1 0)) := rfl
      rw [r2'] at r2
      simp only [Except.ok.injEq] at r2
      subst r2
      rw [pointArr_vec hn] at r3
      have r3' := npOp_col_vec (· + ·) (Matrix.of fun i j => A2 i j * c1 0) c2
      unfold npAdd at r3
      rw [r3'] at r3
      simp only [Except.ok.injEq] at r3
      rw [← r3, pointArr_vec hn] at q2
      cases q2
    · refine ⟨fun h => absurd h hm, fun _ hn => ?_⟩
      exfalso
      subst hn
      rw [pointArr_vec hm] at r2
      simp only [npDot_mat_vec, Except.ok.injEq] at r2
      subst r2
      rw [pointArr_one] at r3
      have r3' : ab.2 = _ := (Except.ok.inj r3).symm
      rw [r3', pointArr_one] at q2
      cases q2

/-! ## The transformations of `simplex.py` -/

section
open SimplexGeometry Simplex
variable {k n : ℕ}

theorem fromUnit_arr (v : Vertices ℝ k n) (hk : k ≠ 0) (hkn : k ≤ n) : fromUnit v = .ok (matArr (edgeM v), pointArr (v 0)) := by
  unfold fromUnit
  rw [decide_eq_true hkn]
  simp only [pyAssert_true, Py.bind_ok]
  by_cases h : k = 1 ∧ n = 1
  · obtain ⟨rfl, rfl⟩ := h
    rw [dif_pos ⟨rfl, rfl⟩, matArr_one, pointArr_one]
    rfl
  · rw [dif_neg h, if_neg hk, matArr_mat (by tauto), pointArr_vec (by omega)]
    rfl

theorem toUnit_arr (v : Vertices ℝ k n) (hk : k ≠ 0) (h : NonDegenerate v) :
    ∃ phi, affineTransformationToUnit v = .ok phi ∧ toUnit v = .ok (matArr phi.1, pointArr phi.2) := by
  have hkn := nonDegenerate_le v h
  unfold affineTransformationToUnit toUnit
  rw [SimplexGeometry.fromUnit_eq v hk hkn, fromUnit_arr v hk hkn]
  simp only [Py.bind_ok]
  by_cases hn : n = k
  · subst hn
    rw [dif_pos rfl, if_neg (not_not.2 rfl)]
    have hdet : (edgeM v).det ≠ 0 := edgeDet_ne v h
    have h1 : (Matrix.of fun (i j : Fin n) => edgeM v (Fin.cast rfl i) j) = edgeM v := rfl
    have h2 : (fun i : Fin n => v 0 (Fin.cast rfl i)) = v 0 := rfl
    rw [h1, h2, inverse_rep _ _ hdet]
    unfold Simplex.inverseAffine
    rw [if_neg hdet]
    refine ⟨_, rfl, ?_⟩
    rfl
  · rw [dif_neg hn, if_pos hn, pseudo_rep (matArr_rep _) _ (by omega), if_neg (Linalg.gram_det ((nonDegenerate_iff v).1 h))]
    unfold SimplexGeometry.pseudoinverseAffine
    rw [(SimplexGeometry.isInvertible_iff _).2 (Linalg.gram_det ((nonDegenerate_iff v).1 h))]
    simp only [pyAssert_true, Py.bind_ok]
    refine ⟨_, rfl, ?_⟩
    rw [matArr_mat (Or.inr (by omega))]

theorem transformation_arr {m : ℕ} (v1 : Vertices ℝ k n) (v2 : Vertices ℝ k m) (hk : k ≠ 0) (h : NonDegenerate v1) (hm : k ≤ m) :
    ∃ phi, affineTransformationToUnit v1 = .ok phi ∧
      affineTransformationE v1 v2 = .ok (Simplex.affineComposition phi (edgeM v2, v2 0)) ∧
      affineTransformation v1 v2 = affineComposition (matArr phi.1, pointArr phi.2) (matArr (edgeM v2), pointArr (v2 0)) := by
  obtain ⟨phi, h1, h2⟩ := toUnit_arr v1 hk h
  refine ⟨phi, h1, ?_, ?_⟩
  · unfold affineTransformationE
    rw [h1, SimplexGeometry.fromUnit_eq v2 hk hm]
    rfl
  · unfold affineTransformation
    rw [h2, fromUnit_arr v2 hk hm]
    rfl

/-- The transformation to a line in a space of dimension `m > 1`: the offset is a matrix. -/
theorem line_comp {m n : ℕ} (hm : m ≠ 1) (P : Matrix (Fin 1) (Fin n) ℝ) (p : Fin 1 → ℝ) (E : Matrix (Fin m) (Fin 1) ℝ) (q : Fin m → ℝ) :
    affineComposition (matArr P, pointArr p) (matArr E, pointArr q) =
      .ok (.mat m n (E * P), .mat m m (Matrix.of fun i j => E i 0 * p 0 + q j)) := by
  have h1 : npDot (.mat m 1 E) (matArr P) = .ok (.mat m n (E * P)) := by
    by_cases hn : n = 1
    · subst hn
      rw [matArr_one]
      show Except.ok (Arr.mat m 1 (Matrix.of fun i j => E i j * P 0 0)) = _
      congr 2
      funext i j
      obtain rfl := Subsingleton.elim j 0
      simp [Matrix.mul_apply]
    · rw [matArr_mat (Or.inr hn), npDot_mat_mat]
  have h2 : npDot (.mat m 1 E) (.num (p 0)) = .ok (.mat m 1 (Matrix.of fun i j => E i j * p 0)) := rfl
  have h3 : npAdd (.mat m 1 (Matrix.of fun i j => E i j * p 0)) (.vec m q) = .ok (.mat m m (Matrix.of fun i j => E i 0 * p 0 + q j)) :=
    npOp_col_vec _ _ _
  rw [matArr_mat (Or.inl hm), pointArr_one, pointArr_vec hm]
  unfold affineComposition
  simp only [h1, h2, Py.bind_ok, h3, Py.pure_eq]

/-- The map created from a matrix and a square matrix as offset. -/
theorem create_matrix_offset {m n : ℕ} (hm : m ≠ 1) (A : Matrix (Fin m) (Fin n) ℝ) (b : Matrix (Fin m) (Fin m) ℝ) :
    ∃ f, createAffineMap (.mat m n A) (.mat m m b) false = .ok f ∧
      ∀ x, f [pointArr x] = .ok (.mat m m (Matrix.of fun i j => (A *ᵥ x) j + b i j)) := by
  by_cases hn : n = 1
  · subst hn
    refine ⟨single fun x => do
          let y ← npMul (.vec m fun i => A i 0) x
          npAdd y (.mat m m b), ?_, fun x => ?_⟩
    · simp [createAffineMap, hm, npLen]
    · rw [pointArr_one]
      show npAdd (.vec m fun i => A i 0 * x 0) (.mat m m b) = _
      have e : (A *ᵥ x) = fun i => A i 0 * x 0 := by
        funext i
        simp [mulVec, dotProduct]
      rw [e]
      exact npOp_vec_mat _ _ _
  · refine ⟨single fun x => do
          let y ← npDot (.mat m n A) x
          npAdd y (.mat m m b), ?_, fun x => ?_⟩
    · simp [createAffineMap, hm, hn, npLen]
      rfl
    · rw [pointArr_vec hn]
      show (do
        let y ← npDot (.mat m n A) (.vec n x)
        npAdd y (.mat m m b)) = _
      rw [npDot_mat_vec]
      exact npOp_vec_mat _ _ _

end

end Verif.AffineMap
