import Verif.Lemmas.CodeStr3
import Verif.Props.CodeGeneration
import Verif.Props.SimplexPolynomial
/-!
# C78: `code_str` returns the code of a function that computes the polynomial

The specification of Python functions given as text is `Verif.PyExpr.Calls` (Spec/CodeStr.lean): `Calls code name arg v` says that the text `code` is the
definition of a function `name`, and that the function returns `v` for the argument `arg`.
-/

namespace Verif.CodeGen
open Verif Verif.Str Verif.PyExpr Verif.Poly Verif.SPoly Verif.Simplex Verif.Spec

section
variable {K : Type} [Field K]

/-- **C78** A text defines at most one function, and the function has at most one value. -/
theorem C78_unambiguous (code fn fn' : Str) (arg u v : Value K) (h : Calls code fn arg u) (h' : Calls code fn' arg v) : fn = fn' ∧ u = v := h.unique h'

end

section
variable {K : Type} [Field K] [DecidableEq K] [CharZero K]

/-- **C78** `code_str` of a scalar valued polynomial (monomial, Bernstein or Lagrange basis), if its coefficients are printed exactly. -/
theorem C78_code_str (p : Obj K) (m : Nat) (f : (Fin m → K) → K) (h : Represents p m f) (num : K → Str) (hash : Int)
    (hnum : ∀ a, genCoeffs (K := K) p = .ok a → ∀ v ∈ a, PrintsExactly (num v) v) (fn : Str) (hfn : IsIdentifier fn) :
    ∃ code, codeStr num hash p fn = .ok code ∧ ∀ x : Fin m → K, Calls code fn (pointValue (List.ofFn x)) (.num (f x)) := by
  obtain ⟨e, h1, h2⟩ := codeStr_spec h hash hnum
  exact ⟨_, h1 fn, fun x => calls_unit (V := fun x => .num (f x)) (fun σ x hx => .num (h2 _ x (env_point hx))) hfn x⟩

/-- **C78** `code_str` of a vector valued polynomial. -/
theorem C78_code_str_vector {n : Nat} (p : Obj (Fin (n + 1) → K)) (m : Nat) (f : (Fin m → K) → Fin (n + 1) → K) (h : Represents p m f) (num : K → Str)
    (hash : Int) (hnum : ∀ a, genCoeffs (K := K) p = .ok a → ∀ v ∈ a, ∀ i, PrintsExactly (num (v i)) (v i)) (fn : Str) (hfn : IsIdentifier fn) :
    ∃ code, codeStrVector num hash p fn = .ok code ∧ ∀ x : Fin m → K, Calls code fn (pointValue (List.ofFn x)) (.array (List.ofFn (f x))) := by
  obtain ⟨e, h1, h2⟩ := codeStrVector_spec h hash hnum
  exact ⟨_, h1 fn, fun x => calls_unit (V := fun x => .array (List.ofFn (f x))) (fun σ x hx => .array (h2 _ x (env_point hx))) hfn x⟩

/-! ## Simplices -/

/-- The texts of the affine map to the unit simplex are literals for `A` and `b`: `str` of two numbers in dimension one, `__repr__` of two arrays
otherwise. -/
def PrintedAs {m : Nat} (str : K → Str) (reprMatrix : Matrix (Fin m) (Fin m) K → Str) (reprVector : (Fin m → K) → Str) (phi : Affine K m m)
    (A : Fin m → Fin m → K) (b : Fin m → K) : Prop :=
  (m = 1 → (∀ i j, PrintsExactly (str (phi.1 i j)) (A i j)) ∧ ∀ i, PrintsExactly (str (phi.2 i)) (b i)) ∧
    (m ≠ 1 → PrintsMatrix (reprMatrix phi.1) (List.ofFn fun i => List.ofFn (A i)) ∧ PrintsArray (reprVector phi.2) (List.ofFn b))

omit [DecidableEq K] [CharZero K] in
theorem simplexCode_calls {m : Nat} {str : K → Str} {reprMatrix : Matrix (Fin m) (Fin m) K → Str} {reprVector : (Fin m → K) → Str} {phi : Affine K m m}
    {A : Fin m → Fin m → K} {b : Fin m → K} (hp : PrintedAs str reprMatrix reprVector phi A b) {unitCode : Str → Py Str} {e : Str}
    (h : ∀ fn, unitCode fn = .ok ("def ".toList ++ fn ++ "(x):\n".toList ++ "    return ".toList ++ e ++ "\n".toList))
    {V : (Fin m → K) → Value K} (hV : Returns e V) {fn : Str} (hfn : IsIdentifier fn) :
    ∃ code, simplexCode str reprMatrix reprVector phi unitCode fn = .ok code ∧
      ∀ y : Fin m → K, Calls code fn (pointValue (List.ofFn y)) (V (fun i => ∑ j, A i j * y j + b i)) := by
  by_cases hm : m = 1
  · subst hm
    obtain ⟨h1, h2⟩ := hp.1 rfl
    refine ⟨_, simplexCode_one h fn, fun y => ?_⟩
    have := calls_one hV hfn (h1 0 0) (h2 0) (y 0)
    rw [show pointValue (List.ofFn y) = .num (y 0) by simp [pointValue]]
    rw [show (fun i => ∑ j, A i j * y j + b i) = fun _ => A 0 0 * y 0 + b 0 from funext fun i => by rw [Subsingleton.elim i 0]; simp]
    exact this
  · obtain ⟨h1, h2⟩ := hp.2 hm
    refine ⟨_, simplexCode_many hm h fn, fun y => ?_⟩
    rw [pointValue_many hm]
    exact calls_many hm hV hfn h1 h2 y

omit [DecidableEq K] [CharZero K] in
/-- A point is determined by its barycentric coordinates. -/
theorem up_of_bary {m : Nat} {v : Vertices K m m} {u x : Fin m → K} (h : IsBarycentric v x (Fin.cons (1 - ∑ i, u i) u)) :
    createAffineMap (up v) u = x := by
  rw [(up_bary v u).2, h.2]

/-- **C78** `code_str` of a scalar valued polynomial on a simplex computes with the printed affine map: the value is the value of the polynomial at the
point whose barycentric coordinates (other than the first) are `A y + b` for the printed matrix and vector. -/
theorem C78_simplex {m : Nat} (p : SObj K K m) (v : Vertices K m m) (f : (Fin m → K) → K) (h : RepresentsOn p v f) (num str : K → Str)
    (reprMatrix : Matrix (Fin m) (Fin m) K → Str) (reprVector : (Fin m → K) → Str) (hash : Int)
    (hnum : ∀ a, genCoeffs (K := K) p.poly = .ok a → ∀ v ∈ a, PrintsExactly (num v) v)
    (A : Fin m → Fin m → K) (b : Fin m → K) (hp : PrintedAs str reprMatrix reprVector p.phi A b) (fn : Str) (hfn : IsIdentifier fn) :
    ∃ code, simplexCodeStr num str reprMatrix reprVector hash p fn = .ok code ∧
      ∀ y x u : Fin m → K, (∀ i, u i = ∑ j, A i j * y j + b i) → IsBarycentric v x (Fin.cons (1 - ∑ i, u i) u) →
        Calls code fn (pointValue (List.ofFn y)) (.num (f x)) := by
  have hd := repOn_det h
  obtain ⟨-, -, h1⟩ := (repOn_iff hd).1 h
  obtain ⟨e, h2, h3⟩ := codeStr_spec h1 hash hnum
  obtain ⟨code, h4, h5⟩ := simplexCode_calls (V := fun x => .num (f (createAffineMap (up v) x))) hp h2 (fun σ x hx => .num (h3 _ x (env_point hx))) hfn
  refine ⟨code, h4, fun y x u hu hx => ?_⟩
  have := h5 y
  rw [← funext hu, up_of_bary hx] at this
  exact this

/-- **C78** The same for vector valued polynomials. -/
theorem C78_simplex_vector {m n : Nat} (p : SObj K (Fin (n + 1) → K) m) (v : Vertices K m m) (f : (Fin m → K) → Fin (n + 1) → K) (h : RepresentsOn p v f)
    (num str : K → Str) (reprMatrix : Matrix (Fin m) (Fin m) K → Str) (reprVector : (Fin m → K) → Str) (hash : Int)
    (hnum : ∀ a, genCoeffs (K := K) p.poly = .ok a → ∀ v ∈ a, ∀ i, PrintsExactly (num (v i)) (v i))
    (A : Fin m → Fin m → K) (b : Fin m → K) (hp : PrintedAs str reprMatrix reprVector p.phi A b) (fn : Str) (hfn : IsIdentifier fn) :
    ∃ code, simplexCodeStrVector num str reprMatrix reprVector hash p fn = .ok code ∧
      ∀ y x u : Fin m → K, (∀ i, u i = ∑ j, A i j * y j + b i) → IsBarycentric v x (Fin.cons (1 - ∑ i, u i) u) →
        Calls code fn (pointValue (List.ofFn y)) (.array (List.ofFn (f x))) := by
  have hd := repOn_det h
  obtain ⟨-, -, h1⟩ := (repOn_iff hd).1 h
  obtain ⟨e, h2, h3⟩ := codeStrVector_spec h1 hash hnum
  obtain ⟨code, h4, h5⟩ := simplexCode_calls (V := fun x => .array (List.ofFn (f (createAffineMap (up v) x)))) hp h2
    (fun σ x hx => .array (h3 _ x (env_point hx))) hfn
  refine ⟨code, h4, fun y x u hu hx => ?_⟩
  have := h5 y
  rw [← funext hu, up_of_bary hx] at this
  exact this

omit [CharZero K] in
/-- The map to the unit simplex yields barycentric coordinates. -/
theorem down_isBary {m : Nat} {v : Vertices K m m} (hd : edgeDet v ≠ 0) (y : Fin m → K) :
    IsBarycentric v y (Fin.cons (1 - ∑ i, createAffineMap (down v) y i) (createAffineMap (down v) y)) := by
  have := up_bary v (createAffineMap (down v) y)
  rw [up_down v hd] at this
  exact this

/-- **C78** If the affine map is printed exactly, the code computes the polynomial on the simplex. -/
theorem C78_simplex_exact {m : Nat} (p : SObj K K m) (v : Vertices K m m) (f : (Fin m → K) → K) (h : RepresentsOn p v f) (num str : K → Str)
    (reprMatrix : Matrix (Fin m) (Fin m) K → Str) (reprVector : (Fin m → K) → Str) (hash : Int)
    (hnum : ∀ a, genCoeffs (K := K) p.poly = .ok a → ∀ v ∈ a, PrintsExactly (num v) v)
    (hp : PrintedAs str reprMatrix reprVector p.phi p.phi.1 p.phi.2) (fn : Str) (hfn : IsIdentifier fn) :
    ∃ code, simplexCodeStr num str reprMatrix reprVector hash p fn = .ok code ∧
      ∀ y : Fin m → K, Calls code fn (pointValue (List.ofFn y)) (.num (f y)) := by
  obtain ⟨code, h1, h2⟩ := C78_simplex p v f h num str reprMatrix reprVector hash hnum _ _ hp fn hfn
  have hd := repOn_det h
  obtain ⟨-, h3, -⟩ := (repOn_iff hd).1 h
  exact ⟨code, h1, fun y => h2 y y (createAffineMap (down v) y) (fun i => by rw [h3]; rfl) (down_isBary hd y)⟩

/-- **C78** The same for vector valued polynomials. -/
theorem C78_simplex_vector_exact {m n : Nat} (p : SObj K (Fin (n + 1) → K) m) (v : Vertices K m m) (f : (Fin m → K) → Fin (n + 1) → K)
    (h : RepresentsOn p v f) (num str : K → Str) (reprMatrix : Matrix (Fin m) (Fin m) K → Str) (reprVector : (Fin m → K) → Str) (hash : Int)
    (hnum : ∀ a, genCoeffs (K := K) p.poly = .ok a → ∀ v ∈ a, ∀ i, PrintsExactly (num (v i)) (v i))
    (hp : PrintedAs str reprMatrix reprVector p.phi p.phi.1 p.phi.2) (fn : Str) (hfn : IsIdentifier fn) :
    ∃ code, simplexCodeStrVector num str reprMatrix reprVector hash p fn = .ok code ∧
      ∀ y : Fin m → K, Calls code fn (pointValue (List.ofFn y)) (.array (List.ofFn (f y))) := by
  obtain ⟨code, h1, h2⟩ := C78_simplex_vector p v f h num str reprMatrix reprVector hash hnum _ _ hp fn hfn
  have hd := repOn_det h
  obtain ⟨-, h3, -⟩ := (repOn_iff hd).1 h
  exact ⟨code, h1, fun y => h2 y y (createAffineMap (down v) y) (fun i => by rw [h3]; rfl) (down_isBary hd y)⟩

end

/-! ## Rounding -/

/-- The triangle with the vertices (0, 0), (3, 0) and (0, 3). -/
def bigTriangle : Vertices ℚ 2 2 := ![![0, 0], ![3, 0], ![0, 3]]

/-- What NumPy prints for the matrix of the map from the triangle to the unit triangle. -/
def thirdText : Str := "array([[0.33333333, 0.        ],\n       [0.        , 0.33333333]])".toList

theorem bigTriangle_det : edgeDet bigTriangle ≠ 0 := by
  simp [edgeDet, Matrix.det_fin_two, bigTriangle]

theorem scan_third (o : List Tok) (d : Nat) (rest : Str) : scan ⟨o, d, .idle⟩ ("0.33333333".toList ++ rest) = scan ⟨o, d, .frac 33333333 8⟩ rest := by
  rw [scan_append, show scan ⟨o, d, .idle⟩ "0.33333333".toList = some ⟨o, d, .frac 33333333 8⟩ by simp [scan, step, advance, start, flush, digit]]
  rfl

theorem scan_part1 (o : List Tok) (n k : Nat) : scan ⟨o, 3, .frac n k⟩ ", 0. ".toList = some ⟨o ++ [.float (n / 10 ^ k), .comma, .float 0], 3, .idle⟩ := by
  simp [scan, step, advance, start, flush, digit]
theorem scan_part2 (o : List Tok) : scan ⟨o, 3, .idle⟩ "],\n ".toList = some ⟨o ++ [.rbrk, .comma], 2, .idle⟩ := by
  simp [scan, step, advance, start, flush, digit]
theorem scan_part3 (o : List Tok) : scan ⟨o, 2, .idle⟩ "[0. ".toList = some ⟨o ++ [.lbrk, .float 0], 3, .idle⟩ := by
  simp [scan, step, advance, start, flush, digit]
theorem scan_part4 (o : List Tok) : scan ⟨o, 3, .idle⟩ ", ".toList = some ⟨o ++ [.comma], 3, .idle⟩ := by
  simp [scan, step, advance, start, flush, digit]
theorem scan_row (o : List Tok) (n k : Nat) (rest : Str) : scan ⟨o, 3, .frac n k⟩ (", 0.        ],\n       [0.        , ".toList ++ rest) =
        scan ⟨o ++ [.float (n / 10 ^ k), .comma, .float 0, .rbrk, .comma, .lbrk, .float 0, .comma], 3, .idle⟩ rest := by
  rw [show ", 0.        ],\n       [0.        , ".toList ++ rest = ", 0. ".toList ++ (List.replicate 7 ' ' ++ ("],\n ".toList ++ (List.replicate 6 ' ' ++
    ("[0. ".toList ++ (List.replicate 7 ' ' ++ (", ".toList ++ rest)))))) from rfl]
  rw [scan_append, scan_part1, Option.bind_some, scan_spaces, scan_append, scan_part2, Option.bind_some, scan_spaces, scan_append, scan_part3, Option.bind_some, scan_spaces, scan_append, scan_part4,
    Option.bind_some]
  simp only [List.append_assoc, List.cons_append, List.nil_append]

theorem prints_thirdText : PrintsMatrix thirdText [[(33333333 / 100000000 : ℚ), 0], [0, 33333333 / 100000000]] := by
  intro env
  have h4 : ∀ (o : List Tok) (n k : Nat), scan ⟨o, 3, .frac n k⟩ "]])".toList = some ⟨o ++ [.float (n / 10 ^ k), .rbrk, .rbrk, .rpar], 0, .idle⟩ := by
    intro o n k
    simp [scan, step, advance, start, flush]
  refine ⟨[.lbrk, .float ((33333333 : Nat) / 10 ^ 8), .comma, .float 0, .rbrk, .comma, .lbrk, .float 0, .comma, .float ((33333333 : Nat) / 10 ^ 8), .rbrk], ?_, ?_⟩
  · rw [show "np.".toList ++ thirdText = "np.array([[".toList ++ ("0.33333333".toList ++ (", 0.        ],\n       [0.        , ".toList ++
      ("0.33333333".toList ++ "]])".toList))) from rfl]
    unfold tokens
    rw [scan_append, show scan ⟨[], 0, .idle⟩ "np.array([[".toList = some ⟨[.name "np".toList, .dot, .name "array".toList, .lpar, .lbrk, .lbrk], 3, .idle⟩ by
      simp [scan, step, advance, start, flush], Option.bind_some, scan_third, scan_row, scan_third, h4]
    rfl
  · rw [show ((33333333 : Nat) / 10 ^ 8 : ℚ) = 33333333 / 100000000 by norm_num]
    have hf : ∀ q : ℚ, Parses env .sum [.float q] q := fun q => .sum (.term (.factor (.power (.float q))))
    exact .cons (a := [.float (33333333 / 100000000), .comma, .float 0]) (.cons (a := [.float (33333333 / 100000000)]) (hf _) (.one (hf _)))
      (.one (a := [.float 0, .comma, .float (33333333 / 100000000)]) (.cons (a := [.float 0]) (hf _) (.one (hf _))))

/-- **C78** NumPy prints eight digits, so that the code for a polynomial on a simplex can have other values than the polynomial: on the triangle with the
vertices (0, 0), (3, 0) and (0, 3) the polynomial of degree one that is 0, 1, 0 at the vertices has the value 1 at (3, 0), the code returns 0.99999999. -/
theorem C78_rounding (num str : ℚ → Str) (reprMatrix : Matrix (Fin 2) (Fin 2) ℚ → Str) (reprVector : (Fin 2 → ℚ) → Str) (hash : Int)
    (hm : reprMatrix !![1 / 3, 0; 0, 1 / 3] = thirdText) (hv : PrintsArray (reprVector 0) [(0 : ℚ), 0])
    (hnum : ∀ c : ℤ, PrintsExactly (num c) (c : ℚ)) (fn : Str) (hfn : IsIdentifier fn) :
    ∃ p code, SObj.new .bernstein [(0 : ℚ), 1, 0] bigTriangle (some 1) = .ok p ∧ p.call ![3, 0] = .ok 1 ∧
      simplexCodeStr num str reprMatrix reprVector hash p fn = .ok code ∧ Calls code fn (.array [(3 : ℚ), 0]) (.num (99999999 / 100000000)) := by
  obtain ⟨p, f, h1, h2, h3, h4, h5, h6⟩ := Props.C62_construct (K := ℚ) .bernstein [(0 : ℚ), 1, 0] bigTriangle 1 (by rfl) (Or.inr (by norm_num)) bigTriangle_det
  have hphi : p.phi = (!![1 / 3, 0; 0, 1 / 3], 0) := by
    rw [((repOn_iff bigTriangle_det).1 h5).2.1, down]
    have : (E bigTriangle)⁻¹ = !![1 / 3, 0; 0, 1 / 3] := by
      apply Matrix.inv_eq_right_inv
      ext i j
      fin_cases i <;> fin_cases j <;> simp [E, bigTriangle, Matrix.mul_apply]
    rw [this]
    refine Prod.ext rfl ?_
    ext i
    fin_cases i <;> simp [bigTriangle]
  have hval : ∀ x w, IsBarycentric bigTriangle x w → f x = w 1 := by
    intro x w hw
    rw [h6 x w hw, show MI.generateAll 2 1 = [[0, 0], [1, 0], [0, 1]] by decide]
    simp [linComb, basisFn, bernstein, multinomial, monomial]
  have hgen : ∀ a, genCoeffs (K := ℚ) p.poly = .ok a → a = [0, 1, 0] := by
    intro a ha
    have hpm : p.poly.m = 2 := ((repOn_iff bigTriangle_det).1 h5).2.2.dim
    have hmis : MI.mis 2 1 = [[0, 0], [1, 0], [0, 1]] := by rw [← MI.generateAll_eq_mis]; decide
    have hb := bernsteinA_tab (K := ℚ) p.poly (fun ν => if ν = [1, 0] then (1 : ℚ) else 0) (by rw [hpm, h3, h4, tab, hmis]; simp)
    unfold genCoeffs at ha
    rw [h2] at ha
    simp only at ha
    rw [hb, hpm, h4, tab, hmis] at ha
    rw [← Except.ok.inj ha]
    simp [multinomial]
  obtain ⟨code, h7, h8⟩ := C78_simplex p bigTriangle f h5 num str reprMatrix reprVector hash (by
    intro a ha v hv
    rw [hgen a ha] at hv
    have : v = ((0 : ℤ) : ℚ) ∨ v = ((1 : ℤ) : ℚ) := by
      simp at hv
      push_cast
      tauto
    rcases this with rfl | rfl <;> exact hnum _) ![![33333333 / 100000000, 0], ![0, 33333333 / 100000000]] ![0, 0] (by
    rw [hphi]
    refine ⟨fun h => absurd h (by norm_num), fun _ => ⟨?_, ?_⟩⟩
    · rw [hm]; exact prints_thirdText
    · exact hv) fn hfn
  refine ⟨p, code, h1, ?_, h7, ?_⟩
  · rw [h5.value, hval ![3, 0] ![0, 1, 0]]
    · simp
    · refine ⟨by simp [Fin.sum_univ_three], ?_⟩
      ext i
      fin_cases i <;> simp [Fin.sum_univ_three, bigTriangle]
  · have := h8 ![3, 0] ![3 * (99999999 / 100000000), 0] ![99999999 / 100000000, 0] (by
      intro i
      fin_cases i <;> simp [Fin.sum_univ_two]
      norm_num) (by
      refine ⟨by simp [Fin.sum_univ_succ], ?_⟩
      ext i
      fin_cases i <;> simp [Fin.sum_univ_succ, bigTriangle]
      ring)
    rw [hval _ (Fin.cons (1 - ∑ i, ![(99999999 / 100000000 : ℚ), 0] i) ![99999999 / 100000000, 0]) (by
      refine ⟨by simp [Fin.sum_univ_succ], ?_⟩
      ext i
      fin_cases i <;> simp [Fin.sum_univ_succ, bigTriangle]
      ring)] at this
    exact this

/-! ## Examples -/

/-- `str.replace`. -/
example : strReplace "def eval_1(x):\n    return x".toList "eval_1".toList "f".toList = "def f(x):\n    return x".toList := by decide

example : strReplace "aaaa".toList "aa".toList "b".toList = "bb".toList := by decide

/-- The code for the polynomial 1 - 2 x + 3 x². -/
example : codeStr (K := ℚ) (strNumber (fun _ => []) (fun _ a => a) false) 17 ⟨.monomial, [((1 : ℤ) : ℚ), ((-2 : ℤ) : ℚ), ((3 : ℤ) : ℚ)], 2, 1⟩ "f".toList =
    .ok "def f(x):\n    return 1 + x * (-2 + x * 3)\n".toList := by
  have h : ∀ n : ℤ, strNumber (fun _ => []) (fun _ a => a) false ((n : ℤ) : ℚ) = intStr n := by
    intro n
    unfold strNumber
    rw [if_pos (by simp)]
    simp
  unfold codeStr objCode evalText
  simp only [List.map_cons, List.map_nil, h]
  decide

/-- The hypotheses of `C78_code_str` hold for polynomials with integer coefficients. -/
example (c : List ℤ) (f : (Fin 1 → ℚ) → ℚ) (h : Represents (⟨.monomial, c.map (fun (n : ℤ) => (n : ℚ)), c.length - 1, 1⟩ : Obj ℚ) 1 f) :
    ∃ code, codeStr (strNumber (fun _ => []) (fun _ a => a) false) 17 (⟨.monomial, c.map (fun (n : ℤ) => (n : ℚ)), c.length - 1, 1⟩ : Obj ℚ) "f".toList = .ok code ∧
      ∀ x : Fin 1 → ℚ, Calls code "f".toList (pointValue (List.ofFn x)) (.num (f x)) := by
  refine C78_code_str _ 1 f h _ 17 ?_ _ (isIdentifier_letter 'f' (by decide))
  intro a ha v hv
  obtain rfl := Except.ok.inj ha
  obtain ⟨n, -, rfl⟩ := List.mem_map.1 hv
  have := C31_str_number (K := ℚ) (fun _ => []) (fun _ a => a) false ((n : ℤ) : ℚ) (Or.inr (Or.inl rfl))
  simpa using this

/-- An affine map that is printed exactly: 0.5 y - 1, the map of the interval from 2 to 4. -/
example : PrintedAs (m := 1) (fun (a : ℚ) => if a = 1 / 2 then "0.5".toList else "-1.0".toList) (fun _ => []) (fun _ => []) (!![1 / 2], ![-1])
    (fun _ _ => 1 / 2) (fun _ => -1) := by
  refine ⟨fun _ => ⟨fun i j => ?_, fun i => ?_⟩, fun h => absurd rfl h⟩
  · intro env
    refine ⟨[.float (1 / 2)], ?_, .term (.factor (.power (.float _)))⟩
    simp [tokens, scan, step, advance, flush, start, digit]
    norm_num
  · intro env
    refine ⟨[.minus, .float 1], ?_, ?_⟩
    · have : (fun (a : ℚ) => if a = 1 / 2 then "0.5".toList else "-1.0".toList) (((!![1 / 2], ![-1]) : Affine ℚ 1 1).2 i) = "-1.0".toList := by
        rw [Subsingleton.elim i 0]
        exact if_neg (by simp; norm_num)
      rw [this]
      simp [tokens, scan, step, advance, flush, start, digit]
    · exact .term (.neg (.factor (.power (.float 1))))

/-- The affine map of the triangle is printed by NumPy with eight digits, that is, as another map. -/
example : PrintedAs (m := 2) (fun _ : ℚ => []) (fun _ => thirdText) (fun _ => "array([0., 0.])".toList) (!![1 / 3, 0; 0, 1 / 3], 0)
    ![![33333333 / 100000000, 0], ![0, 33333333 / 100000000]] ![0, 0] := by
  refine ⟨fun h => absurd h (by norm_num), fun _ => ⟨prints_thirdText, fun env => ?_⟩⟩
  refine ⟨[.float 0, .comma, .float 0], ?_, .cons (a := [.float 0]) (.sum (.term (.factor (.power (.float 0))))) (.one (.sum (.term (.factor (.power (.float 0))))))⟩
  rw [show "np.".toList ++ "array([0., 0.])".toList = "np.array([".toList ++ ("0., ".toList ++ "0.])".toList) from rfl]
  unfold tokens
  rw [scan_append, show scan ⟨[], 0, .idle⟩ "np.array([".toList = some ⟨[.name "np".toList, .dot, .name "array".toList, .lpar, .lbrk], 2, .idle⟩ by
    simp [scan, step, advance, start, flush], Option.bind_some, scan_append, show ∀ o, scan ⟨o, 2, .idle⟩ "0., ".toList = some ⟨o ++ [.float 0, .comma], 2, .idle⟩ by
    intro o; simp [scan, step, advance, start, flush, digit], Option.bind_some,
    show ∀ o, scan ⟨o, 2, .idle⟩ "0.])".toList = some ⟨o ++ [.float 0, .rbrk, .rpar], 0, .idle⟩ by intro o; simp [scan, step, advance, start, flush, digit]]
  rfl

end Verif.CodeGen
