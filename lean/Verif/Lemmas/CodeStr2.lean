import Verif.Lemmas.CodeStr
import Verif.Lemmas.SimplexPolynomialOps
/-!
# Lemmas about `code_str`: the functions that the code defines
-/

namespace Verif.PyExpr
open Verif Verif.Str Verif.CodeGen Verif.Poly Verif.SPoly Verif.Simplex

variable {K : Type} [Field K]

theorem env_point {σ : Scope K} {l : List K} (h : σ "x".toList = some (pointValue l)) : σ.env "x".toList = some (pointArg l) := by
  unfold Scope.env
  rw [h]
  match l with
  | [] => rfl
  | [_] => rfl
  | _ :: _ :: _ => rfl

theorem isIdentifier_letter (c : Char) (h : c.isAlpha = true) : IsIdentifier [c] := by
  refine ⟨⟨c, [], rfl, Or.inl h⟩, fun d hd => ?_⟩
  rw [List.mem_singleton] at hd
  subst hd
  left
  unfold Char.isAlphanum
  rw [h]
  rfl

section
variable [DecidableEq K]

theorem codeStr_spec [CharZero K] {p : Obj K} {m : Nat} {f : (Fin m → K) → K} (h : Represents p m f) {num : K → Str} (hash : Int)
    (hnum : ∀ a, genCoeffs (K := K) p = .ok a → ∀ v ∈ a, PrintsExactly (num v) v) :
    ∃ e, (∀ fn, codeStr num hash p fn = .ok ("def ".toList ++ fn ++ "(x):\n".toList ++ "    return ".toList ++ e ++ "\n".toList)) ∧
      ∀ (env : Env K) (x : Fin m → K), env "x".toList = some (pointArg (List.ofFn x)) → Denotes env e (f x) := by
  obtain ⟨code, e, h1, ⟨-, h2⟩, h3⟩ := objCode_spec h hash hnum
  refine ⟨e, fun fn => ?_, h3⟩
  unfold codeStr
  rw [h1, Py.bind_ok]
  simp only
  rw [Py.pure_eq, h2, replace_name]
  exact denotes_underscore (h3 (scope (pointArg (List.ofFn fun _ => 0))) (fun _ => 0) (scope_x _))

theorem codeStrVector_spec [CharZero K] {n : Nat} {p : Obj (Fin (n + 1) → K)} {m : Nat} {f : (Fin m → K) → Fin (n + 1) → K} (h : Represents p m f)
    {num : K → Str} (hash : Int) (hnum : ∀ a, genCoeffs (K := K) p = .ok a → ∀ v ∈ a, ∀ i, PrintsExactly (num (v i)) (v i)) :
    ∃ e, (∀ fn, codeStrVector num hash p fn = .ok ("def ".toList ++ fn ++ "(x):\n".toList ++ "    return ".toList ++ e ++ "\n".toList)) ∧
      ∀ (env : Env K) (x : Fin m → K), env "x".toList = some (pointArg (List.ofFn x)) → DenotesArray env e (List.ofFn (f x)) := by
  obtain ⟨code, e, h1, ⟨-, h2⟩, h3⟩ := objCodeVector_spec h hash hnum
  refine ⟨e, fun fn => ?_, h3⟩
  unfold codeStrVector
  rw [h1, Py.bind_ok]
  simp only
  rw [Py.pure_eq, h2, replace_name]
  exact denotesArray_underscore (h3 (scope (pointArg (List.ofFn fun _ => 0))) (fun _ => 0) (scope_x _))

/-! ## Simplices -/

omit [Field K] [DecidableEq K] in
theorem split_tail (e : Str) : ∃ lines, pySplit ("def ".toList ++ "temp".toList ++ "(x):\n".toList ++ "    return ".toList ++ e ++ "\n".toList) "\n".toList = .ok lines ∧
    join "\n".toList (lines.drop 1) = "    return ".toList ++ e ++ "\n".toList := by
  obtain ⟨lines, h1, h2, h3, -⟩ := (C32_split ("def ".toList ++ "temp".toList ++ "(x):\n".toList ++ "    return ".toList ++ e ++ "\n".toList) "\n".toList).2 (by decide)
  refine ⟨lines, h1, ?_⟩
  obtain ⟨l, ls, rfl⟩ := List.exists_cons_of_ne_nil h2
  rw [show "\n".toList = ['\n'] from rfl] at h3 ⊢
  obtain ⟨l', h4, h5⟩ := first_line '\n' [] "def temp(x):".toList ('\n' :: ("    return ".toList ++ e ++ ['\n'])) (by decide) l ls (by
    rw [h3, show "(x):\n".toList = "(x):".toList ++ ['\n'] from rfl, show "def temp(x):".toList = "def ".toList ++ "temp".toList ++ "(x):".toList from rfl]
    simp only [List.append_assoc, List.cons_append, List.nil_append])
  rw [List.drop_succ_cons, List.drop_zero, join_eq]
  cases ls with
  | nil =>
    exfalso
    have h6 : l' = '\n' :: ("    return ".toList ++ e ++ ['\n']) := h5
    have := (C32_split ("def ".toList ++ "temp".toList ++ "(x):\n".toList ++ "    return ".toList ++ e ++ "\n".toList) "\n".toList).2 (by decide)
    obtain ⟨lines', h7, -, -, h8⟩ := this
    rw [h1] at h7
    have h9 := Except.ok.inj h7
    subst h9
    refine h8 l (by simp) ⟨"def temp(x):".toList, "    return ".toList ++ e ++ ['\n'], ?_⟩
    rw [h4, h6, show "\n".toList = ['\n'] from rfl]
    simp only [List.append_assoc, List.cons_append, List.nil_append]
  | cons q r =>
    rw [joinWith] at h5
    cases l' with
    | nil => simpa using h5
    | cons c l' =>
      exfalso
      rw [List.append_assoc, List.cons_append, List.cons.injEq] at h5
      have := (C32_split ("def ".toList ++ "temp".toList ++ "(x):\n".toList ++ "    return ".toList ++ e ++ "\n".toList) "\n".toList).2 (by decide)
      obtain ⟨lines', h7, -, -, h8⟩ := this
      rw [h1] at h7
      have h9 := Except.ok.inj h7
      subst h9
      refine h8 l (by simp) ⟨"def temp(x):".toList, l', ?_⟩
      rw [h4, h5.1, show "\n".toList = ['\n'] from rfl]
      simp only [List.append_assoc, List.cons_append, List.nil_append]

omit [Field K] [DecidableEq K] in
theorem wl_code (c : Str) (sc : List Str) (dl s : Str) (hs : s ≠ []) :
    (⟨1, c, sc, "    ".toList, dl⟩ : Writer).wl s = ⟨1, c ++ ("    ".toList ++ s ++ "\n".toList), sc, "    ".toList, dl⟩ := by
  rw [wl_eq]
  unfold lineText
  rw [if_neg (fun h => hs h.1)]
  rfl

omit [Field K] [DecidableEq K] in
theorem header_code (fn : Str) : (({} : Writer).wl ("def ".toList ++ fn ++ "(y):".toList)).incIndent =
    ⟨1, "def ".toList ++ fn ++ "(y):".toList ++ "\n".toList, [], "    ".toList, "::".toList⟩ := by
  rw [wl_eq]
  unfold lineText
  rw [if_neg (by rw [show "def ".toList = 'd' :: "ef ".toList from rfl]; simp)]
  rfl

omit [DecidableEq K] in
theorem mapLines_one (str : K → Str) (reprMatrix : Matrix (Fin 1) (Fin 1) K → Str) (reprVector : (Fin 1 → K) → Str) (phi : Affine K 1 1) (w : Writer) :
    mapLines str reprMatrix reprVector phi w = w.wl ("x = ".toList ++ str (phi.1 0 0) ++ " * y + ".toList ++ str (phi.2 0)) := by
  unfold mapLines
  rw [dif_pos rfl]
  rfl

omit [DecidableEq K] in
theorem simplexCode_one {str : K → Str} {reprMatrix : Matrix (Fin 1) (Fin 1) K → Str} {reprVector : (Fin 1 → K) → Str} {phi : Affine K 1 1}
    {unitCode : Str → Py Str} {e : Str}
    (h : ∀ fn, unitCode fn = .ok ("def ".toList ++ fn ++ "(x):\n".toList ++ "    return ".toList ++ e ++ "\n".toList)) (fn : Str) :
    simplexCode str reprMatrix reprVector phi unitCode fn = .ok ("def ".toList ++ fn ++ "(".toList ++ "y".toList ++ "):\n".toList ++
      ("    ".toList ++ "x".toList ++ " = ".toList ++ (str (phi.1 0 0) ++ " * ".toList ++ "y".toList ++ " + ".toList ++ str (phi.2 0)) ++ "\n".toList ++
        ("    return ".toList ++ e ++ "\n".toList))) := by
  obtain ⟨lines, h1, h2⟩ := split_tail e
  unfold simplexCode
  simp only
  rw [h, Py.bind_ok, h1, Py.bind_ok, Py.pure_eq, h2, mapLines_one]
  congr 1
  rw [header_code, wl_code _ _ _ _ (by rw [show "x = ".toList = 'x' :: " = ".toList from rfl]; simp)]
  simp only [Writer.decIndent, Writer.al]
  rw [show "x = ".toList = "x".toList ++ " = ".toList from rfl, show " * y + ".toList = " * ".toList ++ "y".toList ++ " + ".toList from rfl,
    show "(y):".toList = "(".toList ++ "y".toList ++ "):".toList from rfl, show "):\n".toList = "):".toList ++ "\n".toList from rfl]
  simp only [List.append_assoc]

omit [DecidableEq K] in
theorem simplexCode_many {m : Nat} (hm : m ≠ 1) {str : K → Str} {reprMatrix : Matrix (Fin m) (Fin m) K → Str} {reprVector : (Fin m → K) → Str}
    {phi : Affine K m m} {unitCode : Str → Py Str} {e : Str}
    (h : ∀ fn, unitCode fn = .ok ("def ".toList ++ fn ++ "(x):\n".toList ++ "    return ".toList ++ e ++ "\n".toList)) (fn : Str) :
    simplexCode str reprMatrix reprVector phi unitCode fn = .ok ("def ".toList ++ fn ++ "(".toList ++ "y".toList ++ "):\n".toList ++
      ("    ".toList ++ "a".toList ++ " = ".toList ++ ("np.".toList ++ reprMatrix phi.1) ++ "\n".toList ++
      ("    ".toList ++ "b".toList ++ " = ".toList ++ ("np.".toList ++ reprVector phi.2) ++ "\n".toList ++
      ("    ".toList ++ "x".toList ++ " = ".toList ++ ("np.dot(".toList ++ "a".toList ++ ", ".toList ++ "y".toList ++ ") + ".toList ++ "b".toList) ++ "\n".toList ++
        ("    return ".toList ++ e ++ "\n".toList))))) := by
  obtain ⟨lines, h1, h2⟩ := split_tail e
  unfold simplexCode mapLines
  simp only
  rw [h, Py.bind_ok, h1, Py.bind_ok, Py.pure_eq, h2, dif_neg hm]
  congr 1
  rw [header_code, wl_code _ _ _ _ (by rw [show "a = np.".toList = 'a' :: " = np.".toList from rfl]; simp),
    wl_code _ _ _ _ (by rw [show "b = np.".toList = 'b' :: " = np.".toList from rfl]; simp), wl_code _ _ _ _ (by decide)]
  simp only [Writer.decIndent, Writer.al]
  rw [show "a = np.".toList = "a".toList ++ " = ".toList ++ "np.".toList from rfl, show "b = np.".toList = "b".toList ++ " = ".toList ++ "np.".toList from rfl,
    show "x = np.dot(a, y) + b".toList = "x".toList ++ " = ".toList ++ "np.dot(".toList ++ "a".toList ++ ", ".toList ++ "y".toList ++ ") + ".toList ++ "b".toList from rfl,
    show "(y):".toList = "(".toList ++ "y".toList ++ "):".toList from rfl, show "):\n".toList = "):".toList ++ "\n".toList from rfl]
  simp only [List.append_assoc]

end

/-- The expression that is returned has the value `V x` when `x` is the point `x`. -/
def Returns {m : Nat} (e : Str) (V : (Fin m → K) → Value K) : Prop :=
  ∀ (σ : Scope K) (x : Fin m → K), σ "x".toList = some (pointValue (List.ofFn x)) → Evaluates σ e (V x)

theorem calls_unit {m : Nat} {e : Str} {V : (Fin m → K) → Value K} (h : Returns e V) {fn : Str} (hfn : IsIdentifier fn) (x : Fin m → K) :
    Calls ("def ".toList ++ fn ++ "(x):\n".toList ++ "    return ".toList ++ e ++ "\n".toList) fn (pointValue (List.ofFn x)) (V x) := by
  refine ⟨"x".toList, "    return ".toList ++ e ++ "\n".toList, hfn, isIdentifier_letter 'x' (by decide), ?_, .ret (h _ x (if_pos rfl))⟩
  rw [show "(x):\n".toList = "(".toList ++ "x".toList ++ "):\n".toList from rfl]
  simp only [List.append_assoc]

theorem txt_affine {σ : Scope K} {sa sb : Str} {a b y : K} (ha : PrintsExactly sa a) (hb : PrintsExactly sb b) (hy : σ "y".toList = some (.num y)) :
    Denotes σ.env (sa ++ " * ".toList ++ "y".toList ++ " + ".toList ++ sb) (a * y + b) := by
  obtain ⟨ta, h1, h2⟩ := txt_of_denotesTerm (ha σ.env)
  obtain ⟨tb, h3, h4⟩ := txt_of_denotesTerm (hb σ.env)
  have hv : σ.env "y".toList = some (.num y) := by unfold Scope.env; rw [hy]
  have h5 := ((h1.mid mid_star (lx_letter 'y' (by decide) (by decide))).mid mid_plus h3).tokens
  refine ⟨_, h5, ?_⟩
  rw [show (ta ++ [Tok.star] ++ [Tok.name ['y']]) ++ [Tok.plus] ++ tb = (ta ++ Tok.star :: [Tok.name ['y']]) ++ Tok.plus :: tb by simp]
  exact .add (.sum (.mul h2 (.factor (.power (.name hv))))) h4

theorem calls_one {e : Str} {V : (Fin 1 → K) → Value K} (h : Returns e V) {fn : Str} (hfn : IsIdentifier fn) {sa sb : Str} {a b : K}
    (ha : PrintsExactly sa a) (hb : PrintsExactly sb b) (y : K) :
    Calls ("def ".toList ++ fn ++ "(".toList ++ "y".toList ++ "):\n".toList ++
      ("    ".toList ++ "x".toList ++ " = ".toList ++ (sa ++ " * ".toList ++ "y".toList ++ " + ".toList ++ sb) ++ "\n".toList ++
        ("    return ".toList ++ e ++ "\n".toList))) fn (.num y) (V (fun _ => a * y + b)) := by
  refine ⟨"y".toList, _, hfn, isIdentifier_letter 'y' (by decide), rfl, ?_⟩
  refine .assign (u := .num (a * y + b)) (isIdentifier_letter 'x' (by decide)) (.num (txt_affine ha hb (if_pos rfl))) (.ret (h _ _ ?_))
  rw [Scope.set, if_pos rfl]
  rfl

theorem affineValue_ofFn {m n : Nat} (A : Fin n → Fin m → K) (y : Fin m → K) (b : Fin n → K) :
    affineValue (List.ofFn fun i => List.ofFn (A i)) (List.ofFn y) (List.ofFn b) = List.ofFn (fun i => ∑ j, A i j * y j + b i) := by
  unfold affineValue
  rw [List.map_ofFn]
  apply List.ext_getElem
  · simp
  · intro i h1 h2
    have hi : i < n := by simpa using h2
    simp only [List.getElem_zipWith, List.getElem_ofFn, Function.comp]
    congr 1
    rw [show List.zipWith (· * ·) (List.ofFn (A ⟨i, hi⟩)) (List.ofFn y) = List.ofFn (fun j => A ⟨i, hi⟩ j * y j) from ?_, List.sum_ofFn]
    apply List.ext_getElem
    · simp
    · intro j h3 h4
      simp

theorem pointValue_many {m : Nat} (hm : m ≠ 1) (x : Fin m → K) : pointValue (List.ofFn x) = .array (List.ofFn x) := by
  match m, hm with
  | 0, _ => rfl
  | m + 2, _ =>
    rw [List.ofFn_succ, List.ofFn_succ]
    rfl

theorem calls_many {m : Nat} (hm : m ≠ 1) {e : Str} {V : (Fin m → K) → Value K} (h : Returns e V) {fn : Str} (hfn : IsIdentifier fn) {sa sb : Str}
    {A : Fin m → Fin m → K} {b : Fin m → K} (ha : PrintsMatrix sa (List.ofFn fun i => List.ofFn (A i))) (hb : PrintsArray sb (List.ofFn b)) (y : Fin m → K) :
    Calls ("def ".toList ++ fn ++ "(".toList ++ "y".toList ++ "):\n".toList ++
      ("    ".toList ++ "a".toList ++ " = ".toList ++ ("np.".toList ++ sa) ++ "\n".toList ++
      ("    ".toList ++ "b".toList ++ " = ".toList ++ ("np.".toList ++ sb) ++ "\n".toList ++
      ("    ".toList ++ "x".toList ++ " = ".toList ++ ("np.dot(".toList ++ "a".toList ++ ", ".toList ++ "y".toList ++ ") + ".toList ++ "b".toList) ++ "\n".toList ++
        ("    return ".toList ++ e ++ "\n".toList))))) fn (.array (List.ofFn y)) (V (fun i => ∑ j, A i j * y j + b i)) := by
  refine ⟨"y".toList, _, hfn, isIdentifier_letter 'y' (by decide), rfl, ?_⟩
  refine .assign (isIdentifier_letter 'a' (by decide)) (.matrix (ha _)) ?_
  refine .assign (isIdentifier_letter 'b' (by decide)) (.array (hb _)) ?_
  refine .assign (isIdentifier_letter 'x' (by decide)) (.affine (rows := List.ofFn fun i => List.ofFn (A i)) (v := List.ofFn y) (w := List.ofFn b)
    (isIdentifier_letter 'a' (by decide)) (isIdentifier_letter 'y' (by decide)) (isIdentifier_letter 'b' (by decide)) ?_ ?_ ?_ ?_ ?_) (.ret (h _ _ ?_))
  · simp [Scope.set]
  · simp [Scope.set]
  · simp [Scope.set]
  · intro r hr
    rw [List.mem_ofFn] at hr
    obtain ⟨i, rfl⟩ := hr
    simp
  · simp
  · rw [Scope.set, if_pos rfl, affineValue_ofFn, pointValue_many hm]

end Verif.PyExpr
