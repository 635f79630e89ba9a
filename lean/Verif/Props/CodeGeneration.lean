import Verif.Lemmas.CodeGeneration3
import Verif.Lemmas.PyExprUnique
/-!
# C31: generated code computes the polynomial

The specification of Python expressions is `Verif.PyExpr` (tokens, grammar, values). `Denotes env s v` says that the text `s` is an expression with
the value `v` when the names have the values `env`. `mis m r` are the multi-indices of dimension `m` and norm at most `r`, in the order of
`generate_all`.
-/

namespace Verif.CodeGen
open Verif Verif.Str Verif.PyExpr Verif.Poly Verif.MI Verif.Spec

variable {K : Type} [Field K]

/-- A text has at most one value. -/
theorem C31_unambiguous (env : Env K) (s : Str) (u v : K) (hu : Denotes env s u) (hv : Denotes env s v) : u = v := by
  obtain ⟨ts, h1, h2⟩ := hu
  obtain ⟨ts', h3, h4⟩ := hv
  rw [h1] at h3
  obtain rfl := Option.some.inj h3
  exact h2.unique h4

/-- A text of an array has at most one value. -/
theorem C31_unambiguous_array (env : Env K) (s : Str) (us vs : List K) (hu : DenotesArray env s us) (hv : DenotesArray env s vs) : us = vs := by
  obtain ⟨ts, h1, h2⟩ := hu
  obtain ⟨ts', h3, h4⟩ := hv
  rw [h1] at h3
  have h5 := Option.some.inj h3
  rw [List.append_cancel_right_eq, List.append_cancel_left_eq] at h5
  rw [h5] at h2
  exact h2.unique h4

/-- The text for a basis monomial. -/
theorem C31_monomial_basis (x : List K) (ν : List Nat) (h : ν.length = x.length) (env : Env K) (hx : env "x".toList = some (pointArg x)) :
    DenotesTerm env (monomialBasisFnText ν) (monomial x ν) := (txt_monomialBasisFn hx h).denotesTerm

/-- The text for a barycentric basis polynomial. -/
theorem C31_barycentric_basis (x : List K) (ν : List Nat) (r : Nat) (h : ν.length = x.length) (hr : ν.sum ≤ r) (env : Env K)
    (hx : env "x".toList = some (pointArg x)) :
    DenotesTerm env (barycentricBasisFnText ν r) (monomial x ν * (1 - x.sum) ^ (r - ν.sum)) := (txt_barycentricBasisFn hx h hr).denotesTerm

/-- The text for a polynomial in the monomial basis (Horner form in dimension one), for coefficients given by texts. -/
theorem C31_monomial (x : List K) (r : Nat) (coeffs : List Str) (vs : List K) (env : Env K) (hx : env "x".toList = some (pointArg x))
    (hc : List.Forall₂ (DenotesTerm env) coeffs vs) (hlen : coeffs.length = getDimension r x.length) :
    ∃ s, monomialEval x.length r coeffs = .ok s ∧ Denotes env s (linComb (monomial x) (mis x.length r) vs) := by
  obtain ⟨s, h1, h2⟩ := txt_monomialEval hx (r := r) (hc.imp fun _ _ h => txt_of_denotesTerm h) hlen
  exact ⟨s, h1, h2.denotes⟩

/-- In dimension one the degree is not used: the text is the polynomial whose degree is given by the number of coefficients. -/
theorem C31_monomial_one (x : K) (r : Nat) (coeffs : List Str) (vs : List K) (env : Env K) (hx : env "x".toList = some (.num x))
    (hc : List.Forall₂ (DenotesTerm env) coeffs vs) (hne : coeffs ≠ []) :
    ∃ s, monomialEval 1 r coeffs = .ok s ∧ Denotes env s (∑ i ∈ Finset.range vs.length, vs.getD i 0 * x ^ i) := by
  obtain ⟨s, h1, h2⟩ := txt_horner hx (hc.imp fun _ _ h => txt_of_denotesTerm h) hne
  refine ⟨s, ?_, ?_⟩
  · unfold monomialEval
    rw [if_neg hne, if_pos rfl]
    exact h1
  · rw [show ∑ i ∈ Finset.range vs.length, vs.getD i 0 * x ^ i = (List.zipWith (fun (i : Nat) a => x ^ i * a) (List.range vs.length) vs).sum from ?_]
    · exact h2.denotes
    · rw [show List.zipWith (fun (i : Nat) a => x ^ i * a) (List.range vs.length) vs =
          (List.range vs.length).map (fun (i : Nat) => vs.getD i 0 * x ^ i) from ?_]
      · rfl
      · apply List.ext_getElem
        · simp
        · intro i h1 h2
          have hi : i < vs.length := by simpa using h2
          simp [List.getD_eq_getElem?_getD, hi, mul_comm]

/-- Wrong numbers of coefficients are rejected. -/
theorem C31_monomial_errors (m r : Nat) (coeffs : List Str) :
    (coeffs = [] → monomialEval m r coeffs = .error .index) ∧
      (coeffs ≠ [] → m ≠ 1 → coeffs.length ≠ getDimension r m → monomialEval m r coeffs = .error .assertion) := by
  constructor
  · rintro rfl
    rfl
  · intro h1 h2 h3
    unfold monomialEval
    rw [if_neg h1, if_neg h2]
    unfold strDotProduct
    rw [decide_eq_false (by rwa [monomialBasisText, List.length_map, generateAll_eq_mis, length_mis_eq]), pyAssert_false, Py.bind_error]

/-- The text for a polynomial in the barycentric basis, for coefficients given by texts. -/
theorem C31_barycentric (x : List K) (r : Nat) (coeffs : List Str) (vs : List K) (env : Env K) (hx : env "x".toList = some (pointArg x))
    (hc : List.Forall₂ (DenotesTerm env) coeffs vs) (hlen : coeffs.length = getDimension r x.length) :
    ∃ s, barycentricEval x.length r coeffs = .ok s ∧
      Denotes env s (linComb (fun ν => monomial x ν * (1 - x.sum) ^ (r - ν.sum)) (mis x.length r) vs) := by
  obtain ⟨s, h1, h2⟩ := txt_barycentricEval hx (r := r) (hc.imp fun _ _ h => txt_of_denotesTerm h) hlen
  exact ⟨s, h1, h2.denotes⟩

/-- Wrong numbers of coefficients are rejected. -/
theorem C31_barycentric_errors (m r : Nat) (coeffs : List Str) :
    (coeffs = [] → barycentricEval m r coeffs = .error .index) ∧
      (coeffs ≠ [] → coeffs.length ≠ getDimension r m → barycentricEval m r coeffs = .error .assertion) := by
  constructor
  · rintro rfl
    rfl
  · intro h1 h3
    unfold barycentricEval
    rw [if_neg h1]
    unfold strDotProduct
    rw [decide_eq_false (by rwa [barycentricBasisText, List.length_map, generateAll_eq_mis, length_mis_eq]), pyAssert_false, Py.bind_error]

/-- Wrapping a long expression over several lines does not change it. -/
theorem C31_wrapped (s : Str) : ∃ e, scalarBody s = .ok ("return ".toList ++ e) ∧
    ∀ (env : Env K) (v : K), Denotes env s v → Denotes env e v := by
  obtain ⟨e, h1, h2⟩ := txt_scalarBody (K := K) s
  refine ⟨e, h1, fun env v h => ?_⟩
  obtain ⟨ts, h3, h4⟩ := h
  exact (h2 env v ⟨ts, lx_of_tokens h3 h4.last, h4⟩).denotes

variable [DecidableEq K] [CharZero K]

/-- The text for a Lagrange basis polynomial. -/
theorem C31_lagrange_basis (num : K → Str) (m r : Nat) (ν : List Nat) (hν : ν ∈ mis m r)
    (hnum : ∀ c, getLagrangeBasisFnCoefficients K ν r = .ok c → ∀ v ∈ c, PrintsExactly (num v) v) :
    ∃ s, lagrangeBasisFnText num ν r = .ok s ∧ ∀ x : Fin m → K, Denotes (scope (pointArg (List.ofFn x))) s (lagrange r (List.ofFn x) ν) := by
  obtain ⟨s, h1, h2⟩ := lagrangeBasisFnText_spec hν hnum
  exact ⟨s, h1, fun x => (h2 _ x (scope_x _)).denotes⟩

/-- The code generated for a scalar valued polynomial object, in each of the three bases, defines a function that computes the polynomial. -/
theorem C31_code (p : Obj K) (m : Nat) (f : (Fin m → K) → K) (h : Represents p m f) (num : K → Str) (hash : Int)
    (hnum : ∀ a, genCoeffs (K := K) p = .ok a → ∀ v ∈ a, PrintsExactly (num v) v) :
    ∃ code name e, objCode num hash p = .ok (code, name) ∧ DefinesFunction code name e ∧
      ∀ x : Fin m → K, Denotes (scope (pointArg (List.ofFn x))) e (f x) := by
  obtain ⟨code, e, h1, h2, h3⟩ := objCode_spec h hash hnum
  exact ⟨code, _, e, h1, h2, fun x => h3 _ x (scope_x _)⟩

/-- The code generated for a vector valued polynomial object. -/
theorem C31_code_vector {n : Nat} (p : Obj (Fin (n + 1) → K)) (m : Nat) (f : (Fin m → K) → Fin (n + 1) → K) (h : Represents p m f) (num : K → Str)
    (hash : Int) (hnum : ∀ a, genCoeffs (K := K) p = .ok a → ∀ v ∈ a, ∀ i, PrintsExactly (num (v i)) (v i)) :
    ∃ code name e, objCodeVector num hash p = .ok (code, name) ∧ DefinesFunction code name e ∧
      ∀ x : Fin m → K, DenotesArray (scope (pointArg (List.ofFn x))) e (List.ofFn (f x)) := by
  obtain ⟨code, e, h1, h2, h3⟩ := objCodeVector_spec h hash hnum
  exact ⟨code, _, e, h1, h2, fun x => h3 _ x (scope_x _)⟩

omit [DecidableEq K] [CharZero K] in
/-- The function of coefficients and point for the monomial basis. -/
theorem C31_general_monomial (m r : Nat) (doc : Str) (hdoc : doc ≠ []) :
    ∃ code body lines e, monomialEval m r (strSequence "a".toList (getDimension r m)) = .ok code ∧ scalarBody code = .ok body ∧
      functionGeneral "monomial".toList m r doc body = .ok ("def monomial_polynomial_".toList ++ natStr m ++ natStr r ++ "(a, x):\n".toList ++
        (lines.map (fun l => lineIndent l ++ ['\n'])).flatten ++ "    return ".toList ++ e ++ "\n".toList) ∧
      (joinWith ['\n'] lines = doc ∨ joinWith ['\n'] lines ++ ['\n'] = doc) ∧
      ∀ (a : List K) (x : Fin m → K), a.length = getDimension r m →
        Denotes (scopeGeneral a (pointArg (List.ofFn x))) e (linComb (monomial (List.ofFn x)) (mis m r) a) := by
  obtain ⟨s, h1, h2⟩ := monomialEvalGeneral_spec (K := K) m r
  obtain ⟨e0, h3, h4⟩ := txt_scalarBody (K := K) s
  obtain ⟨ts, h5⟩ := tokens_of_txt (h4 _ _ (h2 (List.replicate (getDimension r m) 0) (fun _ => 0) (by simp)))
  obtain ⟨lines, e, h6, h7, h8⟩ := functionGeneral_spec "monomial".toList m r doc hdoc h5
  refine ⟨s, _, lines, e, h1, h3, ?_, h7, fun a x ha => ?_⟩
  · rw [h6]
    simp only [generalName]
    congr 1
  · obtain ⟨ts', h9, h10⟩ := h4 _ _ (h2 a x ha)
    exact ⟨ts', by rw [h8]; exact h9.tokens, h10⟩

omit [DecidableEq K] [CharZero K] in
/-- The function of coefficients and point for the barycentric basis. -/
theorem C31_general_barycentric (m r : Nat) (doc : Str) (hdoc : doc ≠ []) :
    ∃ code body lines e, barycentricEval m r (strSequence "a".toList (getDimension r m)) = .ok code ∧ scalarBody code = .ok body ∧
      functionGeneral "barycentric".toList m r doc body = .ok ("def barycentric_polynomial_".toList ++ natStr m ++ natStr r ++ "(a, x):\n".toList ++
        (lines.map (fun l => lineIndent l ++ ['\n'])).flatten ++ "    return ".toList ++ e ++ "\n".toList) ∧
      (joinWith ['\n'] lines = doc ∨ joinWith ['\n'] lines ++ ['\n'] = doc) ∧
      ∀ (a : List K) (x : Fin m → K), a.length = getDimension r m →
        Denotes (scopeGeneral a (pointArg (List.ofFn x))) e
          (linComb (fun ν => monomial (List.ofFn x) ν * (1 - (List.ofFn x).sum) ^ (r - ν.sum)) (mis m r) a) := by
  obtain ⟨s, h1, h2⟩ := barycentricEvalGeneral_spec (K := K) m r
  obtain ⟨e0, h3, h4⟩ := txt_scalarBody (K := K) s
  obtain ⟨ts, h5⟩ := tokens_of_txt (h4 _ _ (h2 (List.replicate (getDimension r m) 0) (fun _ => 0) (by simp)))
  obtain ⟨lines, e, h6, h7, h8⟩ := functionGeneral_spec "barycentric".toList m r doc hdoc h5
  refine ⟨s, _, lines, e, h1, h3, ?_, h7, fun a x ha => ?_⟩
  · rw [h6]
    simp only [generalName]
    congr 1
  · obtain ⟨ts', h9, h10⟩ := h4 _ _ (h2 a x ha)
    exact ⟨ts', by rw [h8]; exact h9.tokens, h10⟩

/-- The function of coefficients and point for the Lagrange basis. -/
theorem C31_general_lagrange (num : K → Str) (m r : Nat) (doc : Str) (hdoc : doc ≠ [])
    (hnum : ∀ ν ∈ mis m r, ∀ c, getLagrangeBasisFnCoefficients K ν r = .ok c → ∀ v ∈ c, PrintsExactly (num v) v) :
    ∃ code body lines e, lagrangeEvalGeneral num m r = .ok code ∧ wrapScalarLines code = .ok body ∧
      functionGeneral "lagrange".toList m r doc body = .ok ("def lagrange_polynomial_".toList ++ natStr m ++ natStr r ++ "(a, x):\n".toList ++
        (lines.map (fun l => lineIndent l ++ ['\n'])).flatten ++ "    return ".toList ++ e ++ "\n".toList) ∧
      (joinWith ['\n'] lines = doc ∨ joinWith ['\n'] lines ++ ['\n'] = doc) ∧
      ∀ (a : List K) (x : Fin m → K), a.length = getDimension r m →
        Denotes (scopeGeneral a (pointArg (List.ofFn x))) e (linComb (lagrange r (List.ofFn x)) (mis m r) a) := by
  obtain ⟨s, h1, h2⟩ := lagrangeEvalGeneral_spec hnum
  obtain ⟨e0, h3, h4⟩ := txt_wrapScalarLines (K := K) s
  obtain ⟨ts, h5⟩ := tokens_of_txt (h4 _ _ (h2 (List.replicate (getDimension r m) 0) (fun _ => 0) (by simp)))
  obtain ⟨lines, e, h6, h7, h8⟩ := functionGeneral_spec "lagrange".toList m r doc hdoc h5
  refine ⟨s, _, lines, e, h1, h3, ?_, h7, fun a x ha => ?_⟩
  · rw [h6]
    simp only [generalName]
    congr 1
  · obtain ⟨ts', h9, h10⟩ := h4 _ _ (h2 a x ha)
    exact ⟨ts', by rw [h8]; exact h9.tokens, h10⟩

/-! ## Printing numbers -/

omit [DecidableEq K] [CharZero K] in
theorem txt_intStr (env : Env K) (n : Int) : Txt env .term (intStr n) (n : K) := by
  cases n with
  | ofNat n =>
    have := (txt_nat (env := env) (K := K) n).term
    simpa [intStr] using this
  | negSucc n =>
    have := (txt_nat (env := env) (K := K) (n + 1)).term.neg_term
    rw [show intStr (Int.negSucc n) = '-' :: natStr (n + 1) from rfl]
    rw [Int.cast_negSucc]
    exact this

omit [DecidableEq K] in
/-- Numbers are printed exactly: integers, fractions with a denominator of at most 10 (printed as fractions, on request), and all numbers that `repr`
prints exactly and that are not printed as a fraction. -/
theorem C31_str_number (repr : ℚ → Str) (closest : Nat → ℚ → ℚ) (prettify : Bool) (a : ℚ)
    (h : a.den ≤ 10 ∧ prettify = true ∨ a.den = 1 ∨ PrintsExactly (repr a) (a : K) ∧ (prettify = false ∨ isNiceFraction closest a 10 = false)) :
    PrintsExactly (strNumber repr closest prettify a) (a : K) := by
  intro env
  unfold strNumber
  by_cases h1 : a.den = 1
  · rw [if_pos h1]
    have h2 := txt_intStr (K := K) env a.num
    rw [show ((a.num : Int) : K) = (a : K) by rw [Rat.cast_def a, h1]; simp] at h2
    exact h2.denotesTerm
  rw [if_neg h1]
  by_cases h2 : a.den ≤ 10 ∧ prettify = true
  · have h3 : isNiceFraction closest a 10 = true := by
      unfold isNiceFraction limitDenominator
      rw [if_pos h2.1]
      norm_num
    rw [h2.2, h3, Bool.and_self, if_pos rfl]
    unfold convertFloatToFraction limitDenominator
    have h4 : a.den ≤ 1000 := by omega
    have h5 : a.num ≠ 0 := by
      intro h5
      have : a = 0 := Rat.num_eq_zero.1 h5
      rw [this] at h1
      exact h1 rfl
    simp only [if_pos h4, if_neg h5, if_neg h1]
    obtain ⟨t1, h6, h7⟩ := txt_intStr (K := K) env a.num
    obtain ⟨t2, h8, h9⟩ := txt_nat (K := K) (env := env) a.den
    have hd : (a.den : K) ≠ 0 := by exact_mod_cast a.den_nz
    have h10 : Txt env .term (intStr a.num ++ " / ".toList ++ natStr a.den) (a : K) := by
      refine ⟨_, h6.mid mid_slash h8, ?_⟩
      rw [Rat.cast_def a, List.append_assoc]
      exact .div h7 (.factor (.power h9)) hd
    exact h10.denotesTerm
  · rcases h with h | h | h
    · exact absurd h h2
    · exact absurd h h1
    · have h3 : (prettify && isNiceFraction closest a 10) = false := by
        rcases h.2 with h3 | h3 <;> simp [h3]
      rw [h3, if_neg (by simp)]
      exact h.1 env

omit [DecidableEq K] in
/-- A fraction is printed exactly by `convert_float_to_fraction`. -/
theorem printsExactly_fraction (r : ℚ) : PrintsExactly (if r.num = 0 then "0".toList else if r.den = 1 then intStr r.num
    else intStr r.num ++ " / ".toList ++ natStr r.den) (r : K) := by
  intro env
  by_cases h0 : r.num = 0
  · have hr : r = 0 := Rat.num_eq_zero.1 h0
    rw [if_pos h0]
    have := txt_intStr (K := K) env 0
    rw [hr]
    simpa [intStr, natStr] using this.denotesTerm
  rw [if_neg h0]
  by_cases h1 : r.den = 1
  · rw [if_pos h1]
    have h2 := txt_intStr (K := K) env r.num
    rw [show ((r.num : Int) : K) = (r : K) by rw [Rat.cast_def r, h1]; simp] at h2
    exact h2.denotesTerm
  rw [if_neg h1]
  obtain ⟨t1, h6, h7⟩ := txt_intStr (K := K) env r.num
  obtain ⟨t2, h8, h9⟩ := txt_nat (K := K) (env := env) r.den
  have hd : (r.den : K) ≠ 0 := by exact_mod_cast r.den_nz
  have h10 : Txt env .term (intStr r.num ++ " / ".toList ++ natStr r.den) (r : K) := by
    refine ⟨_, h6.mid mid_slash h8, ?_⟩
    rw [Rat.cast_def r, List.append_assoc]
    exact .div h7 (.factor (.power h9)) hd
  exact h10.denotesTerm

omit [DecidableEq K] in
/-- A printed number differs from the given number by less than `10⁻¹⁰`, if `repr` prints exactly and `closest n a` is a fraction with a denominator of at
most `n` as close to `a` as possible. -/
theorem C31_str_number_close (repr : ℚ → Str) (closest : Nat → ℚ → ℚ) (prettify : Bool) (a : ℚ) (hr : PrintsExactly (repr a) (a : K))
    (hc : ∀ n, 0 < n → (closest n a).den ≤ n ∧ ∀ b : ℚ, b.den ≤ n → |closest n a - a| ≤ |b - a|) :
    ∃ b : ℚ, |b - a| < 1 / 10000000000 ∧ PrintsExactly (strNumber repr closest prettify a) (b : K) := by
  have hlim : ∀ n, 0 < n → (limitDenominator closest n a).den ≤ n ∧ ∀ b : ℚ, b.den ≤ n → |limitDenominator closest n a - a| ≤ |b - a| := by
    intro n hn
    unfold limitDenominator
    by_cases h : a.den ≤ n
    · rw [if_pos h]; exact ⟨h, fun b _ => by simp⟩
    · rw [if_neg h]; exact hc n hn
  by_cases h : a.den = 1 ∨ (prettify && isNiceFraction closest a 10) = false
  · refine ⟨a, by simp, C31_str_number repr closest prettify a ?_⟩
    rcases h with h | h
    · exact Or.inr (Or.inl h)
    · refine Or.inr (Or.inr ⟨hr, ?_⟩)
      cases prettify with
      | false => exact Or.inl rfl
      | true => exact Or.inr (by simpa using h)
  · push Not at h
    obtain ⟨h1, h2⟩ := h
    have h2' : (prettify && isNiceFraction closest a 10) = true := by simpa using h2
    refine ⟨limitDenominator closest 1000 a, ?_, ?_⟩
    · have h3 : isNiceFraction closest a 10 = true := (Bool.and_eq_true _ _ ▸ h2').2
      unfold isNiceFraction at h3
      simp only [decide_eq_true_eq] at h3
      refine lt_of_le_of_lt ((hlim 1000 (by norm_num)).2 (limitDenominator closest 10 a) ((hlim 10 (by norm_num)).1.trans (by norm_num))) ?_
      rcases lt_or_ge (limitDenominator closest 10 a - a) 0 with h4 | h4
      · rw [if_pos h4] at h3; rwa [abs_of_neg h4]
      · rw [if_neg (not_lt.2 h4)] at h3; rwa [abs_of_nonneg h4]
    · unfold strNumber
      rw [if_neg h1, h2', if_pos rfl]
      exact printsExactly_fraction _

/-- A number within `10⁻¹⁰` of a fraction with a small denominator is printed as that fraction on request, so that its value changes. -/
theorem C31_str_number_rounds : ∃ (a : ℚ), (∀ b : ℚ, b.den ≤ 10 → |1 / 2 - a| ≤ |b - a|) ∧
    ∀ (repr : ℚ → Str) (closest : Nat → ℚ → ℚ), closest 10 a = 1 / 2 → closest 1000 a = 1 / 2 →
      strNumber repr closest true a = "1 / 2".toList ∧ a ≠ 1 / 2 := by
  refine ⟨1 / 2 + 1 / 100000000000, fun b hb => ?_, fun repr closest h1 h2 => ⟨?_, by norm_num⟩⟩
  · by_cases hb2 : b = 1 / 2
    · rw [hb2]
    · have hd : (0 : ℚ) < b.den := by exact_mod_cast b.pos
      have hb10 : (b.den : ℚ) ≤ 10 := by exact_mod_cast hb
      have hn : b = b.num / b.den := (Rat.num_div_den b).symm
      have hne : 2 * b.num ≠ b.den := by
        intro h
        apply hb2
        have h' : (2 : ℚ) * b.num = b.den := by exact_mod_cast h
        rw [hn, div_eq_div_iff hd.ne' (by norm_num)]
        linarith
      have h1 : (1 : ℚ) ≤ |2 * (b.num : ℚ) - (b.den : ℚ)| := by
        have : (1 : ℤ) ≤ |2 * b.num - b.den| := Int.one_le_abs (by omega)
        have h : ((1 : ℤ) : ℚ) ≤ ((|2 * b.num - b.den| : ℤ) : ℚ) := Int.cast_le.2 this
        rw [Int.cast_abs] at h
        push_cast at h
        exact h
      have h2 : 1 / 20 ≤ |b - 1 / 2| := by
        have h3 : b - 1 / 2 = (2 * b.num - b.den) / (2 * b.den) := by
          conv_lhs => rw [hn]
          field_simp
        rw [h3, abs_div, abs_of_pos (show (0 : ℚ) < 2 * b.den by linarith), div_le_div_iff₀ (by norm_num) (by linarith)]
        linarith
      have h3 : |(1 / 2 : ℚ) - (1 / 2 + 1 / 100000000000)| = 1 / 100000000000 := by norm_num [abs_of_neg]
      rw [h3]
      rcases abs_cases (b - 1 / 2) with ⟨h4, h6⟩ | ⟨h4, h6⟩ <;>
        rcases abs_cases (b - (1 / 2 + 1 / 100000000000)) with ⟨h5, h7⟩ | ⟨h5, h7⟩ <;> rw [h5] <;> rw [h4] at h2 <;> linarith
  · have hd : (1 / 2 + 1 / 100000000000 : ℚ).den = 100000000000 := by
      rw [show (1 / 2 + 1 / 100000000000 : ℚ) = ((50000000001 : ℤ) : ℚ) / ((100000000000 : ℤ) : ℚ) by norm_num]
      have := Rat.den_div_eq_of_coprime (a := 50000000001) (b := 100000000000) (by norm_num) (by norm_num)
      exact_mod_cast this
    have hhalf : (1 / 2 : ℚ).num = 1 ∧ (1 / 2 : ℚ).den = 2 := by
      rw [show (1 / 2 : ℚ) = ((1 : ℤ) : ℚ) / ((2 : ℤ) : ℚ) by norm_num]
      refine ⟨Rat.num_div_eq_of_coprime (by norm_num) (by norm_num), ?_⟩
      have := Rat.den_div_eq_of_coprime (a := 1) (b := 2) (by norm_num) (by norm_num)
      exact_mod_cast this
    unfold strNumber isNiceFraction convertFloatToFraction limitDenominator
    simp only [hd, h1, h2, hhalf.1, hhalf.2]
    norm_num
    rfl

/-! ## Examples -/

/-- Numbers as Python prints them. -/
example : tokens "0.5".toList = some [.float (1 / 2)] := by
  simp [tokens, scan, step, advance, flush, start, digit]
  norm_num

example : tokens "-2.5e+16".toList = some [.minus, .float 25000000000000000] := by
  simp [tokens, scan, step, advance, flush, start, digit]
  norm_num

example : PrintsExactly "-0.125".toList (-1 / 8 : ℚ) := by
  intro env
  refine ⟨[.minus, .float (1 / 8)], ?_, ?_⟩
  · simp [tokens, scan, step, advance, flush, start, digit]
    norm_num
  · rw [show (-1 / 8 : ℚ) = -(((1 / 8 : ℚ) : ℚ)) by norm_num]
    exact .term (.neg (.factor (.power (.float _))))

/-- A power binds tighter than a sign on its left. -/
example : Denotes (scope (.num 3)) "-x**2".toList (-9 : ℚ) := by
  refine ⟨[.minus, .name "x".toList, .pow, .int 2], ?_, ?_⟩
  · simp [tokens, scan, step, advance, flush, start, digit]
  · rw [show (-9 : ℚ) = -(3 ^ 2) by norm_num]
    exact .sum (.term (.neg (.factor (.pow (a := [.name "x".toList]) 2 (.name (scope_x _))))))

example : ¬ Denotes (scope (.num 3)) "-x**2".toList (9 : ℚ) := by
  intro h
  have h2 : Denotes (scope (.num 3)) "-x**2".toList (-9 : ℚ) := by
    refine ⟨[.minus, .name "x".toList, .pow, .int 2], ?_, ?_⟩
    · simp [tokens, scan, step, advance, flush, start, digit]
    · rw [show (-9 : ℚ) = -(3 ^ 2) by norm_num]
      exact .sum (.term (.neg (.factor (.pow (a := [.name "x".toList]) 2 (.name (scope_x _))))))
  have := C31_unambiguous _ _ _ _ h h2
  norm_num at this

/-- The texts in the documentation of the code. -/
example : barycentricBasisFnText [1, 1] 3 = "x[0] * x[1] * (1 - x[0] - x[1])".toList := by decide

example : monomialBasisFnText [5, 0, 1] = "x[0]**5 * x[2]".toList := by decide

example : monomialEval 1 2 ["1".toList, "-2".toList, "3".toList] = .ok "1 + x * (-2 + x * 3)".toList := by decide

example : monomialEval 2 1 ["1".toList, "0".toList, "-2".toList] = .ok "1 - 2 * x[1]".toList := by decide

/-- The hypotheses of `C31_code` hold for polynomials with integer coefficients. -/
example (c : List ℤ) (h : (Obj.mk .monomial (c.map (fun (n : ℤ) => (n : ℚ))) (c.length - 1) 1 : Obj ℚ).Valid) (num : ℚ → Str)
    (hn : num = strNumber (fun _ => []) (fun _ a => a) false) :
    ∀ a, genCoeffs (K := ℚ) (Obj.mk .monomial (c.map (fun (n : ℤ) => (n : ℚ))) (c.length - 1) 1) = .ok a → ∀ v ∈ a, PrintsExactly (num v) v := by
  intro a ha v hv
  obtain rfl := Except.ok.inj ha
  obtain ⟨n, -, rfl⟩ := List.mem_map.1 hv
  rw [hn]
  have := C31_str_number (K := ℚ) (fun _ => []) (fun _ a => a) false ((n : ℤ) : ℚ) (Or.inr (Or.inl rfl))
  simpa using this

end Verif.CodeGen
