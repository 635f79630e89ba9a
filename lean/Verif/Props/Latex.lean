import Verif.Lemmas.Latex7
import Verif.Lemmas.PyExprUnique
import Verif.Lemmas.SimplexDual
import Verif.Props.SimplexPolynomial
import Verif.Lemmas.LagrangeDenominators
/-!
# C75: LaTeX formulas

The specification of LaTeX formulas is `Verif.Latex` in Spec/Latex.lean (characters and control words, symbols, the entries of matrices, products of
adjacent operands, and the grammar of arithmetic expressions). `Denotes env s v` says that the formula `s` has the value `v` when the names in it have
the values `env`; `DenotesVector` is the same for a vector. `Variables env x` says that `x` (or `x_1`, `x_2`, ..) have the values of the coordinates of
the point `x`. `Describes` says that the names in the formula for a polynomial have their values at the point `x`. `mis m r` are the multi-indices of
dimension `m` and norm at most `r`, in the order of `generate_all`.
-/

namespace Verif.Props
open Verif Verif.Str Verif.CodeGen Verif.Poly Verif.MI Verif.Spec Verif.Latex
open Verif.PyExpr (Env Val Parses Level Tok)

section
variable {K : Type} [Field K]

/-- **C75** A formula has at most one value. -/
theorem C75_unambiguous (env : Env K) (n i : Nat) (s : Str) (u v : K) (hu : DenotesEntry env n i s u) (hv : DenotesEntry env n i s v) : u = v := by
  obtain ⟨l, ts, h1, h2, h3⟩ := hu
  obtain ⟨l', ts', h1', h2', h3'⟩ := hv
  obtain rfl := Option.some.inj (h1.symm.trans h1')
  obtain rfl := Option.some.inj (h2.symm.trans h2')
  exact h3.unique h3'

/-- **C75** The names are different, so that for each point `x` and coefficients `a` there is an assignment of values to the names in all the
formulas. -/
theorem C75_scope (x a : List K) : ∃ env : Env K, Variables env x ∧ (∀ b r, Describes env b r x) ∧
    ∀ j (h : j < a.length), env (subscripted 'a' (natStr j)) = some (.num a[j]) := by
  classical
  let P : Str → K → Prop := fun s v => (∃ i, ∃ h : i < x.length, s = variableName x.length (i + 1) ∧ v = x[i]) ∨
    (∃ nu r, s = functionName 'b' nu r ∧ v = Spec.bernstein r x nu) ∨ (∃ nu r, s = functionName 'l' nu r ∧ v = Spec.lagrange r x nu) ∨
    ∃ j, ∃ h : j < a.length, s = subscripted 'a' (natStr j) ∧ v = a[j]
  have head : ∀ i c s, variableName x.length i = subscripted c s → c = 'x' := by
    intro i c s h
    unfold variableName subscripted at h
    split at h
    · exact absurd (List.cons.inj h).2 (by simp)
    · exact (List.cons.inj h).1.symm
  have var : ∀ i j, i < x.length → j < x.length → variableName x.length (i + 1) = variableName x.length (j + 1) → i = j := by
    intro i j hi hj h
    unfold variableName at h
    by_cases h1 : x.length = 1
    · omega
    · rw [if_neg h1, if_neg h1] at h
      have h2 := natStr_inj (a := i + 1) (b := j + 1) (List.cons.inj (List.cons.inj h).2).2
      omega
  have uniq : ∀ s u v, P s u → P s v → u = v := by
    rintro s u v (⟨i, hi, rfl, rfl⟩ | ⟨nu, r, rfl, rfl⟩ | ⟨nu, r, rfl, rfl⟩ | ⟨j, hj, rfl, rfl⟩) h
    · rcases h with (⟨i', hi', h, rfl⟩ | ⟨nu', r', h, rfl⟩ | ⟨nu', r', h, rfl⟩ | ⟨j', hj', h, rfl⟩)
      · obtain rfl := var _ _ hi hi' h
        rfl
      · exact absurd (head _ _ _ h) (by decide)
      · exact absurd (head _ _ _ h) (by decide)
      · exact absurd (head _ _ _ h) (by decide)
    · rcases h with (⟨i', hi', h, rfl⟩ | ⟨nu', r', h, rfl⟩ | ⟨nu', r', h, rfl⟩ | ⟨j', hj', h, rfl⟩)
      · exact absurd (head _ _ _ h.symm) (by decide)
      · obtain ⟨-, rfl, rfl⟩ := functionName_inj h
        rfl
      · exact absurd (functionName_inj h).1 (by decide)
      · exact absurd (List.cons.inj h).1 (by decide)
    · rcases h with (⟨i', hi', h, rfl⟩ | ⟨nu', r', h, rfl⟩ | ⟨nu', r', h, rfl⟩ | ⟨j', hj', h, rfl⟩)
      · exact absurd (head _ _ _ h.symm) (by decide)
      · exact absurd (functionName_inj h).1 (by decide)
      · obtain ⟨-, rfl, rfl⟩ := functionName_inj h
        rfl
      · exact absurd (List.cons.inj h).1 (by decide)
    · rcases h with (⟨i', hi', h, rfl⟩ | ⟨nu', r', h, rfl⟩ | ⟨nu', r', h, rfl⟩ | ⟨j', hj', h, rfl⟩)
      · exact absurd (head _ _ _ h.symm) (by decide)
      · exact absurd (List.cons.inj h).1 (by decide)
      · exact absurd (List.cons.inj h).1 (by decide)
      · obtain rfl := natStr_inj (List.cons.inj (List.cons.inj h).2).2
        rfl
  let env : Env K := fun s => if h : ∃ v, P s v then some (.num h.choose) else none
  have key : ∀ s v, P s v → env s = some (.num v) := by
    intro s v h
    have h' : ∃ v, P s v := ⟨v, h⟩
    simp only [env, dif_pos h']
    rw [uniq s _ _ h'.choose_spec h]
  refine ⟨env, fun i h => key _ _ (Or.inl ⟨i, h, rfl, rfl⟩), fun b r => ?_, fun j h => key _ _ (Or.inr (Or.inr (Or.inr ⟨j, h, rfl, rfl⟩)))⟩
  cases b with
  | monomial => exact fun i h => key _ _ (Or.inl ⟨i, h, rfl, rfl⟩)
  | bernstein => exact fun nu _ _ => key _ _ (Or.inr (Or.inl ⟨nu, r, rfl, rfl⟩))
  | lagrange => exact fun nu _ _ => key _ _ (Or.inr (Or.inr (Or.inl ⟨nu, r, rfl, rfl⟩)))

/-- **C75** The formula for a monomial with at most nine variables and exponents of at most nine. -/
theorem C75_monomial_basis_fn (env : Env K) (x : List K) (ν : List Nat) (hl : ν.length = x.length) (hm : x.length ≤ 9) (hk : ∀ k ∈ ν, k ≤ 9)
    (hx : Variables env x) : Denotes env (monomialBasisFnLatex ν) (monomial x ν) :=
  (rhs_monomial hx hm hl hk).txt.sum.denotes rfl

/-- **C75** The formulas for the monomial basis, in the order of the multi-indices. -/
theorem C75_monomial_basis (env : Env K) (x : List K) (r : Nat) (hm : x.length ≤ 9) (hr : r ≤ 9) (hx : Variables env x) :
    List.Forall₂ (Denotes env) (monomialBasisLatex r x.length) ((mis x.length r).map (monomial x)) :=
  (forall₂_monomialBasisLatex hx hm hr).imp fun _ _ h => h.txt.sum.denotes rfl

/-- **C75** With an exponent of two digits the formula has another value: `x^12` is `x^1` times 2. -/
theorem C75_monomial_large_exponent (env : Env K) (x : K) (k : Nat) (h1 : 10 ≤ k) (h2 : k ≤ 99) (hx : Variables env [x]) :
    Denotes env (monomialBasisFnLatex [k]) (x ^ (k / 10) * (k % 10 : Nat)) := by
  have e : natStr k = natStr (k / 10) ++ natStr (k % 10) := by
    interval_cases k <;> decide
  have e2 : monomialBasisFnLatex [k] = "x".toList ++ ("^".toList ++ natStr (k / 10)) ++ natStr (k % 10) := by
    have h3 : k ≠ 0 := by omega
    have h4 : k ≠ 1 := by omega
    simp [monomialBasisFnLatex, powerParts, variableNames, h3, h4, join, e]
  have hl := ((lx_x (n := 0) (i := 0)).append (lx_pow (show k / 10 ≤ 9 by omega)) (Or.inr rfl)).append (lx_natStr (k % 10)) (Or.inl rfl)
  rw [e2]
  refine Txt.denotes (b := true) (d := false) rfl ⟨_, hl, ?_⟩
  have hp : Parses env .atom [.name "x".toList] x := .name (hx 0 (by simp))
  have := Parses.sum (Parses.mul (.term (.factor (.pow (k / 10) hp))) (.factor (.power (.int (k % 10)))))
  simpa [times, ends, starts] using this

/-- **C75** In ten dimensions the formula for the last coordinate is `x_10`, which is `x_1` times 0. -/
theorem C75_monomial_many_variables (env : Env K) (x : List K) (h : x.length = 10) (hx : Variables env x) :
    Denotes env (monomialBasisFnLatex [0, 0, 0, 0, 0, 0, 0, 0, 0, 1]) 0 := by
  have e : monomialBasisFnLatex [0, 0, 0, 0, 0, 0, 0, 0, 0, 1] = ['x'] ++ "_".toList ++ natStr 1 ++ natStr 0 := by decide
  have hl := (lx_sub (n := 0) (i := 0) (v := 'x') rfl rfl (show 1 ≤ 9 by omega)).append (lx_natStr 0) (Or.inl rfl)
  rw [e]
  refine Txt.denotes (b := true) (d := false) rfl ⟨_, hl, ?_⟩
  have hp : Parses env .atom [.name (subscripted 'x' (natStr 1))] (x[0]'(by omega)) := by
    have h2 := hx 0 (by omega)
    rw [variableName, if_neg (by omega)] at h2
    exact .name h2
  have := Parses.sum (Parses.mul (.term (.factor (.power hp))) (.factor (.power (.int 0))))
  simpa [times, ends, starts] using this

/-- **C75** The formula for a Bernstein polynomial of degree one to nine, with at most nine variables. -/
theorem C75_bernstein_basis_fn (m r : Nat) (ν : List Nat) (hl : ν.length = m) (hs : ν.sum ≤ r) (hm : m ≤ 9) (hr1 : 1 ≤ r) (hr : r ≤ 9) :
    ∃ s, bernsteinBasisFnLatex ν r = .ok s ∧ ∀ (env : Env K) (x : Fin m → K), Variables env (List.ofFn x) →
      Denotes env s (bernstein r (List.ofFn x) ν) := by
  obtain ⟨s, h1⟩ := bernsteinBasisFnLatex_ok hs
  refine ⟨s, h1, fun env x hx => ?_⟩
  obtain ⟨s', h2, h3⟩ := bernstein_cases (n := 0) (i := 0) hx (by simpa using hm) (nu := ν) (by simpa using hl) hs hr1 hr
  obtain rfl := Except.ok.inj (h1.symm.trans h2)
  rcases h3 with h3 | h3
  · exact h3.txt.sum.denotes rfl
  · exact h3.1.sum.denotes rfl

/-- **C75** The formulas for the Bernstein basis, in the order of the multi-indices. -/
theorem C75_bernstein_basis (m r : Nat) (hm : m ≤ 9) (hr1 : 1 ≤ r) (hr : r ≤ 9) :
    ∃ l, bernsteinBasisLatex r m = .ok l ∧ ∀ (env : Env K) (x : Fin m → K), Variables env (List.ofFn x) →
      List.Forall₂ (Denotes env) l ((mis m r).map (bernstein r (List.ofFn x))) := by
  obtain ⟨l, h1, _⟩ := bernsteinBasisLatex_ok r m
  refine ⟨l, h1, fun env x hx => ?_⟩
  obtain ⟨l', h2, h3⟩ := forall₂_bernstein (n := 0) (i := 0) hx (by simpa using hm) hr1 hr
  rw [List.length_ofFn] at h2 h3
  obtain rfl := Except.ok.inj (h1.symm.trans h2)
  refine h3.imp fun s v h => ?_
  rcases h with h | h
  · exact h.txt.sum.denotes rfl
  · exact h.1.sum.denotes rfl

/-- **C75** The formula for the Bernstein polynomial of degree zero (the constant 1) is empty, which is not a formula. -/
theorem C75_bernstein_degree_zero (m : Nat) : bernsteinBasisFnLatex (List.replicate m 0) 0 = .ok [] ∧ bernsteinBasisLatex 0 m = .ok [[]] ∧
    ∀ (env : Env K) (v : K), ¬ Denotes env [] v := by
  refine ⟨bernsteinBasisFnLatex_zero m, bernsteinBasisLatex_zero m, ?_⟩
  rintro env v ⟨l, ts, h1, h2, h3⟩
  obtain rfl := Option.some.inj h1
  obtain rfl := Option.some.inj h2
  exact absurd (ne_nil_of_times h3) (by simp)

/-- **C75** The short formulas for the Bernstein and Lagrange basis functions: the names `b_{nu, r}(x)` and `l_{nu, r}(x)`, different for different
functions. -/
theorem C75_compact (c : Char) (hc : c = 'b' ∨ c = 'l') (nu : List Nat) (r : Nat) :
    (∀ (env : Env K) (v : K), env (functionName c nu r) = some (.num v) → Denotes env (basisFnLatexCompact c nu r) v) ∧
      ∀ (c' : Char) (nu' : List Nat) (r' : Nat), c' = 'b' ∨ c' = 'l' → basisFnLatexCompact c nu r = basisFnLatexCompact c' nu' r' →
        c = c' ∧ nu = nu' ∧ r = r' := by
  have h1 : ∀ c : Char, c = 'b' ∨ c = 'l' → c.isAlpha = true ∧ isFn c = true := by rintro c (rfl | rfl) <;> exact ⟨rfl, rfl⟩
  refine ⟨fun env v h => (operand_compact (h1 c hc).1 (h1 c hc).2 h).txt.sum.denotes rfl, fun c' nu' r' hc' h => ?_⟩
  have h2 := lx_compact (n := 0) (i := 0) (h1 c hc).1 (h1 c hc).2 nu r
  have h3 := lx_compact (n := 0) (i := 0) (h1 c' hc').1 (h1 c' hc').2 nu' r'
  rw [h] at h2
  have h4 := h2.unique h3
  simp only [List.cons.injEq, Tok.name.injEq, and_true] at h4
  exact functionName_inj h4

/-- **C75** The short formulas of the bases, in the order of the multi-indices. -/
theorem C75_compact_basis (c : Char) (r m : Nat) : basisLatexCompact c r m = (mis m r).map (fun nu => basisFnLatexCompact c nu r) := by
  rw [basisLatexCompact, generateAll_eq_mis]

omit [Field K] in
theorem join_eq_intercalate (sep : Str) : ∀ l : List Str, join sep l = List.intercalate sep l := by
  intro l
  induction l with
  | nil => rfl
  | cons p l ih =>
    cases l with
    | nil => simp [join, List.intercalate]
    | cons q l =>
      simp only [join, List.intercalate, List.intersperse_cons_cons, List.flatten_cons, List.append_assoc] at ih ⊢
      rw [ih]

/-- **C75** The compact formulas of the monomial basis, in the order of the multi-indices: `1`, `x` and `x^k` in one variable, `x^{(ν₁, …, νₘ)}` otherwise. -/
theorem C75_compact_monomial_basis (r m : Nat) : monomialBasisLatexCompact r m = (mis m r).map (fun nu => match nu with
    | [0] => ['1']
    | [1] => ['x']
    | [k] => 'x' :: '^' :: Nat.toDigits 10 k
    | nu => 'x' :: '^' :: '{' :: '(' :: (List.intercalate [',', ' '] (nu.map (Nat.toDigits 10)) ++ [')', '}'])) := by
  rw [monomialBasisLatexCompact, generateAll_eq_mis]
  refine List.map_congr_left (fun nu _ => ?_)
  unfold monomialBasisFnLatexCompact
  match nu with
  | [] => rfl
  | [0] => rfl
  | [1] => rfl
  | [k + 2] => rfl
  | a :: b :: l =>
    show "x^{".toList ++ tupleStr (a :: b :: l) ++ "}".toList = _
    unfold tupleStr
    rw [join_eq_intercalate]
    simp only [String.toList, List.append_assoc]
    rfl

/-- **C75** Integers are printed exactly, and so are fractions with a denominator of at most 10, and numbers that are not printed as fractions and that
`str` prints exactly. -/
theorem C75_str_number [CharZero K] (repr : ℚ → Str) (closest : Nat → ℚ → ℚ) (latex : Bool) (a : ℚ)
    (h : a.den ≤ 10 ∨ PrintsExactly (repr a) (a : K) ∧ isNiceFraction closest a 10 = false) :
    PrintsExactly (Latex.strNumber repr closest latex a) (a : K) := by
  unfold Latex.strNumber
  by_cases h1 : a.den = 1
  · rw [if_pos h1]
    have h2 := prints_intStr (K := K) a.num
    rwa [show ((a.num : Int) : K) = (a : K) by rw [Rat.cast_def a, h1]; simp] at h2
  rw [if_neg h1]
  by_cases h2 : a.den ≤ 10
  · have h3 : isNiceFraction closest a 10 = true := by
      unfold isNiceFraction limitDenominator
      rw [if_pos h2]
      norm_num
    rw [if_pos h3]
    have h4 := prints_fraction (K := K) latex closest a
    rwa [show limitDenominator closest 1000 a = a from if_pos (by omega)] at h4
  · rcases h with h | h
    · exact absurd h h2
    · rw [h.2, if_neg (by simp)]
      exact h.1

/-- **C75** Fractions with a denominator of at most 1000 are converted exactly. -/
theorem C75_fraction [CharZero K] (closest : Nat → ℚ → ℚ) (latex : Bool) (a : ℚ) (h : a.den ≤ 1000) :
    PrintsExactly (Latex.convertFloatToFraction closest latex a) (a : K) := by
  have h4 := prints_fraction (K := K) latex closest a
  rwa [show limitDenominator closest 1000 a = a from if_pos h] at h4

/-- **C75** A number in exponential notation, as `str` prints the number 10⁻⁵, is not the formula for any number. -/
theorem C75_exponential_notation (v : K) : ¬ PrintsExactly "1e-05".toList v := by
  intro h
  obtain ⟨l, h1, h2⟩ := h fun _ => none
  have h3 : l.map Sym.tok = [.tok (.int 1), .tok (.name "e".toList), .tok .minus, .tok (.int 5)] := by
    have : lex "1e-05".toList = some [.tok (.int 1), .tok (.name "e".toList), .tok .minus, .tok (.int 5)] := rfl
    exact Option.some.inj (h1.symm.trans this)
  have names : ∀ (lv : Level) (ts : List Tok) (u : K), Parses (fun _ => none) lv ts u → ∀ s, Tok.name s ∉ ts := by
    intro lv ts u hp
    induction hp with
    | name h => exact absurd h (by simp)
    | index i h => exact absurd h (by simp)
    | _ => intro s; simp_all
  have h4 : l = [.int 1, .name "e".toList, .minus, .int 5] := by
    have := congrArg (List.filterMap (fun t => match t with | Sym.tok t => some t | _ => none)) h3
    simpa using this
  rw [h4] at h2
  exact names _ _ _ h2 "e".toList (by simp [times, ends, starts])

/-- **C75** The text of an array of numbers is a row or column vector. -/
theorem C75_str_number_array (env : Env K) (column : Bool) (style : Str) (hs : style = "pmatrix".toList ∨ style = "bmatrix".toList) {n : Nat} (a : List Str)
    (v : Fin n → K) (h : List.Forall₂ PrintsExactly a (List.ofFn v)) : DenotesVector env (strNumberArray a true column style) v := by
  intro j
  have hs' : style ∈ environments := by rcases hs with rfl | rfl <;> decide
  have := (txt_strNumberArray (env := env) column hs' h j.1 (by simp)).power.factor.term.sum.denotes rfl
  simpa using this

/-- **C75** A wrong number of coefficients is rejected. -/
theorem C75_length (b : Basis) (r m : Nat) (coeffs : List Str) (h : coeffs.length ≠ getDimension r m) : latexStr b r m coeffs = .error .assertion :=
  latexStr_error b r m coeffs h

end

section
variable {K : Type} [Field K] [LinearOrder K] [IsStrictOrderedRing K]

/-- **C75** The formula for a Lagrange basis polynomial of degree at most nine with at most nine variables. -/
theorem C75_lagrange_basis_fn (frac : K → Str) (m r : Nat) (ν : List Nat) (hl : ν.length = m) (hs : ν.sum ≤ r) (hm : m ≤ 9) (hr : r ≤ 9)
    (hfrac : ∀ v : K, PrintsExactly (frac v) v) :
    ∃ s, lagrangeBasisFnLatex frac ν r = .ok s ∧ ∀ (env : Env K) (x : Fin m → K), Variables env (List.ofFn x) →
      Denotes env s (lagrange r (List.ofFn x) ν) := by
  obtain ⟨s, h1, h2⟩ := lagrange_spec (frac := frac) (mem_mis.2 ⟨hl, hs⟩) hm hr (fun _ _ v _ => ⟨hfrac v, hfrac (-v)⟩)
  exact ⟨s, h1, fun env x hx => (h2 env x hx 0 0).1.denotes rfl⟩

/-- **C75** The formulas for the Lagrange basis, in the order of the multi-indices. -/
theorem C75_lagrange_basis (frac : K → Str) (m r : Nat) (hm : m ≤ 9) (hr : r ≤ 9) (hfrac : ∀ v : K, PrintsExactly (frac v) v) :
    ∃ l, lagrangeBasisLatex frac r m = .ok l ∧ ∀ (env : Env K) (x : Fin m → K), Variables env (List.ofFn x) →
      List.Forall₂ (Denotes env) l ((mis m r).map (lagrange r (List.ofFn x))) := by
  obtain ⟨l, h1, _, h2⟩ := lagrangeBasis_spec (frac := frac) hm hr (fun _ _ _ _ v _ => ⟨hfrac v, hfrac (-v)⟩)
  exact ⟨l, h1, fun env x hx => (h2 env x hx 0 0).imp fun _ _ h => h.1.denotes rfl⟩

/-- **C75** The formula (`latex_str`) of a real valued polynomial: its value is the value of the polynomial. For the monomial basis: with at most nine
variables and degree at most nine. -/
theorem C75_latex_str {p : Obj K} {m : Nat} {f : (Fin m → K) → K} (h : Represents p m f) (hb : p.basis = .monomial → p.r ≤ 9 ∧ m ≤ 9) (num : K → Str)
    (hnum : ∀ c ∈ p.coeff, PrintsExactly (num c) c) :
    ∃ s, latexStr p.basis p.r p.m (p.coeff.map num) = .ok s ∧ ∀ (env : Env K) (x : Fin m → K), Describes env p.basis p.r (List.ofFn x) →
      Denotes env s (f x) := by
  obtain ⟨c, hp, hf, -⟩ := h.exists_mk
  have hco : p.coeff = tab m p.r c := by rw [hp]; rfl
  have hlen : (p.coeff.map num).length = getDimension p.r m := by rw [List.length_map, hco, length_tab]
  obtain ⟨s, hs⟩ := latexStr_ok p.basis p.r m (p.coeff.map num) hlen
  refine ⟨s, by rw [h.dim]; exact hs, fun env x hx => ?_⟩
  obtain ⟨s', h5, h6⟩ := latexStr_txt (n := 0) (i := 0) p.basis hx (fun hb' => by simpa using hb hb') (forall₂_print p.coeff hnum) (by simpa using hlen)
  rw [List.length_ofFn] at h5 h6
  rw [← Except.ok.inj (hs.symm.trans h5), hco, linComb_tab] at h6
  rw [congrFun hf x]
  exact h6.denotes rfl

/-- **C75** The formula of a vector valued polynomial. -/
theorem C75_latex_str_vector {n : Nat} {p : Obj (Fin n → K)} {m : Nat} {f : (Fin m → K) → Fin n → K} (h : Represents p m f)
    (hb : p.basis = .monomial → p.r ≤ 9 ∧ m ≤ 9) (num : K → Str) (hnum : ∀ c ∈ p.coeff, ∀ j, PrintsExactly (num (c j)) (c j)) :
    ∃ s, latexStr p.basis p.r p.m (p.coeff.map (vectorStr num)) = .ok s ∧
      ∀ (env : Env K) (x : Fin m → K), Describes env p.basis p.r (List.ofFn x) → DenotesVector env s (f x) := by
  obtain ⟨c, hp, hf, -⟩ := h.exists_mk
  have hco : p.coeff = tab m p.r c := by rw [hp]; rfl
  have hlen : (p.coeff.map (vectorStr num)).length = getDimension p.r m := by rw [List.length_map, hco, length_tab]
  obtain ⟨s, hs⟩ := latexStr_ok p.basis p.r m (p.coeff.map (vectorStr num)) hlen
  refine ⟨s, by rw [h.dim]; exact hs, fun env x hx j => ?_⟩
  obtain ⟨s', h5, h6⟩ := latexStr_txt (n := n) (i := j) p.basis hx (fun hb' => by simpa using hb hb') (forall₂_vector p.coeff hnum j) (by simpa using hlen)
  rw [List.length_ofFn] at h5 h6
  rw [← Except.ok.inj (hs.symm.trans h5), ← linComb_apply, hco, linComb_tab] at h6
  rw [congrFun hf x]
  exact h6.denotes rfl

/-- **C75** The expanded formula of a real valued Bernstein polynomial of degree one to nine, with at most nine variables. -/
theorem C75_bernstein_expanded {p : Obj K} {m : Nat} {f : (Fin m → K) → K} (h : Represents p m f) (hb : p.basis = .bernstein) (hm : m ≤ 9)
    (hr1 : 1 ≤ p.r) (hr : p.r ≤ 9) (num : K → Str) (hnum : ∀ c ∈ p.coeff, PrintsExactly (num c) c) :
    ∀ (env : Env K) (x : Fin m → K), Variables env (List.ofFn x) →
      ∃ s, bernsteinExpanded p.r p.m (p.coeff.map num) = .ok s ∧ Denotes env s (f x) := by
  obtain ⟨c, hp, hf, -⟩ := h.exists_mk
  rw [hb] at hf
  have hco : p.coeff = tab m p.r c := by rw [hp]; rfl
  intro env x hx
  obtain ⟨s, h5, h6⟩ := bernsteinExpanded_txt (n := 0) (i := 0) hx (by simpa using hm) hr1 hr (forall₂_print p.coeff hnum)
    (by rw [List.length_map, hco, length_tab, List.length_ofFn])
  rw [List.length_ofFn] at h5 h6
  refine ⟨s, by rw [h.dim]; exact h5, ?_⟩
  rw [hco, linComb_tab] at h6
  rw [congrFun hf x]
  exact h6.denotes rfl

/-- **C75** The expanded formula of a vector valued Bernstein polynomial. -/
theorem C75_bernstein_expanded_vector {n : Nat} {p : Obj (Fin n → K)} {m : Nat} {f : (Fin m → K) → Fin n → K} (h : Represents p m f)
    (hb : p.basis = .bernstein) (hm : m ≤ 9) (hr1 : 1 ≤ p.r) (hr : p.r ≤ 9) (num : K → Str)
    (hnum : ∀ c ∈ p.coeff, ∀ j, PrintsExactly (num (c j)) (c j)) (hn : 0 < n) :
    ∀ (env : Env K) (x : Fin m → K), Variables env (List.ofFn x) →
      ∃ s, bernsteinExpanded p.r p.m (p.coeff.map (vectorStr num)) = .ok s ∧ DenotesVector env s (f x) := by
  obtain ⟨c, hp, hf, -⟩ := h.exists_mk
  rw [hb] at hf
  have hco : p.coeff = tab m p.r c := by rw [hp]; rfl
  intro env x hx
  have key : ∀ j : Fin n, ∃ s, bernsteinExpanded p.r p.m (p.coeff.map (vectorStr num)) = .ok s ∧ DenotesEntry env n j s (f x j) := by
    intro j
    obtain ⟨s, h5, h6⟩ := bernsteinExpanded_txt (n := n) (i := j) hx (by simpa using hm) hr1 hr (forall₂_vector p.coeff hnum j)
      (by rw [List.length_map, hco, length_tab, List.length_ofFn])
    rw [List.length_ofFn] at h5 h6
    refine ⟨s, by rw [h.dim]; exact h5, ?_⟩
    rw [← linComb_apply, hco, linComb_tab] at h6
    rw [congrFun hf x]
    exact h6.denotes rfl
  obtain ⟨s, h1, _⟩ := key ⟨0, hn⟩
  refine ⟨s, h1, fun j => ?_⟩
  obtain ⟨s', h1', h2⟩ := key j
  rwa [Except.ok.inj (h1.symm.trans h1')]

omit [LinearOrder K] [IsStrictOrderedRing K] [Field K] in
/-- **C75** The expanded formula of a Bernstein polynomial of degree zero raises an `IndexError`. -/
theorem C75_bernstein_expanded_degree_zero (m : Nat) (c : Str) : bernsteinExpanded 0 m [c] = .error .index := bernsteinExpanded_zero m c

/-- **C75** The expanded formula of a real valued Lagrange polynomial of degree at most nine, with at most nine variables. -/
theorem C75_lagrange_expanded {p : Obj K} {m : Nat} {f : (Fin m → K) → K} (h : Represents p m f) (hb : p.basis = .lagrange) (hm : m ≤ 9)
    (hr : p.r ≤ 9) (num frac : K → Str) (hnum : ∀ c ∈ p.coeff, PrintsExactly (num c) c) (hfrac : ∀ v : K, PrintsExactly (frac v) v) :
    ∃ s, lagrangeExpanded frac p.r p.m (p.coeff.map num) = .ok s ∧ ∀ (env : Env K) (x : Fin m → K), Variables env (List.ofFn x) →
      Denotes env s (f x) := by
  obtain ⟨c, hp, hf, -⟩ := h.exists_mk
  rw [hb] at hf
  have hco : p.coeff = tab m p.r c := by rw [hp]; rfl
  obtain ⟨s, h1, h2⟩ := lagrangeExpanded_spec (frac := frac) hm hr (fun _ _ _ _ v _ => ⟨hfrac v, hfrac (-v)⟩) (p.coeff.map num)
    (by rw [List.length_map, hco, length_tab])
  refine ⟨s, by rw [h.dim]; exact h1, fun env x hx => ?_⟩
  have h3 := h2 env x hx 0 0 p.coeff (forall₂_print p.coeff hnum)
  rw [hco, linComb_tab] at h3
  rw [congrFun hf x]
  exact h3.denotes rfl

/-- **C75** The expanded formula of a vector valued Lagrange polynomial. -/
theorem C75_lagrange_expanded_vector {n : Nat} {p : Obj (Fin n → K)} {m : Nat} {f : (Fin m → K) → Fin n → K} (h : Represents p m f)
    (hb : p.basis = .lagrange) (hm : m ≤ 9) (hr : p.r ≤ 9) (num frac : K → Str) (hnum : ∀ c ∈ p.coeff, ∀ j, PrintsExactly (num (c j)) (c j))
    (hfrac : ∀ v : K, PrintsExactly (frac v) v) :
    ∃ s, lagrangeExpanded frac p.r p.m (p.coeff.map (vectorStr num)) = .ok s ∧ ∀ (env : Env K) (x : Fin m → K), Variables env (List.ofFn x) →
      DenotesVector env s (f x) := by
  obtain ⟨c, hp, hf, -⟩ := h.exists_mk
  rw [hb] at hf
  have hco : p.coeff = tab m p.r c := by rw [hp]; rfl
  obtain ⟨s, h1, h2⟩ := lagrangeExpanded_spec (frac := frac) hm hr (fun _ _ _ _ v _ => ⟨hfrac v, hfrac (-v)⟩) (p.coeff.map (vectorStr num))
    (by rw [List.length_map, hco, length_tab])
  refine ⟨s, by rw [h.dim]; exact h1, fun env x hx j => ?_⟩
  have h3 := h2 env x hx n j _ (forall₂_vector p.coeff hnum j)
  rw [← linComb_apply, hco, linComb_tab] at h3
  rw [congrFun hf x]
  exact h3.denotes rfl

/-- **C75** The formula in the documentation string of a generated function: the polynomial with the coefficients `a_0`, `a_1`, .. in the monomial basis
or the Lagrange basis (with at most nine variables and degree at most nine), or in the basis of the products of powers of the barycentric coordinates (for
all degrees and dimensions). -/
theorem C75_documentation (frac : K → Str) (hfrac : ∀ v : K, PrintsExactly (frac v) v) (b : Basis) (m r : Nat) (hs : b ≠ .bernstein → m ≤ 9 ∧ r ≤ 9) :
    ∃ e, docLatexStr frac b m r = .ok ((if b = .bernstein then "b(x) = ".toList else "p(x) = ".toList) ++ e) ∧
      ∀ (env : Env K) (a : List K) (x : Fin m → K), a.length = getDimension r m → Variables env (List.ofFn x) →
        (∀ j (h : j < a.length), env (subscripted 'a' (natStr j)) = some (.num a[j])) →
        Denotes env e (linComb (fun ν => match b with
          | .monomial => monomial (List.ofFn x) ν
          | .bernstein => monomial (List.ofFn x) ν * (1 - (List.ofFn x).sum) ^ (r - ν.sum)
          | .lagrange => lagrange r (List.ofFn x) ν) (mis m r) a) := by
  obtain ⟨e, h1, h2⟩ := docLatexStr_spec b hs (fun _ _ _ _ _ v _ => ⟨hfrac v, hfrac (-v)⟩)
  refine ⟨e, h1, fun env a x ha hx henv => ?_⟩
  have h3 := (h2 env a x ha hx henv).denotes rfl
  cases b <;> exact h3

/-- **C75** The formulas by the name of the basis. -/
theorem C75_by_name (frac : K → Str) (nu : List Nat) (r n : Nat) (b : Basis) :
    polynomialBasisFnLatex frac nu r b.identifier = (match b with
      | .monomial => .ok (monomialBasisFnLatex nu)
      | .bernstein => bernsteinBasisFnLatex nu r
      | .lagrange => lagrangeBasisFnLatex frac nu r) ∧
    polynomialBasisFnLatexCompact nu r b.identifier = (match b with
      | .monomial => .ok (monomialBasisFnLatexCompact nu)
      | .bernstein => .ok (basisFnLatexCompact 'b' nu r)
      | .lagrange => .ok (basisFnLatexCompact 'l' nu r)) ∧
    polynomialBasisLatex frac r n b.identifier = (match b with
      | .monomial => .ok (monomialBasisLatex r n)
      | .bernstein => bernsteinBasisLatex r n
      | .lagrange => lagrangeBasisLatex frac r n) ∧
    polynomialBasisLatexCompact r n b.identifier = (match b with
      | .monomial => .ok (monomialBasisLatexCompact r n)
      | .bernstein => .ok (basisLatexCompact 'b' r n)
      | .lagrange => .ok (basisLatexCompact 'l' r n)) := by
  cases b <;> exact ⟨rfl, rfl, rfl, rfl⟩

/-- **C75** Unknown names of bases raise a `ValueError`. -/
theorem C75_unknown_name (frac : K → Str) (nu : List Nat) (r n : Nat) (name : String) (h : ∀ b : Basis, name ≠ b.identifier) :
    polynomialBasisFnLatex frac nu r name = .error .value ∧ polynomialBasisFnLatexCompact nu r name = .error .value ∧
      polynomialBasisLatex frac r n name = .error .value ∧ polynomialBasisLatexCompact r n name = .error .value := by
  have h1 : basisOf name = .error .value := by
    unfold basisOf
    rw [if_neg (h .monomial), if_neg (h .lagrange), if_neg (h .bernstein)]
  refine ⟨?_, ?_, ?_, ?_⟩
  · unfold polynomialBasisFnLatex; rw [h1]; rfl
  · unfold polynomialBasisFnLatexCompact; rw [h1]; rfl
  · unfold polynomialBasisLatex; rw [h1]; rfl
  · unfold polynomialBasisLatexCompact; rw [h1]; rfl

end

/-! ## Lagrange polynomials with printed coefficients -/

theorem frac_exact (closest : Nat → ℚ → ℚ) {m r : Nat} (hr : r ≤ 6) : ∀ ν ∈ mis m r, ∀ c, getLagrangeBasisFnCoefficients ℚ ν r = .ok c → ∀ v ∈ c,
    PrintsExactly (Latex.convertFloatToFraction closest false v) v ∧ PrintsExactly (Latex.convertFloatToFraction closest false (-v)) (-v) := by
  intro ν hν c hc v hv
  have h1 := getLagrangeBasisFnCoefficients_eq (K := ℚ) ν r (mem_mis.1 hν).2
  rw [(mem_mis.1 hν).1] at h1
  obtain rfl := Except.ok.inj (hc.symm.trans h1)
  obtain ⟨μ, hμ, rfl⟩ := List.mem_map.1 hv
  have h2 := lagCoeff_den hν hμ
  have h3 : r.factorial ≤ 1000 := (Nat.factorial_le hr).trans (by decide)
  have h4 := C75_fraction (K := ℚ) closest false (lagCoeff ℚ m r ν μ) (by omega)
  have h5 := C75_fraction (K := ℚ) closest false (-lagCoeff ℚ m r ν μ) (by rw [Rat.den_neg_eq_den]; omega)
  simp only [Rat.cast_id] at h4 h5
  exact ⟨h4, h5⟩

/-- **C75** The formulas for the Lagrange basis polynomials up to degree six, with the coefficients as printed by `convert_float_to_fraction`: they are
exact, because their denominators divide `r!`. -/
theorem C75_lagrange_basis_fractions (closest : Nat → ℚ → ℚ) (m r : Nat) (hm : m ≤ 9) (hr : r ≤ 6) :
    (∀ ν : List Nat, ν.length = m → ν.sum ≤ r → ∃ s, lagrangeBasisFnLatex (Latex.convertFloatToFraction closest false) ν r = .ok s ∧
      ∀ (env : Env ℚ) (x : Fin m → ℚ), Variables env (List.ofFn x) → Denotes env s (lagrange r (List.ofFn x) ν)) ∧
    ∃ l, lagrangeBasisLatex (Latex.convertFloatToFraction closest false) r m = .ok l ∧ ∀ (env : Env ℚ) (x : Fin m → ℚ), Variables env (List.ofFn x) →
      List.Forall₂ (Denotes env) l ((mis m r).map (lagrange r (List.ofFn x))) := by
  constructor
  · intro ν hl hs
    obtain ⟨s, h1, h2⟩ := lagrange_spec (mem_mis.2 ⟨hl, hs⟩) hm (by omega) (frac_exact closest hr ν (mem_mis.2 ⟨hl, hs⟩))
    exact ⟨s, h1, fun env x hx => (h2 env x hx 0 0).1.denotes rfl⟩
  · obtain ⟨l, h1, _, h2⟩ := lagrangeBasis_spec hm (by omega) (frac_exact closest hr)
    exact ⟨l, h1, fun env x hx => (h2 env x hx 0 0).imp fun _ _ h => h.1.denotes rfl⟩

/-- **C75** The expanded formula of a Lagrange polynomial up to degree six, with rational coefficients with denominators of at most ten. -/
theorem C75_lagrange_expanded_fractions {p : Obj ℚ} {m : Nat} {f : (Fin m → ℚ) → ℚ} (h : Represents p m f) (hb : p.basis = .lagrange) (hm : m ≤ 9)
    (hr : p.r ≤ 6) (repr : ℚ → Str) (closest : Nat → ℚ → ℚ) (hc : ∀ c ∈ p.coeff, c.den ≤ 10) :
    ∃ s, lagrangeExpanded (Latex.convertFloatToFraction closest false) p.r p.m (p.coeff.map (Latex.strNumber repr closest true)) = .ok s ∧
      ∀ (env : Env ℚ) (x : Fin m → ℚ), Variables env (List.ofFn x) → Denotes env s (f x) := by
  obtain ⟨c, hp, hf, -⟩ := h.exists_mk
  rw [hb] at hf
  have hco : p.coeff = tab m p.r c := by rw [hp]; rfl
  obtain ⟨s, h1, h2⟩ := lagrangeExpanded_spec hm (by omega) (frac_exact closest hr) (p.coeff.map (Latex.strNumber repr closest true))
    (by rw [List.length_map, hco, length_tab])
  refine ⟨s, by rw [h.dim]; exact h1, fun env x hx => ?_⟩
  have hnum : ∀ c ∈ p.coeff, PrintsExactly (Latex.strNumber repr closest true c) c := by
    intro c hc'
    have := C75_str_number (K := ℚ) repr closest true c (Or.inl (hc c hc'))
    simpa using this
  have h3 := h2 env x hx 0 0 p.coeff (forall₂_print p.coeff hnum)
  rw [hco, linComb_tab] at h3
  rw [congrFun hf x]
  exact h3.denotes rfl

/-! ## Compact monomials -/

/-- **C75** The short formulas for monomials are different for different monomials. -/
theorem C75_compact_monomial (nu nu' : List Nat) (h : monomialBasisFnLatexCompact nu = monomialBasisFnLatexCompact nu') : nu = nu' := by
  have single : ∀ k : Nat, k ≠ 0 → k ≠ 1 → monomialBasisFnLatexCompact [k] = "x^".toList ++ natStr k := fun k h0 h1 => by
    simp [monomialBasisFnLatexCompact, h0, h1]
  have tuple : ∀ nu : List Nat, nu.length ≠ 1 → monomialBasisFnLatexCompact nu = "x^{".toList ++ tupleStr nu ++ "}".toList := by
    intro nu hn
    unfold monomialBasisFnLatexCompact
    split
    · exact absurd rfl hn
    · rfl
  have hd : ∀ k : Nat, ∃ c s, natStr k = c :: s ∧ c.isDigit = true := by
    intro k
    obtain ⟨c, s, hs⟩ := List.exists_cons_of_ne_nil (l := natStr k) (Nat.toDigits_ne_nil)
    exact ⟨c, s, hs, natStr_digit k c (by rw [hs]; exact List.mem_cons_self)⟩
  have one : ∀ (k : Nat) (nu : List Nat), nu.length ≠ 1 → monomialBasisFnLatexCompact [k] ≠ monomialBasisFnLatexCompact nu := by
    intro k nu hn
    rw [tuple nu hn]
    by_cases h0 : k = 0
    · subst h0; exact fun h => absurd (List.cons.inj h).1 (by decide)
    by_cases h1 : k = 1
    · subst h1; exact fun h => absurd (List.cons.inj h).2 (by simp)
    rw [single k h0 h1]
    obtain ⟨c, s, hs, hc⟩ := hd k
    rw [hs]
    intro h
    have h2 : c = '{' := by
      have := congrArg (fun l => l[2]?) h
      exact Option.some.inj this
    rw [h2] at hc
    exact absurd hc (by decide)
  by_cases h1 : nu.length = 1
  · obtain ⟨k, rfl⟩ := List.length_eq_one_iff.1 h1
    by_cases h2 : nu'.length = 1
    · obtain ⟨k', rfl⟩ := List.length_eq_one_iff.1 h2
      rcases Nat.lt_or_ge k 2 with hk | hk <;> rcases Nat.lt_or_ge k' 2 with hk' | hk'
      · interval_cases k <;> interval_cases k' <;> first | rfl | exact absurd h (by decide)
      · rw [single k' (by omega) (by omega)] at h
        interval_cases k <;> exact absurd h (by simp [monomialBasisFnLatexCompact])
      · rw [single k (by omega) (by omega)] at h
        interval_cases k' <;> exact absurd h (by simp [monomialBasisFnLatexCompact])
      · rw [single k (by omega) (by omega), single k' (by omega) (by omega)] at h
        rw [natStr_inj (List.append_cancel_left h)]
    · exact absurd h (one k nu' h2)
  · by_cases h2 : nu'.length = 1
    · obtain ⟨k', rfl⟩ := List.length_eq_one_iff.1 h2
      exact absurd h.symm (one k' nu h1)
    · rw [tuple nu h1, tuple nu' h2] at h
      have h3 : tupleStr nu = tupleStr nu' := List.append_cancel_left (List.append_cancel_right h)
      have h4 : ∀ nu : List Nat, nu.length ≠ 1 → (tupleStr nu).filter (fun c => c ≠ ' ') = indexText nu := by
        intro nu hn
        unfold tupleStr indexText
        rw [List.filter_append, List.filter_append, filter_join]
        split
        · exact absurd rfl hn
        · rfl
      have h5 := congrArg (List.filter (fun c => c ≠ ' ')) h3
      rw [h4 nu h1, h4 nu' h2] at h5
      exact indexText_inj h5

/-! ## Polynomials on a simplex -/

section
open Verif.SPoly Verif.Simplex
variable {K : Type} [NontriviallyNormedField K] [LinearOrder K] [CharZero K] {m : Nat}

/-- The numbers `a` are the coefficients of the basis polynomial with multi-index `ν` on the simplex, in the monomial basis. -/
def C75_MonomialCoefficients (b : Basis) (v : Vertices K m m) (r : Nat) (ν : List Nat) (a : List K) : Prop :=
  a.length = (mis m r).length ∧ ∀ x w, IsBarycentric v x w → basisFn b r (List.ofFn fun i : Fin m => w i.succ) ν = linComb (monomial (List.ofFn x)) (mis m r) a

/-- All the coefficients of the basis polynomials on the simplex are printed exactly. -/
def C75_PrintsBasis (num : K → Str) (b : Basis) (v : Vertices K m m) (r : Nat) : Prop :=
  ∀ ν ∈ mis m r, ∀ a, C75_MonomialCoefficients b v r ν a → ∀ c ∈ a, PrintsExactly (num c) c

theorem prints_basis {b : Basis} {v : Vertices K m m} (hd : edgeDet v ≠ 0) {r : Nat} (hr : r ≤ 9) {num : K → Str} (h : C75_PrintsBasis num b v r) :
    ∀ ν ∈ mis m r, ∀ s, basisFnSimplexMonomial b ν r v = .ok s → ∀ c ∈ s.coeff, PrintsExactly (num c) c := by
  intro ν hν s hs c hc
  obtain ⟨p, h1, h2, h3, h4⟩ := basisFnMonomial_rep b v hd ν r (mem_mis.1 hν).1 (mem_mis.1 hν).2 (Or.inr (by omega))
  obtain rfl := Except.ok.inj (hs.symm.trans h1)
  obtain ⟨a, hp, hf, -⟩ := h2.exists_mk
  rw [h3, h4] at hp hf
  have hco : s.coeff = tab m r a := by rw [hp]; rfl
  refine h ν hν s.coeff ⟨by rw [hco]; exact List.length_map .., fun x w hw => ?_⟩ c hc
  have h5 := congrFun hf x
  simp only [down_bary v hd hw] at h5
  rw [h5, hco]
  exact (linComb_tab ..).symm

/-- **C75** The formulas for the Bernstein and Lagrange basis polynomials on a simplex; `w` are the barycentric coordinates of the point. -/
theorem C75_simplex_basis (b : Basis) (v : Vertices K m m) (hd : edgeDet v ≠ 0) (r : Nat) (hm : m ≤ 9) (hr : r ≤ 9) (num : K → Str)
    (hnum : C75_PrintsBasis num b v r) :
    (∀ ν : List Nat, ν.length = m → ν.sum ≤ r → ∃ s, basisFnSimplexLatex num b ν r v = .ok s ∧
      ∀ (env : Env K) (x : Fin m → K) (w : Fin (m + 1) → K), Variables env (List.ofFn x) → IsBarycentric v x w →
        Denotes env s (basisFn b r (List.ofFn fun i : Fin m => w i.succ) ν)) ∧
    ∃ l, basisSimplexLatex num b r v = .ok l ∧
      ∀ (env : Env K) (x : Fin m → K) (w : Fin (m + 1) → K), Variables env (List.ofFn x) → IsBarycentric v x w →
        List.Forall₂ (Denotes env) l ((mis m r).map (basisFn b r (List.ofFn fun i : Fin m => w i.succ))) := by
  have hn := prints_basis hd hr hnum
  constructor
  · intro ν hl hs
    obtain ⟨s, h1, h2⟩ := basisFnSimplex_spec b v hd (mem_mis.2 ⟨hl, hs⟩) hm hr (num := num) (hn ν (mem_mis.2 ⟨hl, hs⟩))
    refine ⟨s, h1, fun env x w hx hw => ?_⟩
    have h3 := h2 env x hx 0 0
    rw [down_bary v hd hw] at h3
    exact h3.denotes rfl
  · obtain ⟨l, h1, _, h2⟩ := basisSimplex_spec b v hd hm hr (num := num) hn
    refine ⟨l, h1, fun env x w hx hw => ?_⟩
    have h3 := h2 env x hx 0 0
    rw [down_bary v hd hw] at h3
    exact h3.imp fun _ _ h => h.denotes rfl

/-- **C75** The formula of a polynomial on a simplex is that of the polynomial on the unit simplex with the same coefficients, with the names of the basis
functions on the simplex. -/
theorem C75_simplex_latex_str [IsStrictOrderedRing K] {p : SObj K K m} {v : Vertices K m m} {f : (Fin m → K) → K} (h : RepresentsOn p v f) (hb : p.poly.basis ≠ .monomial)
    (num : K → Str) (hnum : ∀ c ∈ p.poly.coeff, PrintsExactly (num c) c) :
    ∃ s, latexStr p.poly.basis p.poly.r p.poly.m (p.poly.coeff.map num) = .ok s ∧
      ∀ (env : Env K) (x : Fin m → K) (w : Fin (m + 1) → K), IsBarycentric v x w → Describes env p.poly.basis p.poly.r (List.ofFn fun i : Fin m => w i.succ) →
        Denotes env s (f x) := by
  have hd := repOn_det h
  have h1 := ((repOn_iff hd).1 h).2.2
  obtain ⟨s, h2, h3⟩ := C75_latex_str h1 (fun hb' => absurd hb' hb) num hnum
  refine ⟨s, h2, fun env x w hw hx => ?_⟩
  rw [← down_bary v hd hw] at hx
  have h4 := h3 env _ hx
  rw [up_down v hd] at h4
  exact h4

/-- **C75** The expanded formula of a polynomial on a simplex, if no basis polynomial has a formula of at most three characters other than zero or a
monomial. -/
theorem C75_simplex_expanded {p : SObj K K m} {v : Vertices K m m} {f : (Fin m → K) → K} (h : RepresentsOn p v f) (hm : m ≤ 9) (hr : p.poly.r ≤ 9)
    (num : K → Str) (hnum : ∀ c ∈ p.poly.coeff, PrintsExactly (num c) c) (hbas : C75_PrintsBasis num p.poly.basis v p.poly.r)
    (hlong : ∀ l, basisSimplexLatex num p.poly.basis p.poly.r v = .ok l → ∀ t ∈ l,
      3 < t.length ∨ t = "0".toList ∨ ∃ ν ∈ mis m p.poly.r, t = monomialBasisFnLatex ν) :
    ∃ s, simplexExpanded num p.poly.basis p.poly.r v (p.poly.coeff.map num) = .ok s ∧
      ∀ (env : Env K) (x : Fin m → K), Variables env (List.ofFn x) → Denotes env s (f x) := by
  have hd := repOn_det h
  have h1 := ((repOn_iff hd).1 h).2.2
  obtain ⟨c, hp, hf, -⟩ := h1.exists_mk
  have hco : p.poly.coeff = tab m p.poly.r c := by rw [hp]; rfl
  obtain ⟨s, h2, h3⟩ := simplexExpanded_spec p.poly.basis v hd hm hr (num := num) (prints_basis hd hr hbas) hlong (p.poly.coeff.map num)
    (by rw [List.length_map, hco, length_tab])
  refine ⟨s, h2, fun env x hx => ?_⟩
  have h4 := h3 env x hx 0 0 _ (forall₂_print p.poly.coeff hnum)
  rw [hco, linComb_tab] at h4
  have h5 := congrFun hf (createAffineMap (down v) x)
  simp only [up_down v hd] at h5
  rw [h5]
  exact h4.denotes rfl

theorem simplex_text {b : Basis} {v : Vertices K m m} (hd : edgeDet v ≠ 0) {r : Nat} (hr : r ≤ 9) (num : K → Str) {ν : List Nat} (hν : ν ∈ mis m r) {s : Str}
    (hs : ∀ a, C75_MonomialCoefficients b v r ν a → latexStr .monomial r m (a.map num) = .ok s) : basisFnSimplexLatex num b ν r v = .ok s := by
  obtain ⟨p, h1, h2, h3, h4⟩ := basisFnMonomial_rep b v hd ν r (mem_mis.1 hν).1 (mem_mis.1 hν).2 (Or.inr (by omega))
  obtain ⟨a, hp, hf, -⟩ := h2.exists_mk
  rw [h3, h4] at hp hf
  have hco : p.coeff = tab m r a := by rw [hp]; rfl
  unfold basisFnSimplexLatex
  rw [h1, Py.bind_ok, h4, h2.dim]
  refine hs _ ⟨by rw [hco]; exact List.length_map .., fun x w hw => ?_⟩
  have h5 := congrFun hf x
  simp only [down_bary v hd hw] at h5
  rw [h5, hco]
  exact (linComb_tab ..).symm

/-- The interval from 0 to 1. -/
def C75_unit : Vertices ℚ 1 1 := ![![0], ![1]]

/-- The interval from 0 to 1/2. -/
def C75_half : Vertices ℚ 1 1 := ![![0], ![1 / 2]]

theorem latex_half_det : edgeDet C75_half ≠ 0 := by simp [edgeDet, C75_half]

theorem latex_half_barycentric (x : ℚ) : IsBarycentric C75_half ![x] ![1 - 2 * x, 2 * x] := by
  refine ⟨?_, ?_⟩
  · simp
  · funext i
    fin_cases i
    simp [C75_half]
    ring

theorem latex_half_coefficients (k : Nat) (hk : k ≤ 1) (a : List ℚ) (h : C75_MonomialCoefficients .lagrange C75_half 1 [k] a) :
    a = if k = 0 then [1, -2] else [0, 2] := by
  obtain ⟨h1, h2⟩ := h
  obtain ⟨a0, a1, rfl⟩ := List.length_eq_two.1 (h1.trans (by rfl : (mis 1 1).length = 2))
  have e : mis 1 1 = [[0], [1]] := by rfl
  have e0 := h2 _ _ (latex_half_barycentric 0)
  have e1 := h2 _ _ (latex_half_barycentric 1)
  rw [e] at e0 e1
  interval_cases k <;> simp [basisFn, lagrange, fallingBinomial, linComb, monomial] at e0 e1 ⊢ <;> constructor <;> linarith

/-- **C75** Without this condition the expanded formula can have another value: on the interval from 0 to 1/2, with coefficients 0 and 3, the formula is
`3 2 x`, which is 32 times `x`, while the polynomial is 6 times `x`. -/
theorem C75_simplex_expanded_short (num : ℚ → Str) (h0 : num 0 = "0".toList) (h1 : num 1 = "1".toList) (h2 : num 2 = "2".toList)
    (hm2 : num (-2) = "-2".toList) (h3 : num 3 = "3".toList) :
    ∃ (p : SObj ℚ ℚ 1) (f : (Fin 1 → ℚ) → ℚ), SObj.new .lagrange [0, 3] C75_half (some 1) = .ok p ∧ RepresentsOn p C75_half f ∧
      (∀ x, f ![x] = 6 * x) ∧ simplexExpanded num .lagrange 1 C75_half ([0, 3].map num) = .ok "3 2 x".toList ∧
      ∀ (env : Env ℚ) (x : ℚ), Variables env [x] → Denotes env "3 2 x".toList (32 * x) := by
  obtain ⟨p, f, e1, e2, e3, e4, e5, e6⟩ := C62_construct .lagrange [(0 : ℚ), 3] C75_half 1 rfl (Or.inr (by decide)) latex_half_det
  have hb : basisSimplexLatex num .lagrange 1 C75_half = .ok ["1 - 2 x".toList, "2 x".toList] := by
    have t : ∀ k ≤ 1, basisFnSimplexLatex num .lagrange [k] 1 C75_half = .ok (if k = 0 then "1 - 2 x".toList else "2 x".toList) := by
      intro k hk
      refine simplex_text latex_half_det (by decide) num (mem_mis.2 ⟨rfl, by simpa using hk⟩) fun a ha => ?_
      rw [latex_half_coefficients k hk a ha]
      interval_cases k
      · simp only [if_pos, List.map_cons, List.map_nil, h1, hm2]; rfl
      · simp only [Nat.one_ne_zero, if_false, List.map_cons, List.map_nil, h0, h2]; rfl
    unfold basisSimplexLatex
    rw [generateAll_eq_mis, show mis 1 1 = [[0], [1]] from rfl, List.mapM_cons, List.mapM_cons, t 0 (by decide), t 1 (by decide)]
    rfl
  refine ⟨p, f, e1, e5, fun x => ?_, ?_, fun env x hx => ?_⟩
  · rw [e6 ![x] ![1 - 2 * x, 2 * x] (latex_half_barycentric x), generateAll_eq_mis, show mis 1 1 = [[0], [1]] from rfl]
    simp [basisFn, lagrange, fallingBinomial, linComb]
    ring
  · unfold simplexExpanded
    rw [hb, Py.bind_ok]
    simp only [List.map_cons, List.map_nil, h0, h3]
    rfl
  · refine ⟨_, _, (by rfl : lex "3 2 x".toList = some [.tok (.int 32), .tok (.name "x".toList)]), rfl, ?_⟩
    exact_mod_cast Parses.sum (Parses.mul (.term (.factor (.power (.int 32)))) (.factor (.power (.name (hx 0 (by simp))))))

/-! ## Concrete cases -/

/-- All rational numbers can be printed exactly. -/
theorem latex_exact (v : ℚ) : PrintsExactly (Latex.convertFloatToFraction (fun _ a => a) true v) v := by
  have h := prints_fraction (K := ℚ) true (fun _ a => a) v
  rwa [show limitDenominator (fun _ a => a) 1000 v = v by unfold limitDenominator; split <;> rfl, Rat.cast_id] at h

example : monomialBasisFnLatex [2, 1] = "x_1^2 x_2".toList := by decide
example : basisFnLatexCompact 'b' [1, 1] 3 = "b_{(1, 1), 3}(x)".toList := by decide
example : latexStr .bernstein 1 1 ["-1".toList, "\\frac{1}{2}".toList] = .ok "-b_{0, 1}(x) + \\frac{1}{2} b_{1, 1}(x)".toList := by rfl
example : bernsteinExpanded 1 1 ["-1".toList, "2".toList] = .ok "-(1 - x) + 2 x".toList := by rfl

/-- The formula `x_1^2 x_2` at the point (3, 5). -/
example : ∃ env : Env ℚ, Variables env [3, 5] ∧ Denotes env "x_1^2 x_2".toList 45 := by
  obtain ⟨env, h, -⟩ := C75_scope ([3, 5] : List ℚ) []
  refine ⟨env, h, ?_⟩
  have := C75_monomial_basis_fn env [3, 5] [2, 1] rfl (by decide) (by decide) h
  rw [show monomialBasisFnLatex [2, 1] = "x_1^2 x_2".toList by decide] at this
  convert this using 1
  norm_num [monomial]

/-- A Bernstein polynomial of degree two in two variables meets the conditions of the theorems. -/
example : ∃ (p : Obj ℚ) (f : (Fin 2 → ℚ) → ℚ), Represents p 2 f ∧ p.basis = .bernstein ∧ p.coeff = [1, -2, 3, 4 / 3, 5, 6] ∧
    (∀ (env : Env ℚ) (x : Fin 2 → ℚ), Variables env (List.ofFn x) →
      ∃ s, bernsteinExpanded p.r p.m (p.coeff.map (Latex.convertFloatToFraction (fun _ a => a) true)) = .ok s ∧ Denotes env s (f x)) ∧
    ∃ s, latexStr p.basis p.r p.m (p.coeff.map (Latex.convertFloatToFraction (fun _ a => a) true)) = .ok s ∧
      ∀ (env : Env ℚ) (x : Fin 2 → ℚ), Describes env p.basis p.r (List.ofFn x) → Denotes env s (f x) := by
  obtain ⟨c, hc⟩ := exists_tab (W := ℚ) 2 2 [1, -2, 3, 4 / 3, 5, 6] rfl
  have h := rep_mk (K := ℚ) .bernstein 2 2 c (Or.inr (by decide))
  exact ⟨_, _, h, rfl, hc.symm, C75_bernstein_expanded h rfl (by decide) (show 1 ≤ 2 by decide) (show 2 ≤ 9 by decide) _ (fun c _ => latex_exact c),
    C75_latex_str h (fun h => by cases h) _ (fun c _ => latex_exact c)⟩

/-- The Lagrange basis of degree two in two variables, with the coefficients as printed by the code. -/
example (closest : Nat → ℚ → ℚ) : ∃ l, lagrangeBasisLatex (Latex.convertFloatToFraction closest false) 2 2 = .ok l ∧
    ∀ (env : Env ℚ) (x : Fin 2 → ℚ), Variables env (List.ofFn x) → List.Forall₂ (Denotes env) l ((mis 2 2).map (lagrange 2 (List.ofFn x))) :=
  (C75_lagrange_basis_fractions closest 2 2 (by decide) (by decide)).2

/-- The basis on the interval from 0 to 1/2. -/
example : ∃ l, basisSimplexLatex (Latex.convertFloatToFraction (fun _ a => a) true) .lagrange 1 C75_half = .ok l ∧
    ∀ (env : Env ℚ) (x : Fin 1 → ℚ) (w : Fin 2 → ℚ), Variables env (List.ofFn x) → IsBarycentric C75_half x w →
      List.Forall₂ (Denotes env) l ((mis 1 1).map (basisFn .lagrange 1 (List.ofFn fun i : Fin 1 => w i.succ))) :=
  (C75_simplex_basis .lagrange C75_half latex_half_det 1 (by decide) (by decide) _ (fun _ _ _ _ c _ => latex_exact c)).2

/-- The condition on short formulas holds for the interval from 0 to 1: the texts of the basis polynomials are `1 - x` and `x`. -/
example : ∃ s, simplexExpanded (Latex.convertFloatToFraction (fun _ a => a) true) .lagrange 1 C75_unit ["2".toList, "3".toList] = .ok s ∧
    ∀ (env : Env ℚ) (x : ℚ), Variables env [x] → Denotes env s (2 + x) := by
  have hd : edgeDet C75_unit ≠ 0 := by simp [edgeDet, C75_unit]
  have hw : ∀ x : ℚ, IsBarycentric C75_unit ![x] ![1 - x, x] := by
    intro x
    refine ⟨?_, ?_⟩
    · simp
    · funext i
      fin_cases i
      simp [C75_unit]
  have t : ∀ k ≤ 1, basisFnSimplexLatex (Latex.convertFloatToFraction (fun _ a => a) true) .lagrange [k] 1 C75_unit =
      .ok (if k = 0 then "1 - x".toList else "x".toList) := by
    intro k hk
    refine simplex_text hd (by decide) _ (mem_mis.2 ⟨rfl, by simpa using hk⟩) fun a ha => ?_
    obtain ⟨h1, h2⟩ := ha
    obtain ⟨a0, a1, rfl⟩ := List.length_eq_two.1 (h1.trans (by rfl : (mis 1 1).length = 2))
    have e : mis 1 1 = [[0], [1]] := by rfl
    have e0 := h2 _ _ (hw 0)
    have e1 := h2 _ _ (hw 1)
    rw [e] at e0 e1
    have h3 : a0 = (if k = 0 then 1 else 0) ∧ a1 = if k = 0 then -1 else 1 := by
      interval_cases k <;> simp [basisFn, lagrange, fallingBinomial, linComb, monomial] at e0 e1 ⊢ <;> constructor <;> linarith
    rw [h3.1, h3.2]
    interval_cases k
    · rfl
    · rfl
  obtain ⟨p, f, e1, e2, e3, e4, e5, e6⟩ := C62_construct .lagrange [(2 : ℚ), 3] C75_unit 1 rfl (Or.inr (by decide)) hd
  have hb : basisSimplexLatex (Latex.convertFloatToFraction (fun _ a => a) true) .lagrange 1 C75_unit = .ok ["1 - x".toList, "x".toList] := by
    unfold basisSimplexLatex
    rw [generateAll_eq_mis, show mis 1 1 = [[0], [1]] from rfl, List.mapM_cons, List.mapM_cons, t 0 (by decide), t 1 (by decide)]
    rfl
  obtain ⟨s, h1, h2⟩ := C75_simplex_expanded e5 (by decide) (by rw [e4]; decide) (Latex.convertFloatToFraction (fun _ a => a) true)
    (fun c _ => latex_exact c) (fun _ _ _ _ c _ => latex_exact c) (by
      intro l hl t ht
      rw [e2, e4] at *
      obtain rfl := Except.ok.inj (hb.symm.trans hl)
      simp only [List.mem_cons, List.not_mem_nil, or_false] at ht
      rcases ht with rfl | rfl
      · exact Or.inl (by decide)
      · exact Or.inr (Or.inr ⟨[1], mem_mis.2 ⟨rfl, by decide⟩, by decide⟩))
  rw [e2, e3, e4] at h1
  refine ⟨s, h1, fun env x hx => ?_⟩
  have h3 := h2 env ![x] (by simpa using hx)
  rw [e6 ![x] ![1 - x, x] (hw x), generateAll_eq_mis, show mis 1 1 = [[0], [1]] from rfl] at h3
  have h4 : linComb (basisFn .lagrange 1 (List.ofFn fun i : Fin 1 => (![1 - x, x] : Fin 2 → ℚ) i.succ)) [[0], [1]] [2, 3] = 2 + x := by
    simp [basisFn, lagrange, fallingBinomial, linComb]
    ring
  rwa [h4] at h3

end

end Verif.Props
