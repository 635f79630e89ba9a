import Mathlib.Tactic.NormNum
import Mathlib.Algebra.Order.Archimedean.Real.Basic
import Mathlib.Algebra.Order.Ring.Pow
import Verif.Lemmas.FloatCode
import Verif.Props.CodeGeneration
/-!
# C88: generated code is accurate in floating point arithmetic

The specification is `Verif.Spec.FloatExpr` (what the evaluation of an expression with rounded operations can give) and `Verif.Spec.FloatPoly` (the
error bound). `FloatDenotes ε env s c` says that the text `s` is an expression and that evaluating it, with a relative error of at most `ε` in every
operation and every literal, can give `c`.
-/

namespace Verif.CodeGen
open Verif Verif.Str Verif.PyExpr Verif.Poly Verif.MI Verif.Spec

/-- Without rounding errors the floating point value is the value of the expression. -/
theorem C88_exact (env : Env ℝ) (s : Str) (c : ℝ) : FloatDenotes 0 env s c ↔ Denotes env s c := by
  constructor
  · rintro ⟨ts, e, h1, h2, h3⟩
    exact ⟨ts, h1, h2.parses h3⟩
  · rintro ⟨ts, h1, h2⟩
    obtain ⟨e, h3, h4⟩ := h2.reads
    exact ⟨ts, e, h1, h3, h4⟩

/-- A text is read as at most one expression. -/
theorem C88_unambiguous (ts : List Tok) (e f : Expr) (he : Reads .sum ts e) (hf : Reads .sum ts f) : e = f := he.unique hf

/-- The code generated for a scalar valued polynomial object, in each of the three bases: every evaluation in floating point arithmetic gives the value
of the polynomial up to the error bound. -/
theorem C88_code (ε : ℝ) (hε : 0 ≤ ε) (p : Obj ℝ) (m : Nat) (f : (Fin m → ℝ) → ℝ) (h : Represents p m f) (num : ℝ → Str) (hash : Int) (a : List ℝ)
    (ha : genCoeffs (K := ℝ) p = .ok a) (hnum : ∀ v ∈ a, PrintsLiteral ε (num v) v) :
    ∃ code name e, objCode num hash p = .ok (code, name) ∧ DefinesFunction code name e ∧
      ∀ x : Fin m → ℝ, (∃ y, FloatDenotes ε (scope (pointArg (List.ofFn x))) e y) ∧
        ∀ y, FloatDenotes ε (scope (pointArg (List.ofFn x))) e y →
          |y - f x| ≤ ((1 + ε) ^ roundings p.basis m p.r - 1) * magnitude p.basis p.r a x := by
  obtain ⟨code, e, h1, h2, h3⟩ := fobjCode_spec hε h hash ha hnum
  exact ⟨code, _, e, h1, h2, fun x => h3 _ x (scope_x _)⟩

/-- The coefficients in the expression exist for every polynomial object. -/
theorem C88_coefficients {V : Type} [AddCommGroup V] [Module ℝ V] (p : Obj V) (m : Nat) (f : (Fin m → ℝ) → V) (h : Represents p m f) :
    ∃ a, genCoeffs (K := ℝ) p = .ok a ∧ a.length = getDimension p.r m := by
  obtain ⟨c, hp, -, -⟩ := h.exists_mk
  generalize p.r = r at hp ⊢
  generalize p.basis = b at hp
  subst hp
  cases b with
  | monomial => exact ⟨_, rfl, length_tab _ _ _⟩
  | bernstein => exact ⟨_, bernsteinA_tab (K := ℝ) (mkObj .bernstein m r c) c rfl, length_tab _ _ _⟩
  | lagrange =>
    refine ⟨tab m r (fun μ => ∑ ν ∈ S m r, lagCoeff ℝ m r (List.ofFn ν) μ • c (List.ofFn ν)), ?_, length_tab _ _ _⟩
    show (do
      let cols ← getLagrangeBaseColumns ℝ r m
      return dotColumns (K := ℝ) (getDimension r m) cols (tab m r c) : Py (List V)) = _
    rw [getLagrangeBaseColumns_eq, Py.bind_ok, dotColumns_tab]
    rfl

/-- The code generated for a vector valued polynomial object: the bound holds for every component. -/
theorem C88_code_vector (ε : ℝ) (hε : 0 ≤ ε) {n : Nat} (p : Obj (Fin (n + 1) → ℝ)) (m : Nat) (f : (Fin m → ℝ) → Fin (n + 1) → ℝ) (h : Represents p m f)
    (num : ℝ → Str) (hash : Int) (a : List (Fin (n + 1) → ℝ)) (ha : genCoeffs (K := ℝ) p = .ok a) (hnum : ∀ v ∈ a, ∀ i, PrintsLiteral ε (num (v i)) (v i)) :
    ∃ code name e, objCodeVector num hash p = .ok (code, name) ∧ DefinesFunction code name e ∧
      ∀ x : Fin m → ℝ, (∃ ys, FloatArray ε (scope (pointArg (List.ofFn x))) e ys) ∧
        ∀ ys, FloatArray ε (scope (pointArg (List.ofFn x))) e ys → ∃ y : Fin (n + 1) → ℝ, ys = List.ofFn y ∧
          ∀ i, |y i - f x i| ≤ ((1 + ε) ^ roundings p.basis m p.r - 1) * magnitude p.basis p.r (a.map (fun v => v i)) x := by
  obtain ⟨code, e, h1, h2, h3⟩ := fobjCodeVector_spec hε h hash ha hnum
  exact ⟨code, _, e, h1, h2, fun x => h3 _ x (scope_x _)⟩

/-- The text for a Lagrange basis polynomial; `c` are its coefficients in the monomial basis. -/
theorem C88_lagrange_basis (ε : ℝ) (hε : 0 ≤ ε) (num : ℝ → Str) (m r : Nat) (ν : List Nat) (hν : ν ∈ mis m r) (c : List ℝ)
    (hc : getLagrangeBasisFnCoefficients ℝ ν r = .ok c) (hnum : ∀ v ∈ c, PrintsLiteral ε (num v) v) :
    ∃ s, lagrangeBasisFnText num ν r = .ok s ∧ ∀ (x : Fin m → ℝ) (y : ℝ), FloatDenotes ε (scope (pointArg (List.ofFn x))) s y →
      |y - lagrange r (List.ofFn x) ν| ≤ ((1 + ε) ^ roundings .lagrange m r - 1) * magnitude .lagrange r c x := by
  obtain ⟨s, h1, h2⟩ := flagrangeBasisFnText_spec hν hc hnum
  refine ⟨s, h1, fun x => ?_⟩
  exact (((h2 _ x (scope_x _)).mono le_rfl (show _ ≤ roundings .lagrange m r by simp only [roundings]; omega)).eval hε rfl).2

theorem fforall₂_coefficients {ε : ℝ} {env : Env ℝ} {a : List ℝ} (h : env ['a'] = some (.list a)) :
    List.Forall₂ (fun s (v : VM) => FTxt ε env .term s v.1 v.2 2) (strSequence "a".toList a.length) (a.map (fun v => ((v, |v|) : VM))) := by
  rw [List.forall₂_map_right_iff]
  exact (fforall₂_sequence 'a' (by decide) (by decide) h).imp fun _ _ h => h.term.mono le_rfl (by omega)

/-- The function of coefficients and point for the monomial basis. -/
theorem C88_general_monomial (ε : ℝ) (hε : 0 ≤ ε) (m r : Nat) (doc : Str) (hdoc : doc ≠ []) :
    ∃ (code body : Str) (lines : List Str) (e : Str), monomialEval m r (strSequence "a".toList (getDimension r m)) = .ok code ∧ scalarBody code = .ok body ∧
      functionGeneral "monomial".toList m r doc body = .ok ("def monomial_polynomial_".toList ++ natStr m ++ natStr r ++ "(a, x):\n".toList ++
        (lines.map (fun l => lineIndent l ++ ['\n'])).flatten ++ "    return ".toList ++ e ++ "\n".toList) ∧
      ∀ (a : List ℝ) (x : Fin m → ℝ), a.length = getDimension r m → (∃ y, FloatDenotes ε (scopeGeneral a (pointArg (List.ofFn x))) e y) ∧
        ∀ y, FloatDenotes ε (scopeGeneral a (pointArg (List.ofFn x))) e y →
          |y - linComb (monomial (List.ofFn x)) (mis m r) a| ≤ ((1 + ε) ^ roundings .monomial m r - 1) * magnitude .monomial r a x := by
  have key : ∀ (a : List ℝ) (x : Fin m → ℝ), a.length = getDimension r m → ∃ s, monomialEval m r (strSequence "a".toList (getDimension r m)) = .ok s ∧
      FTxt ε (scopeGeneral a (pointArg (List.ofFn x))) .sum s (linComb (monomial (List.ofFn x)) (mis m r) a) (magnitude .monomial r a x)
        (roundings .monomial m r) := by
    intro a x ha
    have hs := fforall₂_coefficients (ε := ε) (scopeGeneral_a a (pointArg (List.ofFn x)))
    have := ftxt_monomialEval (env := scopeGeneral a (pointArg (List.ofFn x))) (scopeGeneral_x a (pointArg (List.ofFn x))) (r := r) hs
      (by simp [strSequence, ha])
    rw [map_vm_fst, map_vm_snd, List.length_ofFn, ha] at this
    exact this
  obtain ⟨s, h1, -⟩ := key (List.replicate (getDimension r m) 0) (fun _ => 0) (by simp)
  obtain ⟨e0, h3, h4⟩ := lx_scalarBody s
  have h2 : ∀ (a : List ℝ) (x : Fin m → ℝ), a.length = getDimension r m → FTxt ε (scopeGeneral a (pointArg (List.ofFn x))) .sum e0
      (linComb (monomial (List.ofFn x)) (mis m r) a) (magnitude .monomial r a x) (roundings .monomial m r) := by
    intro a x ha
    obtain ⟨s', hs', ht⟩ := key a x ha
    rw [← Except.ok.inj (h1.symm.trans hs')] at ht
    exact ftxt_wrap h4 ht
  obtain ⟨ts, h5⟩ := tokens_of_ftxt (h2 (List.replicate (getDimension r m) 0) (fun _ => 0) (by simp))
  obtain ⟨lines, e, h6, h7, h8⟩ := functionGeneral_spec "monomial".toList m r doc hdoc h5
  refine ⟨s, _, lines, e, h1, h3, ?_, fun a x ha => (h2 a x ha).eval hε h8⟩
  rw [h6]
  simp only [generalName]
  congr 1

/-- The function of coefficients and point for the barycentric basis. -/
theorem C88_general_barycentric (ε : ℝ) (hε : 0 ≤ ε) (m r : Nat) (doc : Str) (hdoc : doc ≠ []) :
    ∃ (code body : Str) (lines : List Str) (e : Str), barycentricEval m r (strSequence "a".toList (getDimension r m)) = .ok code ∧ scalarBody code = .ok body ∧
      functionGeneral "barycentric".toList m r doc body = .ok ("def barycentric_polynomial_".toList ++ natStr m ++ natStr r ++ "(a, x):\n".toList ++
        (lines.map (fun l => lineIndent l ++ ['\n'])).flatten ++ "    return ".toList ++ e ++ "\n".toList) ∧
      ∀ (a : List ℝ) (x : Fin m → ℝ), a.length = getDimension r m → (∃ y, FloatDenotes ε (scopeGeneral a (pointArg (List.ofFn x))) e y) ∧
        ∀ y, FloatDenotes ε (scopeGeneral a (pointArg (List.ofFn x))) e y →
          |y - linComb (fun ν => monomial (List.ofFn x) ν * (1 - (List.ofFn x).sum) ^ (r - ν.sum)) (mis m r) a|
            ≤ ((1 + ε) ^ roundings .bernstein m r - 1) * magnitude .bernstein r a x := by
  have key : ∀ (a : List ℝ) (x : Fin m → ℝ), a.length = getDimension r m → ∃ s, barycentricEval m r (strSequence "a".toList (getDimension r m)) = .ok s ∧
      FTxt ε (scopeGeneral a (pointArg (List.ofFn x))) .sum s
        (linComb (fun ν => monomial (List.ofFn x) ν * (1 - (List.ofFn x).sum) ^ (r - ν.sum)) (mis m r) a) (magnitude .bernstein r a x)
        (roundings .bernstein m r) := by
    intro a x ha
    have hs := fforall₂_coefficients (ε := ε) (scopeGeneral_a a (pointArg (List.ofFn x)))
    have := ftxt_barycentricEval (env := scopeGeneral a (pointArg (List.ofFn x))) (scopeGeneral_x a (pointArg (List.ofFn x))) (r := r) hs
      (by simp [strSequence, ha])
    rw [map_vm_fst, map_vm_snd, List.length_ofFn, ha] at this
    exact this
  obtain ⟨s, h1, -⟩ := key (List.replicate (getDimension r m) 0) (fun _ => 0) (by simp)
  obtain ⟨e0, h3, h4⟩ := lx_scalarBody s
  have h2 : ∀ (a : List ℝ) (x : Fin m → ℝ), a.length = getDimension r m → FTxt ε (scopeGeneral a (pointArg (List.ofFn x))) .sum e0
      (linComb (fun ν => monomial (List.ofFn x) ν * (1 - (List.ofFn x).sum) ^ (r - ν.sum)) (mis m r) a) (magnitude .bernstein r a x)
        (roundings .bernstein m r) := by
    intro a x ha
    obtain ⟨s', hs', ht⟩ := key a x ha
    rw [← Except.ok.inj (h1.symm.trans hs')] at ht
    exact ftxt_wrap h4 ht
  obtain ⟨ts, h5⟩ := tokens_of_ftxt (h2 (List.replicate (getDimension r m) 0) (fun _ => 0) (by simp))
  obtain ⟨lines, e, h6, h7, h8⟩ := functionGeneral_spec "barycentric".toList m r doc hdoc h5
  refine ⟨s, _, lines, e, h1, h3, ?_, fun a x ha => (h2 a x ha).eval hε h8⟩
  rw [h6]
  simp only [generalName]
  congr 1

/-- The function of coefficients and point for the Lagrange basis; `c ν` are the coefficients of the basis polynomials in the monomial basis. -/
theorem C88_general_lagrange (ε : ℝ) (hε : 0 ≤ ε) (num : ℝ → Str) (m r : Nat) (doc : Str) (hdoc : doc ≠ []) (c : List Nat → List ℝ)
    (hc : ∀ ν ∈ mis m r, getLagrangeBasisFnCoefficients ℝ ν r = .ok (c ν)) (hnum : ∀ ν ∈ mis m r, ∀ v ∈ c ν, PrintsLiteral ε (num v) v) :
    ∃ (code body : Str) (lines : List Str) (e : Str), lagrangeEvalGeneral num m r = .ok code ∧ wrapScalarLines code = .ok body ∧
      functionGeneral "lagrange".toList m r doc body = .ok ("def lagrange_polynomial_".toList ++ natStr m ++ natStr r ++ "(a, x):\n".toList ++
        (lines.map (fun l => lineIndent l ++ ['\n'])).flatten ++ "    return ".toList ++ e ++ "\n".toList) ∧
      ∀ (a : List ℝ) (x : Fin m → ℝ), a.length = getDimension r m → (∃ y, FloatDenotes ε (scopeGeneral a (pointArg (List.ofFn x))) e y) ∧
        ∀ y, FloatDenotes ε (scopeGeneral a (pointArg (List.ofFn x))) e y →
          |y - linComb (lagrange r (List.ofFn x)) (mis m r) a|
            ≤ ((1 + ε) ^ (roundings .lagrange m r + 3) - 1) * linComb (fun ν => magnitude .lagrange r (c ν) x) (mis m r) (a.map abs) := by
  have key : ∀ ν : List Nat, ∃ s, ν ∈ mis m r → lagrangeBasisFnText num ν r = .ok s ∧ ∀ (env : Env ℝ) (x : Fin m → ℝ),
      env "x".toList = some (pointArg (List.ofFn x)) → FTxt ε env .sum s (lagrange r (List.ofFn x) ν) (magnitude .lagrange r (c ν) x)
        (getDimension r m + 2 * m + 4) := by
    intro ν
    by_cases hν : ν ∈ mis m r
    · obtain ⟨s, h⟩ := flagrangeBasisFnText_spec hν (hc ν hν) (hnum ν hν)
      exact ⟨s, fun _ => h⟩
    · exact ⟨[], fun h => absurd h hν⟩
  choose g hg using key
  have hbasis : lagrangeBasisText num m r = .ok ((mis m r).map g) := by
    unfold lagrangeBasisText
    rw [generateAll_eq_mis]
    exact mapM_eq_ok g _ fun ν hν => (hg ν hν).1
  have key : ∀ (a : List ℝ) (x : Fin m → ℝ), a.length = getDimension r m → ∃ s, lagrangeEvalGeneral num m r = .ok s ∧
      FTxt ε (scopeGeneral a (pointArg (List.ofFn x))) .sum s (linComb (lagrange r (List.ofFn x)) (mis m r) a)
        (linComb (fun ν => magnitude .lagrange r (c ν) x) (mis m r) (a.map abs)) (roundings .lagrange m r + 3) := by
    intro a x ha
    unfold lagrangeEvalGeneral
    rw [hbasis, Py.bind_ok, List.map_map]
    have hb : List.Forall₂ (fun s (v : VM) => FTxt ε (scopeGeneral a (pointArg (List.ofFn x))) .term s v.1 v.2 (getDimension r m + 2 * m + 4))
        ((mis m r).map (parenthesise ∘ g)) ((mis m r).map (fun ν => ((lagrange r (List.ofFn x) ν, magnitude .lagrange r (c ν) x) : VM))) :=
      forall₂_map_mem _ fun ν hν => ftxt_parenthesise ((hg ν hν).2 _ x (scopeGeneral_x _ _))
    have hs := fforall₂_coefficients (ε := ε) (scopeGeneral_a a (pointArg (List.ofFn x)))
    obtain ⟨s, h1, h2⟩ := ftxt_strDotProduct hs hb (by simp [strSequence, ha, length_mis_eq])
    rw [zip_linComb Prod.fst (lagrange r (List.ofFn x)) _ (fun _ => rfl), zip_linComb Prod.snd (fun ν => magnitude .lagrange r (c ν) x) _ (fun _ => rfl),
      map_vm_fst, map_vm_snd] at h2
    rw [← ha]
    refine ⟨s, h1, h2.mono le_rfl ?_⟩
    simp only [roundings, strSequence, List.length_map, List.length_range, ha]
    omega
  obtain ⟨s, h1, -⟩ := key (List.replicate (getDimension r m) 0) (fun _ => 0) (by simp)
  obtain ⟨e0, h3, h4⟩ := lx_wrapScalarLines s
  have h2 : ∀ (a : List ℝ) (x : Fin m → ℝ), a.length = getDimension r m → FTxt ε (scopeGeneral a (pointArg (List.ofFn x))) .sum e0
      (linComb (lagrange r (List.ofFn x)) (mis m r) a) (linComb (fun ν => magnitude .lagrange r (c ν) x) (mis m r) (a.map abs))
        (roundings .lagrange m r + 3) := by
    intro a x ha
    obtain ⟨s', hs', ht⟩ := key a x ha
    rw [← Except.ok.inj (h1.symm.trans hs')] at ht
    exact ftxt_wrap h4 ht
  obtain ⟨ts, h5⟩ := tokens_of_ftxt (h2 (List.replicate (getDimension r m) 0) (fun _ => 0) (by simp))
  obtain ⟨lines, e, h6, h7, h8⟩ := functionGeneral_spec "lagrange".toList m r doc hdoc h5
  refine ⟨s, _, lines, e, h1, h3, ?_, fun a x ha => (h2 a x ha).eval hε h8⟩
  rw [h6]
  simp only [generalName]
  congr 1

theorem magnitude_nonneg (r : Nat) (a : List ℝ) (ha : ∀ v ∈ a, 0 ≤ v) {m : Nat} (x : Fin m → ℝ) (hx : ∀ i, 0 ≤ x i) :
    magnitude .monomial r a x = linComb (monomial (List.ofFn x)) (mis m r) a := by
  have h1 : (List.ofFn x).map abs = List.ofFn x := by
    rw [List.map_ofFn]
    congr 1
    funext i
    exact abs_of_nonneg (hx i)
  have h2 : a.map abs = a := by
    conv_rhs => rw [← List.map_id a]
    exact List.map_congr_left fun v hv => abs_of_nonneg (ha v hv)
  simp only [magnitude, h1, h2]

/-- Polynomials with nonnegative coefficients in the monomial basis, at points with nonnegative coordinates: the relative error is bounded. -/
theorem C88_relative (ε : ℝ) (hε : 0 ≤ ε) (p : Obj ℝ) (m : Nat) (f : (Fin m → ℝ) → ℝ) (h : Represents p m f) (hb : p.basis = .monomial)
    (hp : ∀ v ∈ p.coeff, 0 ≤ v) (num : ℝ → Str) (hash : Int) (hnum : ∀ v ∈ p.coeff, PrintsLiteral ε (num v) v) :
    ∃ code name e, objCode num hash p = .ok (code, name) ∧ DefinesFunction code name e ∧
      ∀ x : Fin m → ℝ, (∀ i, 0 ≤ x i) → ∀ y, FloatDenotes ε (scope (pointArg (List.ofFn x))) e y →
        |y - f x| ≤ ((1 + ε) ^ (2 * getDimension p.r m + 2 * m + 4) - 1) * f x := by
  have ha : genCoeffs (K := ℝ) p = .ok p.coeff := by
    unfold genCoeffs
    rw [hb]
  obtain ⟨code, name, e, h1, h2, h3⟩ := C88_code ε hε p m f h num hash p.coeff ha hnum
  refine ⟨code, name, e, h1, h2, fun x hx y hy => ?_⟩
  have h4 := (h3 x).2 y hy
  obtain ⟨c, hpc, hf, -⟩ := h.exists_mk
  have hfx : f x = linComb (monomial (List.ofFn x)) (mis m p.r) p.coeff := by
    rw [hb] at hpc hf
    rw [hf]
    have : p.coeff = tab m p.r c := congrArg Obj.coeff hpc
    rw [this, linComb_tab]
    rfl
  rw [hb, magnitude_nonneg p.r p.coeff hp x hx, ← hfx] at h4
  exact h4

/-- The factor in the error bound for small `ε`. -/
theorem C88_factor (ε : ℝ) (hε : 0 ≤ ε) (N : Nat) (h : N * ε < 1) : (1 + ε) ^ N - 1 ≤ N * ε / (1 - N * ε) := by
  rcases Nat.eq_zero_or_pos N with h0 | h0
  · rw [h0]
    simp
  have hN : (1 : ℝ) ≤ N := by exact_mod_cast h0
  have h1 : ε ≤ N * ε := le_mul_of_one_le_left hε hN
  have h2 : 1 - N * ε ≤ (1 - ε) ^ N := by
    have := one_add_mul_le_pow (a := -ε) (by linarith) N
    rw [← sub_eq_add_neg] at this
    linarith
  have h3 : (1 + ε) ^ N * (1 - ε) ^ N ≤ 1 := by
    rw [← mul_pow]
    exact pow_le_one₀ (mul_nonneg (by linarith) (by linarith)) (by nlinarith)
  have h4 : (1 + ε) ^ N * (1 - N * ε) ≤ 1 := (mul_le_mul_of_nonneg_left h2 (pow_nonneg (by linarith) N)).trans h3
  rw [le_div_iff₀ (by linarith)]
  linarith

/-- Numbers are printed as literals: integers exactly, other numbers as `repr` prints them. -/
theorem C88_str_number (ε : ℝ) (repr : ℚ → Str) (closest : Nat → ℚ → ℚ) (a : ℚ) (h : a.den = 1 ∨ PrintsLiteral ε (repr a) a) :
    PrintsLiteral ε (strNumber repr closest false a) a := by
  unfold strNumber
  by_cases h1 : a.den = 1
  · rw [if_pos h1]
    have hn : (a : ℝ) = ((a.num : ℤ) : ℝ) := by rw [Rat.cast_def a, h1]; simp
    rw [hn]
    cases a.num with
    | ofNat n => exact ⟨_, _, (lx_natStr n).tokens, .factor (.power (.int n)), by simpa using Literal.int (ε := ε) n⟩
    | negSucc n =>
      rw [show intStr (Int.negSucc n) = '-' :: natStr (n + 1) from rfl, Int.cast_negSucc]
      exact ⟨_, _, (Lx.minus.2 ⟨_, rfl, lx_natStr (n + 1)⟩).tokens, .neg (.factor (.power (.int (n + 1)))), .neg (.int (n + 1))⟩
  · rw [if_neg h1, Bool.false_and, if_neg (by simp)]
    exact h.resolve_left h1

/-! ## Examples -/

/-- Rounding: with `ε = 1/8`, evaluating `0.1 * x + 1` at `x = 2` can give 1.3 (the exact value is 1.2), but not 2. -/
example : FloatDenotes (1 / 8) (scope (.num 2)) "0.1 * x + 1".toList 1.3 := by
  refine ⟨[.float (1 / 10), .star, .name "x".toList, .plus, .int 1], .add (.mul (.float (1 / 10)) (.name "x".toList)) (.int 1), ?_, ?_, ?_⟩
  · simp [tokens, scan, step, advance, flush, start, digit]
  · exact Reads.add (a := [.float (1 / 10), .star, .name "x".toList])
      (.sum (.mul (a := [.float (1 / 10)]) (.term (.factor (.power (.float _)))) (.factor (.power (.name _))))) (.term (.factor (.power (.int 1))))
  · refine .add (a := 1 / 5) (b := 1) (.mul (a := 1 / 10) (b := 2) (.float ?_) (.name (scope_x _)) ?_) (.int ?_) ?_ <;>
      norm_num [Rounded, abs_of_pos]

example : ¬ FloatDenotes (1 / 8) (scope (.num 2)) "0.1 * x + 1".toList 2 := by
  have h : FTxt (1 / 8) (scope (.num 2)) .sum "0.1 * x + 1".toList (0.1 * 2 + 1) (0.1 * 2 + 1) 4 := by
    refine ⟨[.float (1 / 10), .star, .name "x".toList, .plus, .int 1], .add (.mul (.float (1 / 10)) (.name "x".toList)) (.int 1), ?_, ?_, ?_⟩
    · refine lx_of_tokens ?_ (by simp)
      simp [tokens, scan, step, advance, flush, start, digit]
    · exact Reads.add (a := [.float (1 / 10), .star, .name "x".toList])
        (.sum (.mul (a := [.float (1 / 10)]) (.term (.factor (.power (.float _)))) (.factor (.power (.name _))))) (.term (.factor (.power (.int 1))))
    · refine .add (d := 3) (A := 0.1 * 2) (B := 1) (u := 0.1 * 2) (w := ((1 : Nat) : ℝ))
        (.mul (A := 0.1) (B := 2) (u := 0.1) (w := 2) (d := 2) (d' := 0) (.float ?_ ?_ le_rfl) (.name (scope_x _) ?_) rfl le_rfl le_rfl) (.int ?_ (by omega))
        (by norm_num) le_rfl le_rfl <;> norm_num [Rounded, abs_of_pos]
  intro h2
  have := (h.eval (by norm_num) rfl).2 _ h2
  norm_num [abs_of_pos] at this

/-- The hypotheses of `C88_code` hold for polynomials with integer coefficients. -/
example (c : List ℤ) : ∃ num : ℝ → Str, ∀ v ∈ c.map (fun (n : ℤ) => (n : ℝ)), PrintsLiteral (1 / 2 ^ 53) (num v) v := by
  refine ⟨fun v => strNumber (fun _ => []) (fun _ a => a) false ((⌊v⌋ : ℤ) : ℚ), fun v hv => ?_⟩
  obtain ⟨n, -, rfl⟩ := List.mem_map.1 hv
  have := C88_str_number (1 / 2 ^ 53) (fun _ => []) (fun _ a => a) ((n : ℤ) : ℚ) (Or.inl rfl)
  rw [Rat.cast_intCast] at this
  simpa using this

/-- A floating point literal: `0.1` is a literal for the double precision number next to 1/10. -/
example : PrintsLiteral (1 / 2 ^ 53) "-0.1".toList (-(3602879701896397 / 36028797018963968)) := by
  refine ⟨[.minus, .float (1 / 10)], .neg (.float (1 / 10)), ?_, .neg (.factor (.power (.float _))), .neg (.float ?_)⟩
  · simp [tokens, scan, step, advance, flush, start, digit]
  · norm_num [Rounded, abs_of_pos, abs_of_neg]

/-- A polynomial of degree 2 in one variable: 12 roundings, with a relative error of at most `2⁻⁴⁹` for nonnegative coefficients and points. -/
example : (1 + (1 / 2 ^ 53 : ℝ)) ^ roundings .monomial 1 2 - 1 ≤ 1 / 2 ^ 49 := by
  rw [show roundings .monomial 1 2 = 12 by decide]
  refine (C88_factor _ (by norm_num) 12 (by norm_num)).trans (by norm_num)

end Verif.CodeGen
