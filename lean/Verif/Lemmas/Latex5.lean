import Verif.Lemmas.Latex4
import Verif.Lemmas.SimplexDual
import Verif.Lemmas.PyExprUnique
/-!
# LaTeX texts of polynomials
-/

namespace Verif.Latex
open Verif Verif.Str Verif.PyExpr Verif.CodeGen Verif.Poly Verif.MI

section
variable {n i : Nat} {K : Type} [Field K] {env : Env K}

/-! ## Polynomials on the unit simplex -/

theorem latexStr_txt (b : Basis) {r : Nat} {x : List K} (hd : Describes env b r x) (hb : b = .monomial → r ≤ 9 ∧ x.length ≤ 9) {coeffs : List Str}
    {us : List K} (hc : List.Forall₂ (Txt' env n i .term) coeffs us) (hlen : coeffs.length = getDimension r x.length) :
    ∃ s, latexStr b r x.length coeffs = .ok s ∧ Txt' env n i .sum s (Spec.linComb (basisFn b r x) (mis x.length r) us) := by
  have key : ∃ l, latexStr b r x.length coeffs = strDotProduct coeffs l [] ∧ List.Forall₂ (Rhs env n i) l ((mis x.length r).map (basisFn b r x)) := by
    cases b with
    | monomial => exact ⟨_, rfl, forall₂_monomialBasisLatex hd (hb rfl).2 (hb rfl).1⟩
    | bernstein =>
      refine ⟨_, rfl, ?_⟩
      unfold basisLatexCompact
      rw [generateAll_eq_mis]
      exact forall₂_map_mem _ (fun ν hν => (operand_compact rfl rfl (hd ν (mem_mis.1 hν).1 (mem_mis.1 hν).2)).rhs)
    | lagrange =>
      refine ⟨_, rfl, ?_⟩
      unfold basisLatexCompact
      rw [generateAll_eq_mis]
      exact forall₂_map_mem _ (fun ν hν => (operand_compact rfl rfl (hd ν (mem_mis.1 hν).1 (mem_mis.1 hν).2)).rhs)
  obtain ⟨l, h1, h2⟩ := key
  obtain ⟨s, h3, h4⟩ := txt_strDotProduct hc h2 (by rw [h2.length_eq, List.length_map, length_mis_eq, hlen])
  refine ⟨s, h1.trans h3, ?_⟩
  rw [linComb_comm]
  exact h4

omit [Field K] in
theorem latexStr_ok (b : Basis) (r m : Nat) (coeffs : List Str) (hlen : coeffs.length = getDimension r m) : ∃ s, latexStr b r m coeffs = .ok s := by
  have : ∀ l : List Str, l.length = getDimension r m → ∃ s, strDotProduct coeffs l [] = .ok s := by
    intro l hl
    exact ⟨_, by unfold strDotProduct; rw [decide_eq_true (hlen.trans hl.symm)]; rfl⟩
  cases b with
  | monomial => exact this _ (by rw [monomialBasisLatex, List.length_map, generateAll_eq_mis, length_mis_eq])
  | bernstein => exact this _ (by rw [basisLatexCompact, List.length_map, generateAll_eq_mis, length_mis_eq])
  | lagrange => exact this _ (by rw [basisLatexCompact, List.length_map, generateAll_eq_mis, length_mis_eq])

omit [Field K] in
theorem latexStr_error (b : Basis) (r m : Nat) (coeffs : List Str) (hlen : coeffs.length ≠ getDimension r m) :
    latexStr b r m coeffs = .error .assertion := by
  have : ∀ l : List Str, l.length = getDimension r m → strDotProduct coeffs l [] = .error .assertion := by
    intro l hl
    unfold strDotProduct
    rw [decide_eq_false (by rw [hl]; exact hlen)]
    rfl
  cases b with
  | monomial => exact this _ (by rw [monomialBasisLatex, List.length_map, generateAll_eq_mis, length_mis_eq])
  | bernstein => exact this _ (by rw [basisLatexCompact, List.length_map, generateAll_eq_mis, length_mis_eq])
  | lagrange => exact this _ (by rw [basisLatexCompact, List.length_map, generateAll_eq_mis, length_mis_eq])

theorem forall₂_print {num : K → Str} (l : List K) (h : ∀ c ∈ l, PrintsExactly (num c) c) : List.Forall₂ (Txt' env n i .term) (l.map num) l := by
  have := forall₂_map_mem (f := num) (g := id) l (R := Txt' env n i .term) (fun c hc => (h c hc).txt)
  rwa [List.map_id] at this

theorem forall₂_vector [LinearOrder K] {num : K → Str} {m : Nat} (l : List (Fin m → K)) (h : ∀ c ∈ l, ∀ j, PrintsExactly (num (c j)) (c j)) (j : Fin m) :
    List.Forall₂ (Txt' env m j .term) (l.map (vectorStr num)) (l.map (fun c => c j)) :=
  forall₂_map_mem l (fun c hc => (txt_vectorStr (h c hc) j).power.factor.term.weaken)

theorem linComb_apply {m : Nat} (b : List Nat → K) (νs : List (List Nat)) (c : List (Fin m → K)) (j : Fin m) :
    Spec.linComb b νs c j = Spec.linComb b νs (c.map (fun a => a j)) := by
  unfold Spec.linComb
  induction νs generalizing c with
  | nil => simp
  | cons ν νs ih =>
    cases c with
    | nil => simp
    | cons a c =>
      simp only [List.zipWith_cons_cons, List.sum_cons, Pi.add_apply, Pi.smul_apply, List.map_cons]
      rw [ih]

/-! ### Texts with the basis polynomials -/

theorem bernsteinBasisFnLatex_ok {nu : List Nat} {r : Nat} (h : nu.sum ≤ r) : ∃ s, bernsteinBasisFnLatex nu r = .ok s := by
  unfold bernsteinBasisFnLatex
  rw [bernsteinCoefficient_eq h]
  simp only [Py.bind_ok]
  split
  · exact ⟨_, rfl⟩
  · exact ⟨_, rfl⟩

theorem bernsteinBasisLatex_ok (r m : Nat) : ∃ l, bernsteinBasisLatex r m = .ok l ∧ l.length = getDimension r m := by
  have : ∀ nu : List Nat, ∃ s, nu ∈ mis m r → bernsteinBasisFnLatex nu r = .ok s := by
    intro nu
    by_cases h : nu ∈ mis m r
    · obtain ⟨s, hs⟩ := bernsteinBasisFnLatex_ok (mem_mis.1 h).2
      exact ⟨s, fun _ => hs⟩
    · exact ⟨[], fun h' => absurd h' h⟩
  choose g hg using this
  refine ⟨(mis m r).map g, ?_, by rw [List.length_map, length_mis_eq]⟩
  unfold bernsteinBasisLatex
  rw [generateAll_eq_mis]
  exact mapM_eq_ok g _ hg

theorem forall₂_bernstein {x : List K} (hx : Variables env x) (hm : x.length ≤ 9) {r : Nat} (hr1 : 1 ≤ r) (hr : r ≤ 9) :
    ∃ l, bernsteinBasisLatex r x.length = .ok l ∧
      List.Forall₂ (fun s v => Operand env n i false s v ∨ (Txt' env n i .term s v ∧ ∃ c t, s = c :: t ∧ c.isDigit = true)) l
        ((mis x.length r).map (Spec.bernstein r x)) := by
  have : ∀ nu : List Nat, ∃ s, nu ∈ mis x.length r → bernsteinBasisFnLatex nu r = .ok s ∧ (Operand env n i false s (Spec.bernstein r x nu) ∨
      (Txt' env n i .term s (Spec.bernstein r x nu) ∧ ∃ c t, s = c :: t ∧ c.isDigit = true)) := by
    intro nu
    by_cases h : nu ∈ mis x.length r
    · obtain ⟨s, hs⟩ := bernstein_cases (n := n) (i := i) hx hm (mem_mis.1 h).1 (mem_mis.1 h).2 hr1 hr
      exact ⟨s, fun _ => hs⟩
    · exact ⟨[], fun h' => absurd h' h⟩
  choose g hg using this
  refine ⟨(mis x.length r).map g, ?_, forall₂_map_mem _ (fun nu h => (hg nu h).2)⟩
  unfold bernsteinBasisLatex
  rw [generateAll_eq_mis]
  exact mapM_eq_ok g _ (fun nu h => (hg nu h).1)

theorem bernsteinExpanded_txt {x : List K} (hx : Variables env x) (hm : x.length ≤ 9) {r : Nat} (hr1 : 1 ≤ r) (hr : r ≤ 9) {coeffs : List Str}
    {us : List K} (hc : List.Forall₂ (Txt' env n i .term) coeffs us) (hlen : coeffs.length = getDimension r x.length) :
    ∃ s, bernsteinExpanded r x.length coeffs = .ok s ∧ Txt' env n i .sum s (Spec.linComb (Spec.bernstein r x) (mis x.length r) us) := by
  obtain ⟨l, h1, h2⟩ := forall₂_bernstein (n := n) (i := i) hx hm hr1 hr
  obtain ⟨s, h3, h4⟩ := txt_expandedLoop h2 coeffs us 0 _ _ hc txt_zero.power.factor.term.sum
    (by rw [h2.length_eq, List.length_map, length_mis_eq, hlen, Nat.zero_add])
  refine ⟨s, ?_, ?_⟩
  · unfold bernsteinExpanded
    rw [h1, Py.bind_ok, h3]
  · rw [linComb_comm]
    rwa [zero_add, List.drop_zero] at h4

/-- In degree zero the text of the only basis function is empty. -/
theorem bernsteinBasisFnLatex_zero (m : Nat) : bernsteinBasisFnLatex (List.replicate m 0) 0 = .ok [] := by
  have hs : (List.replicate m 0).sum = 0 := by simp
  unfold bernsteinBasisFnLatex
  rw [bernsteinCoefficient_eq (r := 0) (by rw [hs])]
  have h1 : powerParts (variableNames (List.replicate m 0).length) (List.replicate m 0) = [] := (powerParts_nil (length_variableNames _)).2 hs
  have h2 : restParts (variableNames (List.replicate m 0).length) (((0 : Nat) : Int) - MI.norm (List.replicate m 0)) = [] := by
    rw [show (MI.norm (List.replicate m 0) : Int) = (((List.replicate m 0).sum : Nat) : Int) from rfl, hs]
    rfl
  have h3 : Spec.multinomial 0 (List.replicate m 0) = 1 := by simp [Spec.multinomial]
  simp only [Py.bind_ok, h1, h2, h3]
  rfl

theorem mis_zero (m : Nat) : mis m 0 = [List.replicate m 0] := by
  have h1 : (mis m 0).length = 1 := by rw [length_mis_eq]; simp [getDimension]
  obtain ⟨a, ha⟩ := List.length_eq_one_iff.1 h1
  have h2 : List.replicate m 0 ∈ mis m 0 := mem_mis.2 ⟨by simp, by simp⟩
  rw [ha] at h2 ⊢
  rw [List.mem_singleton.1 h2]

theorem bernsteinBasisLatex_zero (m : Nat) : bernsteinBasisLatex 0 m = .ok [[]] := by
  unfold bernsteinBasisLatex
  rw [generateAll_eq_mis, mis_zero]
  simp only [List.mapM_cons, List.mapM_nil, bernsteinBasisFnLatex_zero]
  rfl

theorem bernsteinExpanded_zero (m : Nat) (c : Str) : bernsteinExpanded 0 m [c] = .error .index := by
  unfold bernsteinExpanded
  rw [bernsteinBasisLatex_zero]
  rfl

end

section
variable {n i : Nat} {K : Type} [Field K] [LinearOrder K] [IsStrictOrderedRing K] {env : Env K}

theorem lagrangeBasis_spec {frac : K → Str} {m r : Nat} (hm : m ≤ 9) (hr : r ≤ 9)
    (hfrac : ∀ ν ∈ mis m r, ∀ c, getLagrangeBasisFnCoefficients K ν r = .ok c → ∀ v ∈ c, PrintsExactly (frac v) v ∧ PrintsExactly (frac (-v)) (-v)) :
    ∃ l, lagrangeBasisLatex frac r m = .ok l ∧ l.length = getDimension r m ∧ ∀ (env : Env K) (x : Fin m → K), Variables env (List.ofFn x) →
      ∀ n i, List.Forall₂ (fun s v => Txt' env n i .sum s v ∧ (s.length ≤ 3 → Rhs env n i s v)) l ((mis m r).map (Spec.lagrange r (List.ofFn x))) := by
  have : ∀ nu : List Nat, ∃ s, nu ∈ mis m r → lagrangeBasisFnLatex frac nu r = .ok s ∧ ∀ (env : Env K) (x : Fin m → K), Variables env (List.ofFn x) →
      ∀ n i, Txt' env n i .sum s (Spec.lagrange r (List.ofFn x) nu) ∧ (s.length ≤ 3 → Rhs env n i s (Spec.lagrange r (List.ofFn x) nu)) := by
    intro nu
    by_cases h : nu ∈ mis m r
    · obtain ⟨s, hs⟩ := lagrange_spec h hm hr (hfrac nu h)
      exact ⟨s, fun _ => hs⟩
    · exact ⟨[], fun h' => absurd h' h⟩
  choose g hg using this
  refine ⟨(mis m r).map g, ?_, by rw [List.length_map, length_mis_eq], fun env x hx n i => forall₂_map_mem _ (fun nu h => (hg nu h).2 env x hx n i)⟩
  unfold lagrangeBasisLatex
  rw [generateAll_eq_mis]
  exact mapM_eq_ok g _ (fun nu h => (hg nu h).1)

omit [LinearOrder K] [IsStrictOrderedRing K] in
theorem rhs_parenthesiseLong {s : Str} {v : K} (h : Txt' env n i .sum s v) (h' : s.length ≤ 3 → Rhs env n i s v) : Rhs env n i (parenthesiseLong s) v := by
  unfold parenthesiseLong
  split
  · exact h.paren.power.operand.rhs
  · exact h' (by omega)

omit [LinearOrder K] [IsStrictOrderedRing K] in
theorem forall₂_parenthesiseLong {l : List Str} {vs : List K} (h : List.Forall₂ (fun s v => Txt' env n i .sum s v ∧ (s.length ≤ 3 → Rhs env n i s v)) l vs) :
    List.Forall₂ (Rhs env n i) (l.map parenthesiseLong) vs := by
  rw [List.forall₂_map_left_iff]
  exact h.imp (fun _ _ h => rhs_parenthesiseLong h.1 h.2)

theorem lagrangeExpanded_spec {frac : K → Str} {m r : Nat} (hm : m ≤ 9) (hr : r ≤ 9)
    (hfrac : ∀ ν ∈ mis m r, ∀ c, getLagrangeBasisFnCoefficients K ν r = .ok c → ∀ v ∈ c, PrintsExactly (frac v) v ∧ PrintsExactly (frac (-v)) (-v))
    (coeffs : List Str) (hlen : coeffs.length = getDimension r m) :
    ∃ s, lagrangeExpanded frac r m coeffs = .ok s ∧ ∀ (env : Env K) (x : Fin m → K), Variables env (List.ofFn x) → ∀ n i us,
      List.Forall₂ (Txt' env n i .term) coeffs us → Txt' env n i .sum s (Spec.linComb (Spec.lagrange r (List.ofFn x)) (mis m r) us) := by
  obtain ⟨l, h1, h2, h3⟩ := lagrangeBasis_spec hm hr hfrac
  have hl : coeffs.length = (l.map parenthesiseLong).length := by rw [hlen, List.length_map, h2]
  obtain ⟨s, hs⟩ : ∃ s, strDotProduct coeffs (l.map parenthesiseLong) [] = .ok s := ⟨_, by unfold strDotProduct; rw [decide_eq_true hl]; rfl⟩
  refine ⟨s, ?_, fun env x hx n i us hc => ?_⟩
  · unfold lagrangeExpanded
    rw [h1, Py.bind_ok, hs]
  · obtain ⟨s', h4, h5⟩ := txt_strDotProduct hc (forall₂_parenthesiseLong (h3 env x hx n i)) hl
    rw [Except.ok.inj (hs.symm.trans h4), linComb_comm]
    exact h5

end

/-! ## Polynomials on a simplex -/

section
variable {K : Type} [NontriviallyNormedField K] [LinearOrder K] [CharZero K] {m : Nat}
open Verif.SPoly Verif.Simplex Verif.Spec

/-- The text of a basis polynomial on a simplex. -/
theorem basisFnSimplex_spec {num : K → Str} (b : Basis) (v : Vertices K m m) (hd : edgeDet v ≠ 0) {r : Nat} {ν : List Nat} (hν : ν ∈ mis m r)
    (hm : m ≤ 9) (hr : r ≤ 9) (hnum : ∀ s, basisFnSimplexMonomial b ν r v = .ok s → ∀ c ∈ s.coeff, PrintsExactly (num c) c) :
    ∃ s, basisFnSimplexLatex num b ν r v = .ok s ∧ ∀ (env : Env K) (x : Fin m → K), Variables env (List.ofFn x) →
      ∀ n i, Txt' env n i .sum s (basisFn b r (List.ofFn (createAffineMap (down v) x)) ν) := by
  obtain ⟨hl, hs⟩ := mem_mis.1 hν
  obtain ⟨p, h1, h2, h3, h4⟩ := basisFnMonomial_rep b v hd ν r hl hs (Or.inr (by omega))
  obtain ⟨c, hp, hf, hfit⟩ := h2.exists_mk
  rw [h3, h4] at hp hf
  have hco : p.coeff = tab m r c := by rw [hp]; rfl
  have hpm : p.m = m := h2.1
  obtain ⟨s, hs'⟩ := latexStr_ok .monomial r m (p.coeff.map num) (by rw [List.length_map, hco, length_tab])
  refine ⟨s, ?_, fun env x hx n i => ?_⟩
  · unfold basisFnSimplexLatex
    rw [h1, Py.bind_ok, h4, hpm]
    exact hs'
  · obtain ⟨s', h5, h6⟩ := latexStr_txt (n := n) (i := i) .monomial (r := r) (x := List.ofFn x) hx (fun _ => ⟨hr, by simpa using hm⟩)
      (forall₂_print p.coeff (hnum p h1)) (by rw [List.length_map, hco, length_tab, List.length_ofFn])
    rw [List.length_ofFn] at h5 h6
    rw [← Except.ok.inj (hs'.symm.trans h5)] at h6
    rw [hco, linComb_tab] at h6
    have h7 := congrFun hf x
    rw [h7]
    exact h6

theorem basisSimplex_spec {num : K → Str} (b : Basis) (v : Vertices K m m) (hd : edgeDet v ≠ 0) {r : Nat} (hm : m ≤ 9) (hr : r ≤ 9)
    (hnum : ∀ ν ∈ mis m r, ∀ s, basisFnSimplexMonomial b ν r v = .ok s → ∀ c ∈ s.coeff, PrintsExactly (num c) c) :
    ∃ l, basisSimplexLatex num b r v = .ok l ∧ l.length = getDimension r m ∧ ∀ (env : Env K) (x : Fin m → K), Variables env (List.ofFn x) →
      ∀ n i, List.Forall₂ (Txt' env n i .sum) l ((mis m r).map (basisFn b r (List.ofFn (createAffineMap (down v) x)))) := by
  have : ∀ nu : List Nat, ∃ s, nu ∈ mis m r → basisFnSimplexLatex num b nu r v = .ok s ∧ ∀ (env : Env K) (x : Fin m → K),
      Variables env (List.ofFn x) → ∀ n i, Txt' env n i .sum s (basisFn b r (List.ofFn (createAffineMap (down v) x)) nu) := by
    intro nu
    by_cases h : nu ∈ mis m r
    · obtain ⟨s, hs⟩ := basisFnSimplex_spec b v hd h hm hr (hnum nu h)
      exact ⟨s, fun _ => hs⟩
    · exact ⟨[], fun h' => absurd h' h⟩
  choose g hg using this
  refine ⟨(mis m r).map g, ?_, by rw [List.length_map, length_mis_eq], fun env x hx n i => forall₂_map_mem _ (fun nu h => (hg nu h).2 env x hx n i)⟩
  unfold basisSimplexLatex
  rw [generateAll_eq_mis]
  exact mapM_eq_ok g _ (fun nu h => (hg nu h).1)

omit [NontriviallyNormedField K] [LinearOrder K] [CharZero K] in
theorem Txt.unique {K : Type} [Field K] {env : Env K} {n i : Nat} {b d b' d' : Bool} {l : Level} {s : Str} {u v : K} (h : Txt env n i l b d s u)
    (h' : Txt env n i l b' d' s v) : u = v := by
  obtain ⟨ts, h1, h2⟩ := h
  obtain ⟨ts', h3, h4⟩ := h'
  rw [h1.unique h3] at h2
  exact h2.unique h4

/-- The texts that `latex_str_expanded` does not put in parentheses must be zero or a monomial. -/
theorem simplexExpanded_spec {num : K → Str} (b : Basis) (v : Vertices K m m) (hd : edgeDet v ≠ 0) {r : Nat} (hm : m ≤ 9) (hr : r ≤ 9)
    (hnum : ∀ ν ∈ mis m r, ∀ s, basisFnSimplexMonomial b ν r v = .ok s → ∀ c ∈ s.coeff, PrintsExactly (num c) c)
    (hlong : ∀ l, basisSimplexLatex num b r v = .ok l → ∀ t ∈ l, 3 < t.length ∨ t = "0".toList ∨ ∃ ν ∈ mis m r, t = monomialBasisFnLatex ν)
    (coeffs : List Str) (hlen : coeffs.length = getDimension r m) :
    ∃ s, simplexExpanded num b r v coeffs = .ok s ∧ ∀ (env : Env K) (x : Fin m → K), Variables env (List.ofFn x) → ∀ n i us,
      List.Forall₂ (Txt' env n i .term) coeffs us →
      Txt' env n i .sum s (linComb (basisFn b r (List.ofFn (createAffineMap (down v) x))) (mis m r) us) := by
  obtain ⟨l, h1, h2, h3⟩ := basisSimplex_spec b v hd hm hr hnum
  have hl : coeffs.length = (l.map parenthesiseLong).length := by rw [hlen, List.length_map, h2]
  obtain ⟨s, hs⟩ : ∃ s, strDotProduct coeffs (l.map parenthesiseLong) [] = .ok s := ⟨_, by unfold strDotProduct; rw [decide_eq_true hl]; rfl⟩
  refine ⟨s, ?_, fun env x hx n i us hc => ?_⟩
  · unfold simplexExpanded
    rw [h1, Py.bind_ok, hs]
  · have h4 : List.Forall₂ (fun s v => Txt' env n i .sum s v ∧ (s.length ≤ 3 → Rhs env n i s v)) l
        ((mis m r).map (basisFn b r (List.ofFn (createAffineMap (down v) x)))) := by
      have h5 := h3 env x hx n i
      rw [List.forall₂_iff_get] at h5 ⊢
      refine ⟨h5.1, fun j hj hj' => ⟨h5.2 j hj hj', fun hlen => ?_⟩⟩
      have h6 := h5.2 j hj hj'
      rcases hlong l h1 _ (List.get_mem l ⟨j, hj⟩) with h | h | ⟨ν, hν, h⟩
      · omega
      · rw [h] at h6 ⊢
        rw [h6.zero_eq]
        exact .zero
      · have h7 := rhs_monomial (n := n) (i := i) hx (by simpa using hm) (nu := ν) (by simpa using (mem_mis.1 hν).1)
          (fun k hk => (le_of_mem_mis hν hk).trans hr)
        rw [h] at h6 ⊢
        rw [Txt.unique h6 h7.txt.sum]
        exact h7
    obtain ⟨s', h5, h6⟩ := txt_strDotProduct hc (forall₂_parenthesiseLong h4) hl
    rw [Except.ok.inj (hs.symm.trans h5), linComb_comm]
    exact h6

end

end Verif.Latex
