import Verif.Model.DocString
import Verif.Props.CodeGeneration
import Verif.Props.Latex
import Verif.Lemmas.CodeStr
import Verif.Lemmas.LatexQuote
/-!
# C31, C75: the documentation of generated functions

`documentation` is the text of the documentation string, with the formula as an argument. `indented` is a text with each line that is not empty indented by
four blanks.
-/

namespace Verif.DocString
open Verif Verif.Str Verif.CodeGen Verif.Poly Verif.MI Verif.Spec

/-! ## Specification -/

/-- The text of the documentation string. -/
def documentation (m r : Nat) (basis formula : Str) : Str :=
  "r\"\"\"\nEvaluate a ".toList ++
  (if m = 1 then "univariate" else if m = 2 then "bivariate" else if m = 3 then "trivariate" else "multivariate").toList ++
  " degree ".toList ++ Nat.toDigits 10 r ++ " ".toList ++ basis ++ " polynomial".toList ++
  (if basis = "monomial".toList then ""
    else if m = 1 then " on the unit interval" else if m = 2 then " on the unit triangle" else if m = 3 then " on the unit tetrahedron"
    else " on the unit simplex").toList ++
  ".\n\n.. math::".toList ++
  (if '\n' ∈ formula then "\n\n    ".toList ++ formula.flatMap (fun c => if c = '\n' then "\n    ".toList else [c]) else ' ' :: formula) ++
  ".\n\n:param a: Coefficient in front of each ".toList ++ basis ++ " base polynomial, ".toList ++
  (if m = 1 then ":math:`\\text{a}[i] = a_i`.\n".toList
    else ":math:`\\text{a}[i] = a_{\\nu_i}`, where\n    :math:`\\nu_i` is the i:th multi-index in the sequence of all multi-indices of dimension ".toList ++
      Nat.toDigits 10 m ++
      " with norm\n    :math:`\\leq r` (see :func:`polynomials_on_simplices.algebra.multiindex.generate` function).\n".toList) ++
  ":param x: Point where the polynomial should be evaluated.\n:return: Value of the polynomial.\n\"\"\"".toList

/-- The rest of a text with each line that is not empty indented by four blanks; the first argument says whether a line starts here. -/
def indented : Bool → Str → Str
  | _, [] => []
  | true, c :: s => if c = '\n' then '\n' :: indented true s else "    ".toList ++ c :: indented false s
  | false, c :: s => if c = '\n' then '\n' :: indented true s else c :: indented false s

/-! ## Replacing placeholders -/

/-- Parts of a template: texts and placeholders. -/
inductive Piece where
  | lit (s : Str)
  | hole (s : Str)

/-- The text of a template. -/
def render : List Piece → Str
  | [] => []
  | .lit s :: ps => s ++ render ps
  | .hole s :: ps => '<' :: (s ++ '>' :: render ps)

/-- The template with a placeholder replaced. -/
def subst (n new : Str) : List Piece → List Piece
  | [] => []
  | .lit s :: ps => .lit s :: subst n new ps
  | .hole s :: ps => (if s = n then .lit new else .hole s) :: subst n new ps

/-- Placeholders start with `<` and end with `>`, and these characters occur nowhere else. -/
def Piece.Free : Piece → Prop
  | .lit s => '<' ∉ s
  | .hole s => '<' ∉ s ∧ '>' ∉ s

theorem replace_free (o new : Str) : ∀ (t rest : Str), '<' ∉ t → replaceGo ('<' :: o) new 0 (t ++ rest) = t ++ replaceGo ('<' :: o) new 0 rest
  | [], _, _ => rfl
  | c :: t, rest, h => by
    have hc : c ≠ '<' := fun e => h (e ▸ List.mem_cons_self)
    rw [List.cons_append, replaceGo, replace_free o new t rest (fun e => h (List.mem_cons_of_mem _ e))]
    have : (('<' :: o).isPrefixOf (c :: (t ++ rest))) = false := by
      simp [List.isPrefixOf, Ne.symm hc]
    rw [this]
    rfl

theorem prefix_close : ∀ (n s t : Str), '>' ∉ n → '>' ∉ s → n ++ ['>'] <+: s ++ '>' :: t → n = s
  | [], [], _, _, _, _ => rfl
  | [], c :: s, t, _, h, hp => by
    rw [List.nil_append, List.cons_append, List.cons_prefix_cons] at hp
    exact absurd (hp.1 ▸ List.mem_cons_self) h
  | c :: n, [], t, h, _, hp => by
    rw [List.nil_append, List.cons_append, List.cons_prefix_cons] at hp
    exact absurd (hp.1 ▸ List.mem_cons_self) h
  | c :: n, d :: s, t, h, h', hp => by
    rw [List.cons_append, List.cons_append, List.cons_prefix_cons] at hp
    rw [hp.1, prefix_close n s t (fun e => h (List.mem_cons_of_mem _ e)) (fun e => h' (List.mem_cons_of_mem _ e)) hp.2]

theorem replace_render (n new : Str) (hn : '>' ∉ n) : ∀ ps : List Piece, (∀ p ∈ ps, p.Free) →
    replaceGo ('<' :: (n ++ ['>'])) new 0 (render ps) = render (subst n new ps)
  | [], _ => rfl
  | .lit s :: ps, h => by
    rw [render, replace_free _ _ _ _ (h (.lit s) List.mem_cons_self), replace_render n new hn ps (fun p hp => h p (List.mem_cons_of_mem _ hp))]
    rfl
  | .hole s :: ps, h => by
    have ih := replace_render n new hn ps (fun p hp => h p (List.mem_cons_of_mem _ hp))
    have hf : '<' ∉ s ∧ '>' ∉ s := h (.hole s) List.mem_cons_self
    rw [render]
    by_cases e : s = n
    · subst e
      have : '<' :: (s ++ '>' :: render ps) = ('<' :: (s ++ ['>'])) ++ render ps := by simp
      rw [this, PyExpr.replaceGo_hit _ _ (by simp), ih]
      simp [subst, render]
    · have hp : ('<' :: (n ++ ['>'])).isPrefixOf ('<' :: (s ++ '>' :: render ps)) = false := by
        rw [Bool.eq_false_iff]
        intro hh
        rw [List.isPrefixOf_iff_prefix, List.cons_prefix_cons] at hh
        exact e (prefix_close n s _ hn hf.2 hh.2).symm
      rw [replaceGo, hp, if_neg (by simp)]
      have : s ++ '>' :: render ps = (s ++ ['>']) ++ render ps := by simp
      rw [this, replace_free _ _ _ _ (by simp [hf.1]), ih]
      simp [subst, render, e]

theorem strReplace_render (n new : Str) (hn : '>' ∉ n) (ps : List Piece) (h : ∀ p ∈ ps, p.Free) :
    strReplace (render ps) ('<' :: (n ++ ['>'])) new = render (subst n new ps) := replace_render n new hn ps h

theorem subst_free (n new : Str) (hnew : '<' ∉ new) : ∀ ps : List Piece, (∀ p ∈ ps, p.Free) → ∀ p ∈ subst n new ps, p.Free
  | [], _, _, hp => absurd hp (by simp [subst])
  | .lit s :: ps, h, p, hp => by
    rw [subst, List.mem_cons] at hp
    rcases hp with rfl | hp
    · exact h _ List.mem_cons_self
    · exact subst_free n new hnew ps (fun p hp => h p (List.mem_cons_of_mem _ hp)) p hp
  | .hole s :: ps, h, p, hp => by
    rw [subst, List.mem_cons] at hp
    rcases hp with rfl | hp
    · split
      · exact hnew
      · exact h _ List.mem_cons_self
    · exact subst_free n new hnew ps (fun p hp => h p (List.mem_cons_of_mem _ hp)) p hp

/-- The parts of the template for one variable. -/
def piecesUnivariate : List Piece :=
  [.lit ("r\"\"\"\nEvaluate a ".toList ++ "univariate".toList ++ " degree ".toList), .hole "R".toList, .lit " ".toList, .hole "BASE".toList, .lit " polynomial".toList,
   .hole "DOMAIN".toList, .lit ".\n\n.. math::".toList, .hole "LATEX_STR".toList, .lit ".\n\n:param a: Coefficient in front of each ".toList,
   .hole "BASE".toList,
   .lit (" base polynomial, ".toList ++ ":math:`\\text{a}[i] = a_i`.\n".toList ++
          ":param x: Point where the polynomial should be evaluated.\n:return: Value of the polynomial.\n\"\"\"".toList)]

/-- The parts of the template for several variables. -/
def piecesMultivariate : List Piece :=
  [.lit "r\"\"\"\nEvaluate a ".toList, .hole "MULTIVARIATE".toList, .lit " degree ".toList, .hole "R".toList, .lit " ".toList, .hole "BASE".toList,
   .lit " polynomial".toList, .hole "DOMAIN".toList, .lit ".\n\n.. math::".toList, .hole "LATEX_STR".toList,
   .lit ".\n\n:param a: Coefficient in front of each ".toList, .hole "BASE".toList,
   .lit (" base polynomial, ".toList ++ ":math:`\\text{a}[i] = a_{\\nu_i}`, where\n    :math:`\\nu_i` is the i:th multi-index in the sequence of all multi-indices of dimension ".toList),
   .hole "DIM".toList,
   .lit (" with norm\n    :math:`\\leq r` (see :func:`polynomials_on_simplices.algebra.multiindex.generate` function).\n".toList ++
          ":param x: Point where the polynomial should be evaluated.\n:return: Value of the polynomial.\n\"\"\"".toList)]

theorem render_univariate : templateUnivariate = render piecesUnivariate := by decide +kernel
theorem render_multivariate : templateMultivariate = render piecesMultivariate := by decide +kernel

instance (p : Piece) : Decidable p.Free := by cases p <;> unfold Piece.Free <;> infer_instance

theorem free_univariate : ∀ p ∈ piecesUnivariate, p.Free := by decide +kernel
theorem free_multivariate : ∀ p ∈ piecesMultivariate, p.Free := by decide +kernel

theorem natStr_free (k : Nat) : '<' ∉ natStr k := fun h => absurd (Latex.natStr_digit k _ h) (by decide)

/-! ## The documentation string -/

theorem flatMap_free (f : Char → Str) : ∀ l : Str, (∀ c ∈ l, f c = [c]) → l.flatMap f = l
  | [], _ => rfl
  | c :: l, h => by
    rw [List.flatMap_cons, h c List.mem_cons_self, flatMap_free f l (fun d hd => h d (List.mem_cons_of_mem _ hd))]
    rfl

theorem join_lines : ∀ parts : List Str, (∀ p ∈ parts, '\n' ∉ p) →
    join "\n    ".toList parts = (joinWith ['\n'] parts).flatMap (fun c => if c = '\n' then "\n    ".toList else [c])
  | [], _ => rfl
  | [p], h => by
    rw [join, joinWith, flatMap_free]
    intro c hc
    rw [if_neg (fun (e : c = '\n') => h p (by simp) (e ▸ hc))]
  | p :: q :: ps, h => by
    rw [join, joinWith, List.flatMap_append, List.flatMap_append, join_lines (q :: ps) (fun a ha => h a (List.mem_cons_of_mem _ ha)),
      flatMap_free _ p]
    · rfl
    · intro c hc
      rw [if_neg (fun (e : c = '\n') => h p (by simp) (e ▸ hc))]
    · exact fun e => absurd e (by simp)

theorem formulaText_eq (latex : Str) : formulaText latex =
    .ok (if '\n' ∈ latex then "\n\n    ".toList ++ latex.flatMap (fun c => if c = '\n' then "\n    ".toList else [c]) else ' ' :: latex) := by
  unfold formulaText
  by_cases h : '\n' ∈ latex
  · obtain ⟨parts, h1, -, h2, h3⟩ := (C32_split latex "\n".toList).2 (by decide)
    rw [if_neg (by simpa using h), h1, Py.bind_ok, Py.pure_eq, join_lines parts ?_, if_pos h]
    · rw [show (['\n'] : Str) = "\n".toList from rfl, h2]
    · intro p hp hc
      obtain ⟨a, b, e⟩ := List.append_of_mem hc
      exact h3 p hp ⟨a, b, by rw [e]; simp⟩
  · rw [if_pos h, if_neg h]
    rfl

/-- **C75** The documentation string of a function for polynomials of degree `r` in `m` variables: the name of the basis, the domain and the formula are
inserted in the text, whatever the formula is. -/
theorem C75_docstring (m r : Nat) (basis latex : Str) (h : '<' ∉ basis) :
    generateDocstring m r basis latex = .ok (documentation m r basis latex) := by
  unfold generateDocstring
  simp only
  rw [formulaText_eq, Py.bind_ok, Py.pure_eq]
  set f := (if '\n' ∈ latex then _ else _ : Str) with hf
  set dom : Str := if basis = "monomial".toList then [] else " on the ".toList ++ domainName m with hdom
  have hfree : '<' ∉ dom := by
    rw [hdom]
    unfold domainName
    split_ifs <;> decide
  have e1 : ∀ d, (if basis = "monomial".toList then strReplace d "<DOMAIN>".toList [] else strReplace d "<DOMAIN>".toList (" on the ".toList ++ domainName m)) =
      strReplace d ('<' :: ("DOMAIN".toList ++ ['>'])) dom := by
    intro d
    rw [hdom]
    split_ifs <;> rfl
  rw [e1]
  have key : ∀ ps : List Piece, (∀ p ∈ ps, p.Free) → strReplace (strReplace (strReplace (strReplace (render ps) "<R>".toList (natStr r)) "<BASE>".toList basis)
      ('<' :: ("DOMAIN".toList ++ ['>'])) dom) "<LATEX_STR>".toList f =
      render (subst "LATEX_STR".toList f (subst "DOMAIN".toList dom (subst "BASE".toList basis (subst "R".toList (natStr r) ps)))) := by
    intro ps hps
    rw [show "<R>".toList = '<' :: ("R".toList ++ ['>']) from rfl, show "<BASE>".toList = '<' :: ("BASE".toList ++ ['>']) from rfl,
      show "<LATEX_STR>".toList = '<' :: ("LATEX_STR".toList ++ ['>']) from rfl, strReplace_render _ _ (by decide) _ hps]
    have h1 := subst_free "R".toList (natStr r) (natStr_free r) ps hps
    rw [strReplace_render _ _ (by decide) _ h1]
    have h2 := subst_free "BASE".toList basis h _ h1
    rw [strReplace_render _ _ (by decide) _ h2]
    have h3 := subst_free "DOMAIN".toList dom hfree _ h2
    rw [strReplace_render _ _ (by decide) _ h3]
  unfold chooseTemplate
  congr 1
  have hnat : ∀ k, natStr k = Nat.toDigits 10 k := fun _ => rfl
  by_cases hm : m = 1
  · rw [if_pos hm, render_univariate, key _ free_univariate]
    unfold documentation
    rw [← hf, if_pos hm, if_pos hm, if_pos hm]
    have h4 : dom = (if basis = "monomial".toList then "" else " on the unit interval").toList := by
      rw [hdom]
      unfold domainName
      rw [if_pos hm]
      split_ifs <;> rfl
    rw [← h4, ← hnat]
    generalize dom = d
    generalize natStr r = t
    have h5 : subst "LATEX_STR".toList f (subst "DOMAIN".toList d (subst "BASE".toList basis (subst "R".toList t piecesUnivariate))) =
        [.lit ("r\"\"\"\nEvaluate a ".toList ++ "univariate".toList ++ " degree ".toList), .lit t, .lit " ".toList, .lit basis, .lit " polynomial".toList,
         .lit d, .lit ".\n\n.. math::".toList, .lit f, .lit ".\n\n:param a: Coefficient in front of each ".toList, .lit basis,
         .lit (" base polynomial, ".toList ++ ":math:`\\text{a}[i] = a_i`.\n".toList ++
          ":param x: Point where the polynomial should be evaluated.\n:return: Value of the polynomial.\n\"\"\"".toList)] := rfl
    rw [h5]
    simp only [render, List.append_assoc, List.append_nil]
  · rw [if_neg hm, render_multivariate]
    rw [show "<MULTIVARIATE>".toList = '<' :: ("MULTIVARIATE".toList ++ ['>']) from rfl, show "<DIM>".toList = '<' :: ("DIM".toList ++ ['>']) from rfl,
      strReplace_render _ _ (by decide) _ free_multivariate]
    have hmv : '<' ∉ multivariateName m := by
      unfold multivariateName
      split_ifs <;> decide
    have h1 := subst_free "MULTIVARIATE".toList (multivariateName m) hmv _ free_multivariate
    rw [strReplace_render _ _ (by decide) _ h1, key _ (subst_free "DIM".toList (natStr m) (natStr_free m) _ h1)]
    unfold documentation
    rw [← hf, if_neg hm, if_neg hm, if_neg hm]
    have h4 : dom = (if basis = "monomial".toList then "" else if m = 2 then " on the unit triangle" else if m = 3 then " on the unit tetrahedron"
        else " on the unit simplex").toList := by
      rw [hdom]
      unfold domainName
      rw [if_neg hm]
      split_ifs <;> rfl
    have h6 : multivariateName m = (if m = 2 then "bivariate" else if m = 3 then "trivariate" else "multivariate").toList := by
      unfold multivariateName
      split_ifs <;> rfl
    rw [← h4, ← h6, ← hnat, ← hnat]
    generalize dom = d
    generalize natStr r = t
    generalize natStr m = u
    generalize multivariateName m = v
    have h5 : subst "LATEX_STR".toList f (subst "DOMAIN".toList d (subst "BASE".toList basis (subst "R".toList t (subst "DIM".toList u
        (subst "MULTIVARIATE".toList v piecesMultivariate))))) =
        [.lit "r\"\"\"\nEvaluate a ".toList, .lit v, .lit " degree ".toList, .lit t, .lit " ".toList, .lit basis, .lit " polynomial".toList,
         .lit d, .lit ".\n\n.. math::".toList, .lit f, .lit ".\n\n:param a: Coefficient in front of each ".toList, .lit basis,
         .lit (" base polynomial, ".toList ++ ":math:`\\text{a}[i] = a_{\\nu_i}`, where\n    :math:`\\nu_i` is the i:th multi-index in the sequence of all multi-indices of dimension ".toList),
         .lit u,
         .lit (" with norm\n    :math:`\\leq r` (see :func:`polynomials_on_simplices.algebra.multiindex.generate` function).\n".toList ++
          ":param x: Point where the polynomial should be evaluated.\n:return: Value of the polynomial.\n\"\"\"".toList)] := rfl
    rw [h5]
    simp only [render, List.append_assoc, List.append_nil]

example : generateDocstring 2 1 "Lagrange".toList "p(x) = a_0".toList = .ok (documentation 2 1 "Lagrange".toList "p(x) = a_0".toList) :=
  C75_docstring _ _ _ _ (by decide)

/-- **C75** The documentation string is one string literal: it starts with `r"""`, ends with `"""`, and there are no other quotation marks, when there are
none in the formula and the name of the basis. The character before the final quotation marks is a line break (in particular not a backslash). -/
theorem C75_docstring_literal (m r : Nat) (basis latex : Str) (hb : '"' ∉ basis) (hl : '"' ∉ latex) :
    ∃ text, documentation m r basis latex = "r\"\"\"".toList ++ text ++ "\n\"\"\"".toList ∧ '"' ∉ text := by
  have hnat : ∀ k, '"' ∉ Nat.toDigits 10 k := fun k h => absurd (Latex.natStr_digit k _ h) (by decide)
  have hmap : '"' ∉ latex.flatMap (fun c => if c = '\n' then "\n    ".toList else [c]) := by
    intro h
    obtain ⟨c, hc, h⟩ := List.mem_flatMap.1 h
    split_ifs at h
    · exact absurd h (by decide)
    · rw [List.mem_singleton] at h
      exact hl (h ▸ hc)
  refine ⟨"\nEvaluate a ".toList ++
  (if m = 1 then "univariate" else if m = 2 then "bivariate" else if m = 3 then "trivariate" else "multivariate").toList ++
  " degree ".toList ++ Nat.toDigits 10 r ++ " ".toList ++ basis ++ " polynomial".toList ++
  (if basis = "monomial".toList then ""
    else if m = 1 then " on the unit interval" else if m = 2 then " on the unit triangle" else if m = 3 then " on the unit tetrahedron"
    else " on the unit simplex").toList ++
  ".\n\n.. math::".toList ++
  (if '\n' ∈ latex then "\n\n    ".toList ++ latex.flatMap (fun c => if c = '\n' then "\n    ".toList else [c]) else ' ' :: latex) ++
  ".\n\n:param a: Coefficient in front of each ".toList ++ basis ++ " base polynomial, ".toList ++
  (if m = 1 then ":math:`\\text{a}[i] = a_i`.\n".toList
    else ":math:`\\text{a}[i] = a_{\\nu_i}`, where\n    :math:`\\nu_i` is the i:th multi-index in the sequence of all multi-indices of dimension ".toList ++
      Nat.toDigits 10 m ++
      " with norm\n    :math:`\\leq r` (see :func:`polynomials_on_simplices.algebra.multiindex.generate` function).\n".toList) ++
  ":param x: Point where the polynomial should be evaluated.\n:return: Value of the polynomial.".toList, ?_, ?_⟩
  · unfold documentation
    rw [show "r\"\"\"\nEvaluate a ".toList = "r\"\"\"".toList ++ "\nEvaluate a ".toList from by decide +kernel,
      show ":param x: Point where the polynomial should be evaluated.\n:return: Value of the polynomial.\n\"\"\"".toList =
        ":param x: Point where the polynomial should be evaluated.\n:return: Value of the polynomial.".toList ++ "\n\"\"\"".toList from by decide +kernel]
    simp only [List.append_assoc]
  · simp only [List.mem_append, not_or]
    refine ⟨⟨⟨⟨⟨⟨⟨⟨⟨⟨⟨⟨⟨⟨by decide, ?_⟩, by decide⟩, hnat r⟩, by decide⟩, hb⟩, by decide⟩, ?_⟩, by decide⟩, ?_⟩, by decide⟩, hb⟩, by decide⟩, ?_⟩, by decide +kernel⟩
    · split_ifs <;> decide
    · split_ifs <;> decide
    · split_ifs
      · simp only [List.mem_append, not_or]
        exact ⟨by decide, hmap⟩
      · simp only [List.mem_cons, not_or]
        exact ⟨by decide, hl⟩
    · split_ifs
      · decide +kernel
      · simp only [List.mem_append, not_or]
        exact ⟨⟨by decide +kernel, hnat m⟩, by decide +kernel⟩

/-! ## Functions of coefficients and point -/

theorem indented_line : ∀ (l rest : Str), '\n' ∉ l → indented false (l ++ rest) = l ++ indented false rest
  | [], _, _ => rfl
  | c :: l, rest, h => by
    rw [List.cons_append, indented, if_neg (fun (e : c = '\n') => h (e ▸ List.mem_cons_self)), indented_line l rest (fun e => h (List.mem_cons_of_mem _ e))]
    rfl

theorem indented_start (l rest : Str) (h : '\n' ∉ l) : indented true (l ++ '\n' :: rest) = PyExpr.lineIndent l ++ '\n' :: indented true rest := by
  cases l with
  | nil => rfl
  | cons c l =>
    rw [List.cons_append, indented, if_neg (fun (e : c = '\n') => h (e ▸ List.mem_cons_self)), indented_line l _ (fun e => h (List.mem_cons_of_mem _ e)),
      PyExpr.lineIndent, if_neg (by simp), indented, if_pos rfl]
    simp

theorem indented_lines : ∀ lines : List Str, lines ≠ [] → (∀ l ∈ lines, '\n' ∉ l) →
    (lines.map (fun l => PyExpr.lineIndent l ++ ['\n'])).flatten = indented true (joinWith ['\n'] lines) ++ ['\n']
  | [], h, _ => absurd rfl h
  | [l], _, h => by
    rw [joinWith]
    cases l with
    | nil => rfl
    | cons c l =>
      have h2 := indented_line l [] (fun e => h (c :: l) (by simp) (List.mem_cons_of_mem _ e))
      rw [List.append_nil] at h2
      rw [indented, if_neg (fun (e : c = '\n') => h (c :: l) (by simp) (e ▸ List.mem_cons_self)), h2]
      simp [PyExpr.lineIndent, indented]
  | l :: l' :: ls, _, h => by
    rw [List.map_cons, List.flatten_cons, indented_lines (l' :: ls) (by simp) (fun a ha => h a (List.mem_cons_of_mem _ ha)), joinWith,
      List.append_assoc l, List.singleton_append, indented_start l _ (h l (by simp))]
    simp

variable {K : Type} [Field K] [LinearOrder K] [IsStrictOrderedRing K]

omit [LinearOrder K] [IsStrictOrderedRing K] in
theorem docLatex_quote {s : Str} {env : PyExpr.Env K} {v : K} (h : Latex.Denotes env s v) : '"' ∉ s := by
  obtain ⟨l, ts, h1, -, -⟩ := h
  exact Latex.lex_quote h1

/-- The body of the general function, for each basis. -/
theorem generalBody_spec (num : K → Str) (b : Basis) (m r : Nat) (hnum : ∀ v : K, PyExpr.PrintsExactly (num v) v) :
    ∃ e0, generalBody num b m r = .ok ("return ".toList ++ e0) ∧
      ∀ (a : List K) (x : Fin m → K), a.length = getDimension r m →
        PyExpr.Denotes (PyExpr.scopeGeneral a (PyExpr.pointArg (List.ofFn x))) e0 (linComb (fun ν => match b with
          | .monomial => monomial (List.ofFn x) ν
          | .bernstein => monomial (List.ofFn x) ν * (1 - (List.ofFn x).sum) ^ (r - ν.sum)
          | .lagrange => lagrange r (List.ofFn x) ν) (mis m r) a) := by
  cases b with
  | monomial =>
    obtain ⟨s, h1, h2⟩ := PyExpr.monomialEvalGeneral_spec (K := K) m r
    obtain ⟨e0, h3, h4⟩ := PyExpr.txt_scalarBody (K := K) s
    refine ⟨e0, ?_, fun a x ha => (h4 _ _ (h2 a x ha)).denotes⟩
    unfold generalBody
    simp only
    rw [h1, Py.bind_ok, h3]
  | bernstein =>
    obtain ⟨s, h1, h2⟩ := PyExpr.barycentricEvalGeneral_spec (K := K) m r
    obtain ⟨e0, h3, h4⟩ := PyExpr.txt_scalarBody (K := K) s
    refine ⟨e0, ?_, fun a x ha => (h4 _ _ (h2 a x ha)).denotes⟩
    unfold generalBody
    simp only
    rw [h1, Py.bind_ok, h3]
  | lagrange =>
    obtain ⟨s, h1, h2⟩ := PyExpr.lagrangeEvalGeneral_spec (K := K) (num := num) (m := m) (r := r) (fun _ _ _ _ v _ => hnum v)
    obtain ⟨e0, h3, h4⟩ := PyExpr.txt_wrapScalarLines (K := K) s
    refine ⟨e0, ?_, fun a x ha => (h4 _ _ (h2 a x ha)).denotes⟩
    unfold generalBody
    simp only
    rw [h1, Py.bind_ok, h3]

theorem documentation_last (m r : Nat) (basis formula : Str) : (documentation m r basis formula).getLast? = some '"' := by
  obtain ⟨p, hp⟩ : ∃ p, documentation m r basis formula =
      p ++ ":param x: Point where the polynomial should be evaluated.\n:return: Value of the polynomial.\n\"\"\"".toList := ⟨_, rfl⟩
  rw [hp, List.getLast?_append,
    show (":param x: Point where the polynomial should be evaluated.\n:return: Value of the polynomial.\n\"\"\"".toList).getLast? = some '"' from by
      decide +kernel]
  rfl

/-- **C31** (with C75) The complete code of the function of coefficients and point: the definition, the documentation string (indented), and a return
statement whose expression has the value of the polynomial with the given coefficients at the given point. The formula in the documentation string denotes
the same value, and the documentation string ends where it should (no quotation marks in the formula). Dimension and degree are at most nine except in the
barycentric basis, since the formulas are ambiguous otherwise (the code itself has no such restriction: `C31_general_monomial` and so on). -/
theorem C31_function_general (num frac : K → Str) (hnum : ∀ v : K, PyExpr.PrintsExactly (num v) v) (hfrac : ∀ v : K, Latex.PrintsExactly (frac v) v)
    (b : Basis) (m r : Nat) (hs : b ≠ .bernstein → m ≤ 9 ∧ r ≤ 9) :
    ∃ formula e, generateFunctionGeneral num frac b m r = .ok ("def ".toList ++
        (match b with | .monomial => "monomial" | .bernstein => "barycentric" | .lagrange => "lagrange").toList ++ "_polynomial_".toList ++
        Nat.toDigits 10 m ++ Nat.toDigits 10 r ++ "(a, x):\n".toList ++
        indented true (documentation m r (match b with | .monomial => "monomial" | .bernstein => "barycentric" | .lagrange => "Lagrange").toList
          ((if b = .bernstein then "b(x) = ".toList else "p(x) = ".toList) ++ formula)) ++ "\n".toList ++
        "    return ".toList ++ e ++ "\n".toList) ∧ '"' ∉ formula ∧
      ∀ (a : List K) (x : Fin m → K), a.length = getDimension r m → ∃ v : K,
        v = linComb (fun ν => match b with
          | .monomial => monomial (List.ofFn x) ν
          | .bernstein => monomial (List.ofFn x) ν * (1 - (List.ofFn x).sum) ^ (r - ν.sum)
          | .lagrange => lagrange r (List.ofFn x) ν) (mis m r) a ∧
        PyExpr.Denotes (PyExpr.scopeGeneral a (PyExpr.pointArg (List.ofFn x))) e v ∧
        ∀ env : PyExpr.Env K, Latex.Variables env (List.ofFn x) →
          (∀ j (h : j < a.length), env (Latex.subscripted 'a' (natStr j)) = some (.num a[j])) → Latex.Denotes env formula v := by
  obtain ⟨formula, h1, h2⟩ := Props.C75_documentation frac hfrac b m r hs
  obtain ⟨e0, h3, h4⟩ := generalBody_spec num b m r hnum
  have hdoc : ∀ latex, generateDocstring m r (docName b) latex = .ok (documentation m r (docName b) latex) := by
    intro latex
    apply C75_docstring
    cases b <;> decide
  obtain ⟨ts, h5, -⟩ := h4 (List.replicate (getDimension r m) 0) (fun _ => 0) (by simp)
  set latex := (if b = .bernstein then "b(x) = ".toList else "p(x) = ".toList) ++ formula with hlatex
  obtain ⟨lines, e, h6, h7, h8, h9, h10⟩ := PyExpr.functionGeneral_lines (kindOf b) m r (documentation m r (docName b) latex) (fun h => by
    have := documentation_last m r (docName b) latex
    rw [h] at this
    exact absurd this (by simp)) h5
  have hq : '"' ∉ formula := by
    obtain ⟨env, g1, -, g2⟩ := Props.C75_scope (K := K) (List.ofFn (fun _ : Fin m => (0 : K))) (List.replicate (getDimension r m) 0)
    exact docLatex_quote (h2 env _ _ (by simp) g1 g2)
  have hjoin : joinWith ['\n'] lines = documentation m r (docName b) latex := by
    rcases h7 with h7 | h7
    · exact h7
    · exfalso
      have h11 : (documentation m r (docName b) latex).getLast? = some '\n' := by rw [← h7, List.getLast?_append]; rfl
      rw [documentation_last] at h11
      exact absurd h11 (by decide)
  rw [indented_lines lines h9 h10, hjoin] at h6
  refine ⟨formula, e, ?_, hq, fun a x ha => ⟨_, rfl, ?_, fun env henv hv => h2 env a x ha henv hv⟩⟩
  · unfold generateFunctionGeneral
    rw [h1, Py.bind_ok, hdoc, Py.bind_ok, h3, Py.bind_ok, h6]
    congr 1
    have hk : kindOf b = (match b with | .monomial => "monomial" | .bernstein => "barycentric" | .lagrange => "lagrange").toList := by cases b <;> rfl
    have hn : docName b = (match b with | .monomial => "monomial" | .bernstein => "barycentric" | .lagrange => "Lagrange").toList := by cases b <;> rfl
    have hnat : ∀ k, natStr k = Nat.toDigits 10 k := fun _ => rfl
    rw [hn, PyExpr.generalName, hk, hnat, hnat]
    generalize documentation _ _ _ _ = d
    simp only [List.append_assoc, show (['\n'] : Str) = "\n".toList from rfl]
  · obtain ⟨ts', h12, h13⟩ := h4 a x ha
    exact ⟨ts', by rw [h8, h12], h13⟩

/-- Numbers can be printed exactly, for example as fractions. -/
example := C31_function_general (K := ℚ) (fun a => if a.num = 0 then "0".toList else if a.den = 1 then intStr a.num
    else intStr a.num ++ " / ".toList ++ natStr a.den) (Latex.convertFloatToFraction (fun _ a => a) true)
  (fun v => by simpa using CodeGen.printsExactly_fraction (K := ℚ) v) Props.latex_exact .lagrange 2 3 (by decide)

end Verif.DocString
