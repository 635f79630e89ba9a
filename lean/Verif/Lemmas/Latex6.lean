import Verif.Lemmas.Latex5
/-!
# LaTeX formulas in documentation strings, and printed numbers
-/

namespace Verif.Latex
open Verif Verif.Str Verif.PyExpr Verif.CodeGen Verif.Poly Verif.MI

section
variable {n i : Nat} {K : Type} [Field K] {env : Env K}

/-! ## The barycentric basis -/

theorem fac_strSequence (m : Nat) {x : List K} (hx : Variables env x) (hm : x.length ≠ 1) (h : m = x.length) :
    List.Forall₂ (Txt env n i .atom true true) (strSequence "x".toList 1 m) x := by
  subst h
  unfold strSequence
  rw [List.forall₂_iff_get]
  refine ⟨by simp, fun j h2 h3 => ?_⟩
  have hj := hx j h3
  simp only [variableName, if_neg hm] at hj
  simp only [List.get_eq_getElem, List.getElem_map, List.getElem_range', one_mul]
  refine ⟨_, lx_braces (v := 'x') rfl rfl (1 + j), .name ?_⟩
  rw [Nat.add_comm 1 j]
  exact hj

theorem fac_powers {vs : List Str} {x : List K} (h : List.Forall₂ (Txt env n i .atom true true) vs x) (nu : List Nat) :
    List.Forall₂ (Fac env n i) (List.zipWith (fun v (k : Nat) => strExponent v (natStr k)) vs nu) (List.zipWith (· ^ ·) x nu) := by
  induction h generalizing nu with
  | nil => exact .nil
  | cons h1 _ ih =>
    cases nu with
    | nil => exact .nil
    | cons k nu => exact .cons (fac_strExponent h1 k) (ih nu)

theorem sum_neg_cons (x : List K) : ((1 : K) :: x.map (fun v => -v)).sum = 1 - x.sum := by
  rw [List.sum_cons, sub_eq_add_neg]
  congr 1
  induction x with
  | nil => simp
  | cons a x ih => rw [List.map_cons, List.sum_cons, List.sum_cons, ih]; ring

/-- The formula for a barycentric basis polynomial, for all exponents and dimensions. -/
theorem fac_barycentricBasisFnDoc {x : List K} (hx : Variables env x) {nu : List Nat} (h : nu.length = x.length) {r : Nat} (hr : nu.sum ≤ r) :
    Fac env n i (barycentricBasisFnDoc nu r) (Spec.monomial x nu * (1 - x.sum) ^ (r - nu.sum)) := by
  by_cases h1 : nu.length = 1
  · obtain ⟨k, rfl⟩ := List.length_eq_one_iff.1 h1
    obtain ⟨a, rfl⟩ := List.length_eq_one_iff.1 (h ▸ h1)
    rw [show Spec.monomial [a] [k] = a ^ k by simp [Spec.monomial]]
    simp only [List.sum_singleton] at hr ⊢
    unfold barycentricBasisFnDoc
    simp only
    rw [← Nat.cast_sub hr, intStr_ofNat]
    have hx1 : Txt env n i .atom true false "x".toList a := ⟨_, lx_x, .name (hx 0 (by simp))⟩
    refine (fac_strExponent hx1 k).product (fac_strExponent (d := true) ?_ _)
    exact (Txt.sub (txt_one (env := env) (n := n) (i := i)).power.factor.term.sum hx1.power.factor.term).paren
  · unfold barycentricBasisFnDoc
    split
    · exact absurd rfl h1
    · simp only
      rw [show (MI.norm nu : Int) = ((nu.sum : Nat) : Int) from rfl, ← Nat.cast_sub hr, intStr_ofNat]
      have hseq := fac_strSequence (n := n) (i := i) nu.length hx (by rw [← h]; exact h1) h
      refine (Fac.multiProduct (fac_powers hseq nu)).product (fac_strExponent (d := true) ?_ _)
      have hs : Txt' env n i .sum (strMultiSum ("1".toList :: (strSequence "x".toList 1 nu.length).map (fun v => '-' :: v)))
          ((1 : K) :: x.map (fun v => -v)).sum := by
        refine txt_strMultiSum (List.Forall₂.cons txt_one.power.factor.term.sum ?_)
        rw [List.forall₂_map_left_iff, List.forall₂_map_right_iff]
        exact hseq.imp (fun _ _ hv => hv.power.factor.term.neg_term.weaken.sum)
      rw [sum_neg_cons] at hs
      exact hs.paren

/-! ## Line breaks -/

/-- The line breaks in a formula. -/
def wrapSep : Str := "\\\\\n&\\quad +".toList

/-- Breaks are inserted before some of the plus signs. -/
inductive Ins : List Tx → List Tx → Prop where
  | nil : Ins [] []
  | same (t : Tx) {xs ys : List Tx} : Ins xs ys → Ins (t :: xs) (t :: ys)
  | ins {xs ys : List Tx} : Ins xs ys → Ins (.chr '+' :: xs) (.cmd "\\".toList :: .chr '&' :: .cmd "quad".toList :: .chr '+' :: ys)

theorem Ins.refl : ∀ xs, Ins xs xs
  | [] => .nil
  | t :: xs => .same t (Ins.refl xs)

theorem Ins.append {a b c d : List Tx} (h : Ins a b) (h' : Ins c d) : Ins (a ++ c) (b ++ d) := by
  induction h with
  | nil => exact h'
  | same t _ ih => exact .same t ih
  | ins _ ih => exact .ins ih

theorem wrap_none (o : List Tx) : wrapSep.foldl texStep (o, none) = (o ++ [.cmd "\\".toList, .chr '&', .cmd "quad".toList, .chr '+'], none) := by
  have h := texFold_out o [] none wrapSep
  rw [List.append_nil] at h
  rw [h, show wrapSep.foldl texStep ([], none) = ([.cmd "\\".toList, .chr '&', .cmd "quad".toList, .chr '+'], none) from by decide]

theorem wrap_some (o : List Tx) {w : Str} (hw : w ≠ []) :
    wrapSep.foldl texStep (o, some w) = (o ++ [.cmd w] ++ [.cmd "\\".toList, .chr '&', .cmd "quad".toList, .chr '+'], none) := by
  have e : wrapSep = '\\' :: "\\\n&\\quad +".toList := by decide
  have e1 : texStep (o, some w) '\\' = texStep (o ++ [.cmd w], none) '\\' := by
    have ha : ('\\' : Char).isAlpha = false := rfl
    simp [texStep, hw, ha, texStart]
  rw [e, List.foldl_cons, e1, ← List.foldl_cons, ← e, wrap_none]

theorem tex_wrap : ∀ (parts : List Str) (o o' : List Tx) (w : Option Str) (xs : List Tx), Ins o o' →
    (join "+".toList parts).foldl texStep (o, w) = (xs, none) → .cmd ['+'] ∉ xs →
    ∃ xs', (join wrapSep parts).foldl texStep (o', w) = (xs', none) ∧ Ins xs xs' := by
  intro parts
  have out : ∀ (s : Str) (o : List Tx) (w : Option Str), ∃ q w', s.foldl texStep ([], w) = (q, w') ∧ s.foldl texStep (o, w) = (o ++ q, w') := by
    intro s o w
    have := texFold_out o [] w s
    rw [List.append_nil] at this
    exact ⟨_, _, rfl, this⟩
  induction parts with
  | nil =>
    intro o o' w xs ho h _
    simp only [join, List.foldl_nil, Prod.mk.injEq] at h ⊢
    obtain ⟨rfl, rfl⟩ := h
    exact ⟨o', by simp, ho⟩
  | cons p ps ih =>
    intro o o' w xs ho h hx
    cases ps with
    | nil =>
      simp only [join] at h ⊢
      obtain ⟨q, w', h1, h2⟩ := out p o w
      obtain ⟨q', w'', h1', h2'⟩ := out p o' w
      rw [h1] at h1'
      obtain ⟨rfl, rfl⟩ := Prod.mk.inj h1'
      rw [h2] at h
      obtain ⟨rfl, rfl⟩ := Prod.mk.inj h
      exact ⟨_, h2', ho.append (.refl q)⟩
    | cons p' ps =>
      rw [show join "+".toList (p :: p' :: ps) = p ++ "+".toList ++ join "+".toList (p' :: ps) from rfl, List.foldl_append, List.foldl_append] at h
      rw [show join wrapSep (p :: p' :: ps) = p ++ wrapSep ++ join wrapSep (p' :: ps) from rfl, List.foldl_append, List.foldl_append]
      obtain ⟨q, w', h1, h2⟩ := out p o w
      obtain ⟨q', w'', h1', h2'⟩ := out p o' w
      rw [h1] at h1'
      obtain ⟨rfl, rfl⟩ := Prod.mk.inj h1'
      rw [h2] at h
      rw [h2']
      have ho' := ho.append (.refl q)
      cases w' with
      | none =>
        have e1 : "+".toList.foldl texStep (o ++ q, none) = (o ++ q ++ [.chr '+'], none) := rfl
        have e2 : wrapSep.foldl texStep (o' ++ q, none) = (o' ++ q ++ [.cmd "\\".toList, .chr '&', .cmd "quad".toList, .chr '+'], none) := by
          rw [wrap_none]
        rw [e1] at h
        rw [e2]
        exact ih _ _ _ _ (ho'.append (.ins .nil)) h hx
      | some w' =>
        by_cases hw : w' = []
        · subst hw
          exfalso
          apply hx
          have e1 : "+".toList.foldl texStep (o ++ q, some []) = (o ++ q ++ [.cmd ['+']], none) := rfl
          rw [e1] at h
          obtain ⟨q2, w2, _, h4⟩ := out (join "+".toList (p' :: ps)) (o ++ q ++ [.cmd ['+']]) none
          rw [h4] at h
          obtain ⟨rfl, -⟩ := Prod.mk.inj h
          simp
        · have e1 : "+".toList.foldl texStep (o ++ q, some w') = (o ++ q ++ [.cmd w'] ++ [.chr '+'], none) := by
            have ha : ('+' : Char).isAlpha = false := rfl
            simp [texStep, texStart, isBlank, hw, ha]
          have e2 : wrapSep.foldl texStep (o' ++ q, some w') = (o' ++ q ++ [.cmd w'] ++ [.cmd "\\".toList, .chr '&', .cmd "quad".toList, .chr '+'], none) := by
            rw [wrap_some _ hw]
          rw [e1] at h
          rw [e2]
          exact ih _ _ _ _ ((ho'.append (.refl _)).append (.ins .nil)) h hx

/-- The symbols without those that are ignored outside of matrices. -/
def strip (l : List Sym) : List Sym := l.filter (fun t => t ≠ .next ∧ t ≠ .space)

theorem strip_append (a b : List Sym) : strip (a ++ b) = strip a ++ strip b := List.filter_append ..

theorem advance_plus (p : Pend) : advance p (.chr '+') = none := by
  cases p with
  | fn c s k =>
    match k with
    | 0 => rfl
    | 1 => rfl
    | 2 => rfl
    | k + 3 => simp [advance]
  | _ => simp [advance, Char.isDigit, Char.isAlphanum, Char.isAlpha, Char.isUpper, Char.isLower, isIndexChar]

theorem scan_ins {xs ys : List Tx} (h : Ins xs ys) : ∀ (o o' : List Sym) (p p2 : Pend) (o2 : List Sym), strip o = strip o' →
    xs.foldlM step (o, p) = some (o2, p2) → ∃ o2', ys.foldlM step (o', p) = some (o2', p2) ∧ strip o2 = strip o2' := by
  induction h with
  | nil =>
    intro o o' p p2 o2 ho h
    obtain ⟨rfl, rfl⟩ := Prod.mk.inj (Option.some.inj h)
    exact ⟨o', rfl, ho⟩
  | same t _ ih =>
    intro o o' p p2 o2 ho h
    rw [List.foldlM_cons] at h ⊢
    have e1 := step_out o [] p t
    have e2 := step_out o' [] p t
    rw [List.append_nil] at e1 e2
    rw [e1] at h
    rw [e2]
    cases h3 : step ([], p) t with
    | none => rw [h3] at h; exact absurd h (by simp)
    | some st =>
      rw [h3] at h
      exact ih _ _ _ _ _ (by rw [strip_append, strip_append, ho]) h
  | ins _ ih =>
    intro o o' p p2 o2 ho h
    rw [List.foldlM_cons] at h
    cases hf : flush p with
    | none =>
      have : step (o, p) (.chr '+') = none := by simp [step, advance_plus, hf]
      rw [this] at h
      exact absurd h (by simp)
    | some f =>
      have e1 : step (o, p) (.chr '+') = some (o ++ f, .done [.tok .plus]) := by
        simp only [step, advance_plus, hf]
        rfl
      rw [e1] at h
      have e2 : step (o', p) (.cmd "\\".toList) = some (o' ++ f, .done [.next]) := by
        simp only [step, advance_cmd, hf]
        rfl
      rw [List.foldlM_cons, e2]
      change ∃ o2', List.foldlM step (o' ++ f, Pend.done [.next]) _ = _ ∧ _
      rw [List.foldlM_cons, show step (o' ++ f, .done [.next]) (.chr '&') = some (o' ++ f ++ [.next], .done [.next]) from rfl]
      change ∃ o2', List.foldlM step (o' ++ f ++ [.next], Pend.done [.next]) _ = _ ∧ _
      rw [List.foldlM_cons, show step (o' ++ f ++ [.next], .done [.next]) (.cmd "quad".toList) = some (o' ++ f ++ [.next] ++ [.next], .done [.space]) from rfl]
      change ∃ o2', List.foldlM step (o' ++ f ++ [.next] ++ [.next], Pend.done [.space]) _ = _ ∧ _
      rw [List.foldlM_cons, show step (o' ++ f ++ [.next] ++ [.next], .done [.space]) (.chr '+') =
        some (o' ++ f ++ [.next] ++ [.next] ++ [.space], .done [.tok .plus]) from rfl]
      change ∃ o2', List.foldlM step (o' ++ f ++ [.next] ++ [.next] ++ [.space], Pend.done [.tok .plus]) _ = _ ∧ _
      refine ih _ _ _ _ _ ?_ h
      simp only [strip_append, ho]
      simp [strip]

theorem entR_zero {l : List Sym} {ts : List Tok} : EntR 0 0 l ts ↔ strip l = ts.map .tok := by
  have inside : ∀ (l : List Sym) (o : List Tok) (e : Str × Nat), ∀ st, l.foldlM (entryStep 0 0) (o, some e) = some st → st.2 ≠ none := by
    intro l
    induction l with
    | nil =>
      intro o e st h
      obtain rfl := Option.some.inj h
      simp
    | cons t l ih =>
      intro o e st h
      rw [List.foldlM_cons] at h
      cases t with
      | tok t => exact ih _ _ _ h
      | opens e' => exact absurd h (by simp [entryStep])
      | next => exact ih _ _ _ h
      | closes e' => exact absurd h (by simp [entryStep])
      | space => exact ih _ _ _ h
  constructor
  · intro h
    have key : ∀ (l : List Sym) (o ts : List Tok), l.foldlM (entryStep 0 0) (o, none) = some (ts, none) → ∃ q : List Tok, ts = o ++ q ∧ strip l = q.map .tok := by
      intro l
      induction l with
      | nil =>
        intro o ts h
        obtain ⟨rfl, -⟩ := Prod.mk.inj (Option.some.inj h)
        exact ⟨[], by simp, rfl⟩
      | cons t l ih =>
        intro o ts h
        rw [List.foldlM_cons] at h
        cases t with
        | tok t =>
          obtain ⟨q, rfl, hq⟩ := ih (o ++ [t]) ts h
          exact ⟨t :: q, by simp, by rw [show strip (Sym.tok t :: l) = Sym.tok t :: strip l from rfl, hq]; rfl⟩
        | opens e =>
          by_cases he : e ∈ environments
          · have : entryStep 0 0 (o, none) (.opens e) = some (o ++ [.lpar], some (e, 0)) := by simp [entryStep, he]
            rw [this] at h
            exact absurd rfl (inside l _ _ _ h)
          · have : entryStep 0 0 (o, none) (.opens e) = none := by simp [entryStep, he]
            rw [this] at h
            exact absurd h (by simp)
        | next => exact ih o ts h
        | closes e => exact absurd h (by simp [entryStep])
        | space => exact ih o ts h
    obtain ⟨q, h1, h2⟩ := key l [] ts h
    rw [h2, h1]
    rfl
  · intro h
    have key : ∀ (l : List Sym) (o q : List Tok), strip l = q.map .tok → l.foldlM (entryStep 0 0) (o, none) = some (o ++ q, none) := by
      intro l
      induction l with
      | nil =>
        intro o q h
        obtain rfl := List.map_eq_nil_iff.1 h.symm
        simp
      | cons t l ih =>
        intro o q h
        rw [List.foldlM_cons]
        cases t with
        | tok t =>
          rw [show strip (Sym.tok t :: l) = Sym.tok t :: strip l from rfl] at h
          cases q with
          | nil => exact absurd h (by simp)
          | cons t' q =>
            simp only [List.map_cons, List.cons.injEq, Sym.tok.injEq] at h
            obtain ⟨rfl, h⟩ := h
            have := ih (o ++ [t]) q h
            rw [show o ++ t :: q = o ++ [t] ++ q by simp]
            exact this
        | opens e =>
          rw [show strip (Sym.opens e :: l) = Sym.opens e :: strip l from rfl] at h
          cases q with
          | nil => exact absurd h (by simp)
          | cons t' q => exact absurd h (by simp)
        | next => exact ih o q h
        | closes e =>
          rw [show strip (Sym.closes e :: l) = Sym.closes e :: strip l from rfl] at h
          cases q with
          | nil => exact absurd h (by simp)
          | cons t' q => exact absurd h (by simp)
        | space => exact ih o q h
    exact key l [] ts h

theorem mem_scan {xs : List Tx} {o o2 : List Sym} {p p2 : Pend} (h : xs.foldlM step (o, p) = some (o2, p2)) : Tx.cmd ['+'] ∉ xs := by
  induction xs generalizing o p with
  | nil => simp
  | cons t xs ih =>
    rw [List.foldlM_cons] at h
    cases h1 : step (o, p) t with
    | none => rw [h1] at h; exact absurd h (by simp)
    | some st =>
      rw [h1] at h
      have h2 := ih (o := st.1) (p := st.2) h
      intro hm
      rcases List.mem_cons.1 hm with rfl | hm
      · unfold step at h1
        rw [advance_cmd] at h1
        have : start (.cmd ['+']) = none := by decide
        rw [this] at h1
        cases flush p <;> exact absurd h1 (by simp)
      · exact h2 hm

/-- Line breaks before plus signs do not change the value of a formula. -/
theorem txt_wrap {l : Level} {b d : Bool} {parts : List Str} {v : K} (h : Txt env 0 0 l b d (join "+".toList parts) v) :
    Txt' env 0 0 l (join wrapSep parts) v := by
  obtain ⟨ts, ⟨xs, l, h1, ⟨⟨t, xs', rfl, _⟩, o, p, f, h3, h4, rfl, _⟩, h6⟩, h7⟩ := h
  obtain ⟨ys, h8, h9⟩ := tex_wrap parts [] [] none _ .nil h1 (mem_scan h3)
  obtain ⟨o', h10, h11⟩ := scan_ins h9 [] [] _ _ _ rfl h3
  have hne : ∃ t ys', ys = t :: ys' := by
    cases h9 with
    | same t _ => exact ⟨_, _, rfl⟩
    | ins _ => exact ⟨_, _, rfl⟩
  obtain ⟨t', ys', rfl⟩ := hne
  refine ⟨ts, ⟨_, o' ++ f, h8, ⟨⟨t', ys', rfl, by simp⟩, o', p, f, h10, h4, rfl, by simp⟩, ?_⟩, h7⟩
  rw [entR_zero] at h6 ⊢
  rw [strip_append, ← h11, ← strip_append, h6]

end

section
variable {K : Type} [Field K] [LinearOrder K] [IsStrictOrderedRing K]

/-- The basis polynomials in the documentation strings. -/
def docFn (b : Basis) (r : Nat) (x : List K) (nu : List Nat) : K :=
  match b with
  | .monomial => Spec.monomial x nu
  | .bernstein => Spec.monomial x nu * (1 - x.sum) ^ (r - nu.sum)
  | .lagrange => Spec.lagrange r x nu

theorem docBasis_spec {frac : K → Str} (b : Basis) {m r : Nat} (hs : b ≠ .bernstein → m ≤ 9 ∧ r ≤ 9)
    (hfrac : b = .lagrange → ∀ ν ∈ mis m r, ∀ c, getLagrangeBasisFnCoefficients K ν r = .ok c → ∀ v ∈ c,
      PrintsExactly (frac v) v ∧ PrintsExactly (frac (-v)) (-v)) :
    ∃ l, docBasis frac b m r = .ok l ∧ l.length = getDimension r m ∧ ∀ (env : Env K) (x : Fin m → K), Variables env (List.ofFn x) →
      ∀ n i, List.Forall₂ (Rhs env n i) l ((mis m r).map (docFn b r (List.ofFn x))) := by
  cases b with
  | monomial =>
    refine ⟨_, rfl, by rw [monomialBasisLatex, List.length_map, generateAll_eq_mis, length_mis_eq], fun env x hx n i => ?_⟩
    obtain ⟨hm, hr⟩ := hs (by simp)
    have := forall₂_monomialBasisLatex (n := n) (i := i) hx (by simpa using hm) hr
    rw [List.length_ofFn] at this
    exact this
  | bernstein =>
    refine ⟨_, rfl, by rw [List.length_map, generateAll_eq_mis, length_mis_eq], fun env x hx n i => ?_⟩
    rw [generateAll_eq_mis]
    exact forall₂_map_mem _ (fun ν hν => (fac_barycentricBasisFnDoc hx (by simpa using (mem_mis.1 hν).1) (mem_mis.1 hν).2).rhs)
  | lagrange =>
    obtain ⟨hm, hr⟩ := hs (by simp)
    obtain ⟨l, h1, h2, h3⟩ := lagrangeBasis_spec hm hr (hfrac rfl)
    refine ⟨l.map (fun s => "(".toList ++ s ++ ")".toList), ?_, by rw [List.length_map, h2], fun env x hx n i => ?_⟩
    · unfold docBasis
      simp only
      rw [h1, Py.bind_ok]
      rfl
    · rw [List.forall₂_map_left_iff]
      exact (h3 env x hx n i).imp (fun _ _ h => h.1.paren.power.operand.rhs)

omit [LinearOrder K] [IsStrictOrderedRing K] in
/-- The coefficients in the formula. -/
theorem forall₂_coefficients {env : Env K} {n i : Nat} (a : List K) (ha : ∀ j (h : j < a.length), env (subscripted 'a' (natStr j)) = some (.num a[j])) :
    List.Forall₂ (Txt' env n i .term) (strSequence "a".toList 0 a.length) a := by
  unfold strSequence
  rw [List.forall₂_iff_get]
  refine ⟨by simp, fun j h2 h3 => ?_⟩
  simp only [List.get_eq_getElem, List.getElem_map, List.getElem_range', one_mul, Nat.zero_add]
  exact (Txt.weaken ⟨_, lx_braces (v := 'a') rfl rfl j, Parses.name (ha j h3)⟩ : Txt' env n i .atom _ _).power.factor.term

theorem docLatexStr_spec {frac : K → Str} (b : Basis) {m r : Nat} (hs : b ≠ .bernstein → m ≤ 9 ∧ r ≤ 9)
    (hfrac : b = .lagrange → ∀ ν ∈ mis m r, ∀ c, getLagrangeBasisFnCoefficients K ν r = .ok c → ∀ v ∈ c,
      PrintsExactly (frac v) v ∧ PrintsExactly (frac (-v)) (-v)) :
    ∃ e, docLatexStr frac b m r = .ok ((if b = .bernstein then "b(x) = ".toList else "p(x) = ".toList) ++ e) ∧
      ∀ (env : Env K) (a : List K) (x : Fin m → K), a.length = getDimension r m → Variables env (List.ofFn x) →
        (∀ j (h : j < a.length), env (subscripted 'a' (natStr j)) = some (.num a[j])) →
        Txt' env 0 0 .sum e (Spec.linComb (docFn b r (List.ofFn x)) (mis m r) a) := by
  obtain ⟨l, h1, h2, h3⟩ := docBasis_spec b hs hfrac
  have hlen : (strSequence "a".toList 0 (getDimension r m)).length = l.length := by rw [h2]; simp [strSequence]
  obtain ⟨s, hs'⟩ : ∃ s, strDotProduct (strSequence "a".toList 0 (getDimension r m)) l [] = .ok s :=
    ⟨_, by unfold strDotProduct; rw [decide_eq_true hlen]; rfl⟩
  obtain ⟨parts, h4, h5⟩ := splitLongStr_parts s "+".toList (by decide)
  refine ⟨join wrapSep parts, ?_, fun env a x ha hx henv => ?_⟩
  · unfold docLatexStr
    rw [h1, Py.bind_ok, hs', Py.bind_ok, h4, Py.bind_ok]
    rfl
  · refine txt_wrap (b := false) (d := false) ?_
    rw [join_eq, h5]
    have hc := forall₂_coefficients (n := 0) (i := 0) a henv
    rw [ha] at hc
    obtain ⟨s', h6, h7⟩ := txt_strDotProduct hc (h3 env x hx 0 0) hlen
    rw [Except.ok.inj (hs'.symm.trans h6), linComb_comm]
    exact h7

end

end Verif.Latex
