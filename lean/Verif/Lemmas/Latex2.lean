import Verif.Lemmas.Latex
import Verif.Lemmas.CodeGeneration3
/-!
# LaTeX texts of numbers, monomials and Bernstein polynomials
-/

namespace Verif.Latex
open Verif Verif.Str Verif.PyExpr Verif.CodeGen Verif.Poly Verif.MI

variable {n i : Nat} {K : Type} [Field K] {env : Env K}

/-! ## Numbers -/

theorem start_cmd_flush {w : Str} {p : Pend} {f : List Sym} (h : start (.cmd w) = some p) (hf : flush p = some f) :
    f = [.tok .star] ∨ f = [.next] ∨ f = [.space] := by
  unfold start at h
  simp only at h
  split at h
  · obtain rfl := Option.some.inj h
    exact Or.inl (Option.some.inj hf).symm
  split at h
  · obtain rfl := Option.some.inj h
    exact absurd hf (by simp [flush])
  split at h
  · obtain rfl := Option.some.inj h
    exact absurd hf (by simp [flush])
  split at h
  · obtain rfl := Option.some.inj h
    exact absurd hf (by simp [flush])
  split at h
  · obtain rfl := Option.some.inj h
    exact Or.inr (Or.inl (Option.some.inj hf).symm)
  split at h
  · obtain rfl := Option.some.inj h
    exact Or.inr (Or.inr (Option.some.inj hf).symm)
  · exact absurd h (by simp)

theorem advance_cmd (p : Pend) (w : Str) : advance p (.cmd w) = none := by cases p <;> simp [advance]

/-- A text that consists of tokens, the last of which is the end of an operand. -/
theorem raw_of_lex {s : Str} {l : List Tok} (h : lex s = some (l.map .tok)) {t : Tok} (ht : l.getLast? = some t) (he : ends t = true) :
    ∃ xs, TexR s xs ∧ LexR false false xs (l.map .tok) := by
  unfold lex at h
  have hne : l ≠ [] := by rintro rfl; exact absurd ht (by simp)
  cases h1 : (tex s).foldlM step ([], Pend.done []) with
  | none => rw [h1] at h; exact absurd h (by simp)
  | some st =>
    obtain ⟨o, p⟩ := st
    rw [h1] at h
    cases h2 : flush p with
    | none => simp [h2] at h
    | some f =>
      simp only [Option.bind_eq_bind, Option.bind_some, h2, Option.pure_def, Option.some.injEq] at h
      have hx : TexR s (tex s) := by
        unfold TexR
        cases h3 : s.foldl texStep ([], none) with
        | mk xs w =>
          unfold tex at h1 ⊢
          rw [h3] at h1 ⊢
          cases w with
          | none => rfl
          | some w =>
            simp only [List.foldlM_append] at h1
            exfalso
            cases h4 : xs.foldlM step ([], Pend.done []) with
            | none => rw [h4] at h1; exact absurd h1 (by simp)
            | some st =>
              obtain ⟨o', p'⟩ := st
              rw [h4] at h1
              change List.foldlM step (o', p') [.cmd w] = _ at h1
              rw [List.foldlM_cons] at h1
              unfold step at h1
              simp only [advance_cmd] at h1
              cases h5 : flush p' with
              | none => rw [h5] at h1; exact absurd h1 (by simp)
              | some f' =>
                cases h6 : start (.cmd w) with
                | none => rw [h5, h6] at h1; exact absurd h1 (by simp)
                | some q =>
                  rw [h5, h6] at h1
                  simp only [Option.bind_eq_bind, Option.bind_some, Option.pure_def, List.foldlM_nil, Option.some.injEq, Prod.mk.injEq] at h1
                  obtain ⟨-, rfl⟩ := h1
                  have h7 : (l.map Sym.tok).getLast? = some (.tok t) := by rw [List.getLast?_map, ht]; rfl
                  rw [← h] at h7
                  rcases start_cmd_flush h6 h2 with rfl | rfl | rfl
                  · simp only [List.getLast?_append, List.getLast?_singleton, Option.some_or, Option.some.injEq, Sym.tok.injEq] at h7
                    subst h7
                    exact absurd he (by decide)
                  · simp at h7
                  · simp at h7
      refine ⟨_, hx, ⟨?_, o, p, f, h1, h2, h.symm, by simp⟩⟩
      cases h3 : tex s with
      | nil =>
        rw [h3] at h1
        obtain ⟨rfl, rfl⟩ := Prod.mk.inj (Option.some.inj h1)
        obtain rfl := Option.some.inj h2
        simp only [List.append_nil] at h
        exact absurd (List.map_eq_nil_iff.1 h.symm) hne
      | cons t xs => exact ⟨t, xs, rfl, by simp⟩

theorem lx_of_lex {s : Str} {l : List Tok} (h : lex s = some (l.map .tok)) {t : Tok} (ht : l.getLast? = some t) (he : ends t = true) :
    Lx n i false false s l := by
  obtain ⟨xs, h1, h2⟩ := raw_of_lex h ht he
  exact ⟨_, _, h1, h2, entR_tok n i l⟩

theorem PrintsExactly.txt {s : Str} {v : K} (h : PrintsExactly s v) : Txt' env n i .term s v := by
  obtain ⟨l, h1, h2⟩ := h env
  obtain ⟨t, h3, h4⟩ := Parses.last_ends h2
  rw [times_getLast] at h3
  exact ⟨l, lx_of_lex h1 h3 h4, h2⟩

theorem Txt.ne_nil {l : Level} {b d : Bool} {s : Str} {v : K} (h : Txt env n i l b d s v) : s ≠ [] := by
  rintro rfl
  obtain ⟨ts, ⟨xs, l', h1, ⟨⟨t, xs', rfl, _⟩, _⟩, _⟩, _⟩ := h
  exact absurd (Prod.mk.inj h1).1 (by simp)

theorem Operand.head_ne {d : Bool} {s : Str} {v : K} (h : Operand env n i d s v) : s.head? ≠ some '-' := by
  intro h0
  obtain ⟨t, rfl⟩ := head_minus h0
  obtain ⟨ts, x, h1, h2, h3, h4⟩ := h
  obtain ⟨ts', rfl, -⟩ := h1.minus_inv
  simp only [List.head?_cons, Option.some.injEq] at h2
  subst h2
  exact absurd h3 (by decide)

theorem Operand.rhs {d : Bool} {s : Str} {v : K} (h : Operand env n i d s v) : Rhs env n i s v := .operand h.head_ne h.weaken

/-! ## Variables and powers -/

theorem forall₂_variableNames {x : List K} (hx : Variables env x) (hm : x.length ≤ 9) :
    List.Forall₂ (Txt env n i .atom true false) (variableNames x.length) x := by
  unfold variableNames
  by_cases h1 : x.length = 1
  · rw [if_pos h1]
    obtain ⟨a, rfl⟩ := List.length_eq_one_iff.1 h1
    have := hx 0 (by simp)
    exact .cons ⟨_, lx_x, .name this⟩ .nil
  · rw [if_neg h1, List.forall₂_iff_get]
    refine ⟨by simp, fun j h2 h3 => ?_⟩
    have hj := hx j h3
    simp only [variableName, if_neg h1] at hj
    simp only [List.get_eq_getElem, List.getElem_map, List.getElem_range', one_mul]
    refine ⟨_, (lx_sub (v := 'x') rfl rfl (k := 1 + j) (by omega)).weaken_end, .name ?_⟩
    rw [Nat.add_comm 1 j]
    exact hj

/-- A power with an exponent of one digit. -/
theorem Txt.pow {d : Bool} {s : Str} {v : K} (h : Txt env n i .atom true d s v) {k : Nat} (hk : k ≤ 9) :
    Txt env n i .power true true (s ++ "^".toList ++ natStr k) (v ^ k) := by
  obtain ⟨ts, h1, h2⟩ := h
  have h3 := h1.append (lx_pow hk) (Or.inr rfl)
  refine ⟨_, by rw [List.append_assoc]; exact h3, ?_⟩
  rw [times_op .pow rfl rfl (ne_nil_of_times h2) (by simp)]
  exact .pow k h2

theorem forall₂_powerParts : ∀ {vs : List Str} {x : List K}, List.Forall₂ (Txt env n i .atom true false) vs x → ∀ (nu : List Nat), nu.length = x.length →
    (∀ k ∈ nu, k ≤ 9) → ∃ us, List.Forall₂ (Operand env n i false) (powerParts vs nu) us ∧ us.prod = Spec.monomial x nu := by
  intro vs x h
  induction h with
  | nil =>
    intro nu hl _
    cases nu with
    | nil => exact ⟨[], .nil, by simp [Spec.monomial]⟩
    | cons k nu => simp at hl
  | cons h1 _ ih =>
    intro nu hl hk
    cases nu with
    | nil => simp at hl
    | cons k nu =>
      obtain ⟨us, h2, h3⟩ := ih nu (by simpa using hl) (fun k' h' => hk k' (List.mem_cons_of_mem _ h'))
      have hm : ∀ (a : K) (l : List K), Spec.monomial (a :: l) (k :: nu) = a ^ k * Spec.monomial l nu := by intro a l; simp [Spec.monomial]
      unfold powerParts
      by_cases hk0 : k = 0
      · rw [if_pos hk0]
        exact ⟨us, h2, by rw [h3, hm, hk0, pow_zero, one_mul]⟩
      · rw [if_neg hk0]
        by_cases hk1 : k = 1
        · rw [if_pos hk1]
          exact ⟨_ :: us, .cons h1.power.operand h2, by rw [List.prod_cons, h3, hm, hk1, pow_one]⟩
        · rw [if_neg hk1]
          exact ⟨_ :: us, .cons (h1.pow (hk k List.mem_cons_self)).operand.weaken h2, by rw [List.prod_cons, h3, hm]⟩

/-- Factors with blanks between them. -/
theorem operand_join {l : List Str} {us : List K} (h : List.Forall₂ (Operand env n i false) l us) (hne : l ≠ []) :
    Operand env n i false (join " ".toList l) us.prod := by
  induction h with
  | nil => exact absurd rfl hne
  | cons h1 h2 ih =>
    rename_i a u l us
    cases h2 with
    | nil => simpa [join] using h1
    | cons h3 h4 =>
      rw [List.prod_cons]
      exact h1.juxt (ih (by simp))

theorem powerParts_nil {vs : List Str} {nu : List Nat} (hl : vs.length = nu.length) : powerParts vs nu = [] ↔ nu.sum = 0 := by
  induction vs generalizing nu with
  | nil =>
    cases nu with
    | nil => simp [powerParts]
    | cons k nu => simp at hl
  | cons v vs ih =>
    cases nu with
    | nil => simp at hl
    | cons k nu =>
      have := ih (nu := nu) (by simpa using hl)
      unfold powerParts
      by_cases hk0 : k = 0
      · simp [hk0, this]
      · rw [if_neg hk0]
        split <;> simp [hk0]

theorem length_variableNames (m : Nat) : (variableNames m).length = m := by
  unfold variableNames
  split
  · rename_i h; simp [h]
  · simp

/-- The text of a monomial is `1`, or can stand behind a factor. -/
theorem monomial_cases {x : List K} (hx : Variables env x) (hm : x.length ≤ 9) {nu : List Nat} (hl : nu.length = x.length) (hk : ∀ k ∈ nu, k ≤ 9) :
    (nu.sum = 0 ∧ monomialBasisFnLatex nu = "1".toList ∧ Spec.monomial x nu = 1) ∨
      (nu.sum ≠ 0 ∧ Operand env n i false (monomialBasisFnLatex nu) (Spec.monomial x nu)) := by
  obtain ⟨us, h1, h2⟩ := forall₂_powerParts (forall₂_variableNames (n := n) (i := i) hx hm) nu hl hk
  rw [← hl] at h1
  have h3 := powerParts_nil (vs := variableNames nu.length) (nu := nu) (length_variableNames _)
  unfold monomialBasisFnLatex
  simp only [List.length_eq_zero_iff]
  by_cases h4 : powerParts (variableNames nu.length) nu = []
  · left
    rw [h4] at h1
    cases h1
    exact ⟨h3.1 h4, by rw [if_pos h4], h2.symm⟩
  · right
    rw [if_neg h4, ← h2]
    exact ⟨fun h => h4 (h3.2 h), operand_join h1 h4⟩

theorem rhs_monomial {x : List K} (hx : Variables env x) (hm : x.length ≤ 9) {nu : List Nat} (hl : nu.length = x.length) (hk : ∀ k ∈ nu, k ≤ 9) :
    Rhs env n i (monomialBasisFnLatex nu) (Spec.monomial x nu) := by
  rcases monomial_cases (n := n) (i := i) hx hm hl hk with ⟨_, h1, h2⟩ | ⟨_, h⟩
  · rw [h1, h2]; exact .one
  · exact h.rhs

theorem le_of_mem_mis {m r : Nat} {nu : List Nat} (h : nu ∈ mis m r) {k : Nat} (hk : k ∈ nu) : k ≤ r :=
  (List.single_le_sum (fun _ _ => Nat.zero_le _) _ hk).trans (mem_mis.1 h).2

theorem forall₂_monomialBasisLatex {x : List K} (hx : Variables env x) (hm : x.length ≤ 9) {r : Nat} (hr : r ≤ 9) :
    List.Forall₂ (Rhs env n i) (monomialBasisLatex r x.length) ((mis x.length r).map (Spec.monomial x)) := by
  unfold monomialBasisLatex
  rw [generateAll_eq_mis]
  exact forall₂_map_mem _ (fun ν hν => rhs_monomial hx hm (mem_mis.1 hν).1 (fun k hk => (le_of_mem_mis hν hk).trans hr))

/-! ## Bernstein polynomials -/

theorem txt_fold_sub {vs : List Str} {x : List K} (h : List.Forall₂ (Txt env n i .atom true false) vs x) : ∀ (s : Str) (u : K), Txt' env n i .sum s u →
    Txt' env n i .sum (vs.foldl (fun part v => part ++ " - ".toList ++ v) s) (u - x.sum) := by
  induction h with
  | nil => intro s u hs; simpa using hs
  | cons h1 _ ih =>
    intro s u hs
    rw [List.foldl_cons, List.sum_cons, ← sub_sub]
    refine ih _ _ ?_
    obtain ⟨ta, ha1, ha2⟩ := hs
    obtain ⟨tb, hb1, hb2⟩ := h1.power.factor.term
    refine ⟨_, ((ha1.append lx_minus (Or.inr rfl)).append hb1 (Or.inl rfl)).weaken, ?_⟩
    rw [List.append_assoc, List.cons_append, List.nil_append, times_op .minus rfl rfl (ne_nil_of_times ha2) (ne_nil_of_times hb2)]
    exact .sub ha2 hb2

theorem foldl_prefix (vs : List Str) (a s : Str) :
    vs.foldl (fun part v => part ++ " - ".toList ++ v) (a ++ s) = a ++ vs.foldl (fun part v => part ++ " - ".toList ++ v) s := by
  induction vs generalizing s with
  | nil => rfl
  | cons v vs ih => rw [List.foldl_cons, List.foldl_cons, ← ih]; simp

theorem forall₂_restParts {vs : List Str} {x : List K} (h : List.Forall₂ (Txt env n i .atom true false) vs x) {e : Nat} (he : e ≤ 9) :
    ∃ us, List.Forall₂ (Operand env n i false) (restParts vs (e : Int)) us ∧ us.prod = (1 - x.sum) ^ e := by
  unfold restParts
  by_cases h0 : e = 0
  · subst h0
    exact ⟨[], .nil, by simp⟩
  · rw [if_pos (by exact_mod_cast h0)]
    have h1 : Txt env n i .atom true true (vs.foldl (fun part v => part ++ " - ".toList ++ v) "(1".toList ++ ")".toList) (1 - x.sum) := by
      have := (txt_fold_sub h _ _ txt_one.power.factor.term.sum).paren
      rwa [← foldl_prefix] at this
    simp only
    by_cases h2 : e = 1
    · subst h2
      exact ⟨[1 - x.sum], .cons h1.power.operand.weaken .nil, by simp⟩
    · rw [if_neg (by exact_mod_cast h2)]
      exact ⟨[(1 - x.sum) ^ e], .cons (h1.pow he).operand.weaken .nil, by simp⟩

theorem bernsteinCoefficient_eq {nu : List Nat} {r : Nat} (h : nu.sum ≤ r) : bernsteinCoefficient nu r = .ok ((Spec.multinomial r nu : Nat) : Int) := by
  unfold bernsteinCoefficient
  split
  · rename_i k
    rw [multinomial_one r k (by simpa using h)]
  · rw [multinomGeneral_eq r nu h, Py.bind_ok]
    congr 1

theorem restParts_nil (vs : List Str) (e : Nat) : restParts vs (e : Int) = [] ↔ e = 0 := by
  unfold restParts
  by_cases h0 : e = 0
  · simp [h0]
  · rw [if_pos (by exact_mod_cast h0)]
    simp only [h0, iff_false]
    split <;> simp

/-- The text of a Bernstein polynomial of positive degree. -/
theorem bernstein_cases {x : List K} (hx : Variables env x) (hm : x.length ≤ 9) {nu : List Nat} (hl : nu.length = x.length) {r : Nat} (hs : nu.sum ≤ r)
    (hr1 : 1 ≤ r) (hr : r ≤ 9) :
    ∃ s, bernsteinBasisFnLatex nu r = .ok s ∧
      (Operand env n i false s (Spec.bernstein r x nu) ∨ (Txt' env n i .term s (Spec.bernstein r x nu) ∧ ∃ c t, s = c :: t ∧ c.isDigit = true)) := by
  have hv := forall₂_variableNames (n := n) (i := i) hx hm
  have hk : ∀ k ∈ nu, k ≤ 9 := fun k hk => (List.single_le_sum (fun _ _ => Nat.zero_le _) _ hk).trans (hs.trans hr)
  obtain ⟨us, h1, h2⟩ := forall₂_powerParts hv nu hl hk
  obtain ⟨us', h3, h4⟩ := forall₂_restParts hv (e := r - nu.sum) (by omega)
  have hp := List.rel_append h1 h3
  have hne : powerParts (variableNames x.length) nu ++ restParts (variableNames x.length) ((r - nu.sum : Nat) : Int) ≠ [] := by
    intro h
    rw [List.append_eq_nil_iff, powerParts_nil (by rw [length_variableNames, hl]), restParts_nil] at h
    omega
  have ho := operand_join hp hne
  rw [List.prod_append, h2, h4] at ho
  unfold bernsteinBasisFnLatex
  rw [hl]
  simp only
  rw [show (MI.norm nu : Int) = ((nu.sum : Nat) : Int) from rfl, ← Nat.cast_sub hs, bernsteinCoefficient_eq hs, Py.bind_ok]
  unfold Spec.bernstein
  by_cases hc : Spec.multinomial r nu = 1
  · rw [if_pos (by exact_mod_cast hc), hc, Nat.cast_one, one_mul]
    exact ⟨_, rfl, Or.inl ho⟩
  · rw [if_neg (by exact_mod_cast hc), mul_assoc]
    refine ⟨_, rfl, Or.inr ⟨((txt_nat _).power.factor.term.juxt ho).weaken, ?_⟩⟩
    obtain ⟨c, t, h⟩ := List.exists_cons_of_ne_nil (natStr_ne_nil (Spec.multinomial r nu))
    exact ⟨c, t ++ _, by rw [intStr_ofNat, h, List.append_assoc]; rfl, natStr_digit _ c (by rw [h]; exact List.mem_cons_self)⟩

/-- The loop of `latex_str_expanded` for Bernstein polynomials. -/
theorem txt_expandedLoop {basis : List Str} {vals : List K}
    (hb : List.Forall₂ (fun s v => Operand env n i false s v ∨ (Txt' env n i .term s v ∧ ∃ c t, s = c :: t ∧ c.isDigit = true)) basis vals) :
    ∀ (coeffs : List Str) (us : List K) (k : Nat) (res : Str) (w : K), List.Forall₂ (Txt' env n i .term) coeffs us → Txt' env n i .sum res w →
      k + coeffs.length ≤ basis.length →
      ∃ s, expandedLoop basis k coeffs res = .ok s ∧ Txt' env n i .sum s (w + (List.zipWith (· * ·) us (vals.drop k)).sum) := by
  intro coeffs
  induction coeffs with
  | nil =>
    intro us k res w hc hr hk
    cases hc
    exact ⟨res, rfl, by simpa using hr⟩
  | cons c cs ih =>
    intro us k res w hc hr hk
    cases hc with
    | cons h1 h2 =>
      rename_i u us
      simp only [List.length_cons] at hk
      have hlen := hb.length_eq
      have hk' : k < basis.length := by omega
      have hkv : k < vals.length := by omega
      have hbk := (List.forall₂_iff_get.1 hb).2 k hk' hkv
      simp only [List.get_eq_getElem] at hbk
      unfold expandedLoop
      rw [getE_ok hk', Py.bind_ok]
      have hne : basis[k] ≠ [] := by
        rcases hbk with h | h
        · exact h.txt.ne_nil
        · exact h.1.ne_nil
      have h0 : 0 < basis[k].length := List.length_pos_iff.2 hne
      rw [getE_ok h0, Py.bind_ok]
      have hp : Txt' env n i .term (if isNumeric basis[k][0] then strProduct c basis[k] "\\cdot".toList else strProduct c basis[k] []) (u * vals[k]) := by
        by_cases hd : isNumeric basis[k][0] = true
        · rw [if_pos hd]
          refine txt_strProduct_cdot h1 ?_
          rcases hbk with h | h
          · exact h.txt.weaken
          · exact h.1
        · rw [if_neg hd]
          refine txt_strProduct h1 ?_
          rcases hbk with h | ⟨_, c', t, h, h'⟩
          · exact h.rhs
          · exfalso
            apply hd
            unfold isNumeric
            rw [← h']
            congr 1
            simp [h]
      simp only
      obtain ⟨s, h3, h4⟩ := ih us (k + 1) _ _ h2 (txt_strSum hr hp.sum) (by omega)
      refine ⟨s, h3, ?_⟩
      rw [List.drop_eq_getElem_cons hkv, List.zipWith_cons_cons, List.sum_cons, ← add_assoc]
      exact h4

end Verif.Latex
