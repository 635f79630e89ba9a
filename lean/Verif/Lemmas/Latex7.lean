import Verif.Lemmas.Latex6
/-!
# Numbers in LaTeX formulas
-/

namespace Verif.Latex
open Verif Verif.Str Verif.PyExpr Verif.CodeGen Verif.Poly Verif.MI

variable {K : Type} [Field K]

theorem Raw.lex {b d : Bool} {s : Str} {l : List Sym} (h : Raw b d s l) : lex s = some l := by
  obtain ⟨xs, h1, _, o, p, f, h2, h3, rfl, _⟩ := h
  unfold Latex.lex
  rw [h1.tex, h2]
  simp [h3]

theorem Raw.prints {b d : Bool} {s : Str} {ts : List Tok} {v : K} (h : Raw b d s (ts.map .tok)) (hv : ∀ env : Env K, Parses env .term (times ts) v) :
    PrintsExactly s v := fun env => ⟨ts, h.lex, hv env⟩

theorem raw_nat (k : Nat) : Raw false false (natStr k) [.tok (.int k)] := by
  have hne := natStr_ne_nil k
  cases h : natStr k with
  | nil => exact absurd h hne
  | cons c cs =>
    have hd : ∀ c' ∈ c :: cs, c'.isDigit = true := by rw [← h]; exact natStr_digit k
    have hc := hd c List.mem_cons_self
    refine raw_lit _ ((c :: cs).map .chr) _ (.num k) [] _ (by rw [← h]; exact texR_natStr k) ?_ rfl rfl ⟨_, _, rfl, by simp⟩ (by simp)
    rw [List.map_cons, List.foldlM_cons, show step ([], .done []) (.chr c) = some ([], .num (digit c)) by simp [step, advance, flush, start, hc]]
    change List.foldlM step ([], Pend.num (digit c)) _ = _
    rw [scan_digits _ _ _ (fun c' h' => hd c' (List.mem_cons_of_mem _ h'))]
    have h2 := digitsValue_natStr k
    rw [h, digitsValue, List.foldl_cons] at h2
    simp only [Nat.mul_zero, Nat.zero_add] at h2
    rw [h2]

theorem raw_neg : Raw true true "-".toList [.tok .minus] :=
  raw_lit _ [.chr '-'] _ (.done [.tok .minus]) [] _ rfl rfl rfl rfl ⟨_, _, rfl, fun _ => rfl⟩ fun _ => ⟨_, rfl⟩

theorem raw_slash : Raw true true " / ".toList [.tok .slash] :=
  raw_lit _ [.chr '/'] _ (.done [.tok .slash]) [] _ rfl rfl rfl rfl ⟨_, _, rfl, fun _ => rfl⟩ fun _ => ⟨_, rfl⟩

theorem scan_fracN (o : List Sym) : ∀ (cs s : Str), (∀ c ∈ cs, c.isDigit = true) →
    (cs.map Tx.chr).foldlM step (o, .fracN s) = some (o, .fracN (s ++ cs)) := by
  intro cs
  induction cs with
  | nil => intro s _; simp
  | cons c cs ih =>
    intro s h
    have hc := h c List.mem_cons_self
    have hc' : c ≠ '}' := by rintro rfl; exact absurd hc (by decide)
    rw [List.map_cons, List.foldlM_cons, show step (o, .fracN s) (.chr c) = some (o, .fracN (s ++ [c])) by simp [step, advance, hc, hc']]
    change List.foldlM step (o, Pend.fracN (s ++ [c])) (cs.map Tx.chr) = _
    rw [ih _ (fun c' h' => h c' (List.mem_cons_of_mem _ h'))]
    simp

theorem scan_fracD (o : List Sym) (a : Str) : ∀ (cs s : Str), (∀ c ∈ cs, c.isDigit = true) →
    (cs.map Tx.chr).foldlM step (o, .fracD a s) = some (o, .fracD a (s ++ cs)) := by
  intro cs
  induction cs with
  | nil => intro s _; simp
  | cons c cs ih =>
    intro s h
    have hc := h c List.mem_cons_self
    have hc' : c ≠ '}' := by rintro rfl; exact absurd hc (by decide)
    rw [List.map_cons, List.foldlM_cons, show step (o, .fracD a s) (.chr c) = some (o, .fracD a (s ++ [c])) by simp [step, advance, hc, hc']]
    change List.foldlM step (o, Pend.fracD a (s ++ [c])) (cs.map Tx.chr) = _
    rw [ih _ (fun c' h' => h c' (List.mem_cons_of_mem _ h'))]
    simp

/-- A fraction. -/
theorem raw_frac (a b : Nat) : Raw true true ("\\frac{".toList ++ natStr a ++ "}{".toList ++ natStr b ++ "}".toList)
    ([.lpar, .int a, .slash, .int b, .rpar].map .tok) := by
  refine raw_lit _ (.cmd "frac".toList :: .chr '{' :: ((natStr a).map Tx.chr ++ .chr '}' :: .chr '{' :: ((natStr b).map Tx.chr ++ [.chr '}']))) _
    (.done ([.lpar, .int a, .slash, .int b, .rpar].map .tok)) [] _ ?_ ?_ rfl rfl ⟨_, _, rfl, fun _ => rfl⟩ fun _ => ⟨_, rfl⟩
  · have h1 : TexR "\\frac{".toList [.cmd "frac".toList, .chr '{'] := rfl
    have h2 : TexR "}{".toList [.chr '}', .chr '{'] := rfl
    have h3 : TexR "}".toList [.chr '}'] := rfl
    have := (((h1.append (texR_natStr a)).append h2).append (texR_natStr b)).append h3
    simpa using this
  · rw [List.foldlM_cons, show step ([], .done []) (.cmd "frac".toList) = some ([], .frac1) from rfl]
    change List.foldlM step ([], Pend.frac1) _ = _
    rw [List.foldlM_cons, show step ([], .frac1) (.chr '{') = some ([], .fracN []) from rfl]
    change List.foldlM step ([], Pend.fracN []) _ = _
    rw [List.foldlM_append, scan_fracN _ _ _ (natStr_digit a), List.nil_append]
    change List.foldlM step ([], Pend.fracN (natStr a)) _ = _
    rw [List.foldlM_cons, show step ([], .fracN (natStr a)) (.chr '}') = some ([], .frac2 (natStr a)) by
      simp [step, advance, natStr_ne_nil]]
    change List.foldlM step ([], Pend.frac2 (natStr a)) _ = _
    rw [List.foldlM_cons, show step ([], .frac2 (natStr a)) (.chr '{') = some ([], .fracD (natStr a) []) from rfl]
    change List.foldlM step ([], Pend.fracD (natStr a) []) _ = _
    rw [List.foldlM_append, scan_fracD _ _ _ _ (natStr_digit b), List.nil_append]
    change List.foldlM step ([], Pend.fracD (natStr a) (natStr b)) [.chr '}'] = _
    rw [List.foldlM_cons, show step ([], .fracD (natStr a) (natStr b)) (.chr '}') = some ([], .done ([.lpar, .int a, .slash, .int b, .rpar].map .tok)) by
      simp [step, advance, natStr_ne_nil, digitsValue_natStr]]
    rfl

theorem parses_nat (env : Env K) (k : Nat) : Parses env .term [.int k] (k : K) := .term (.factor (.power (.int k)))

/-- Integers are printed exactly. -/
theorem prints_intStr (a : Int) : PrintsExactly (intStr a) (a : K) := by
  cases a with
  | ofNat k =>
    refine (raw_nat k).prints (ts := [.int k]) fun env => ?_
    have := parses_nat env k
    simpa [times] using this
  | negSucc k =>
    have h := raw_neg.append (raw_nat (k + 1)) (Or.inl rfl)
    refine h.prints (ts := [.minus, .int (k + 1)]) fun env => ?_
    have := Parses.neg_term rfl (parses_nat env (k + 1))
    rw [Int.cast_negSucc]
    simpa [times, ends, starts] using this

variable [CharZero K]

/-- Fractions are printed exactly. -/
theorem prints_fraction (latex : Bool) (closest : Nat → ℚ → ℚ) (f : ℚ) :
    PrintsExactly (convertFloatToFraction closest latex f) ((limitDenominator closest 1000 f : ℚ) : K) := by
  unfold convertFloatToFraction
  generalize limitDenominator closest 1000 f = r
  simp only
  by_cases h0 : r.num = 0
  · rw [if_pos h0, Rat.num_eq_zero.1 h0]
    have h := prints_intStr (K := K) 0
    simpa [intStr, natStr] using h
  rw [if_neg h0]
  by_cases h1 : r.den = 1
  · rw [if_pos h1]
    have h2 := prints_intStr (K := K) r.num
    rwa [show ((r.num : Int) : K) = (r : K) by rw [Rat.cast_def r, h1]; simp] at h2
  rw [if_neg h1]
  have hd : (r.den : K) ≠ 0 := by exact_mod_cast r.den_nz
  have hp : ∀ (env : Env K) (a : Nat), Parses env .term (times [.lpar, .int a, .slash, .int r.den, .rpar]) ((a : K) / r.den) := by
    intro env a
    have : Parses env .sum ([.int a] ++ .slash :: [.int r.den]) ((a : K) / r.den) :=
      .sum (.div (parses_nat env a) (.factor (.power (.int _))) hd)
    exact .term (.factor (.power (.paren this)))
  cases latex with
  | true =>
    rw [if_pos rfl]
    by_cases hn : r.num < 0
    · rw [if_pos hn]
      obtain ⟨k, hk⟩ := Int.eq_ofNat_of_zero_le (show 0 ≤ -r.num by omega)
      rw [hk, show intStr ((k : Nat) : Int) = natStr k from rfl]
      have h := raw_neg.append (raw_frac k r.den) (Or.inl rfl)
      have e : "-".toList ++ ("\\frac{".toList ++ natStr k ++ "}{".toList ++ natStr r.den ++ "}".toList) =
        "-\\frac{".toList ++ natStr k ++ "}{".toList ++ natStr r.den ++ "}".toList := by simp
      rw [e] at h
      refine h.prints (ts := [.minus, .lpar, .int k, .slash, .int r.den, .rpar]) fun env => ?_
      have h2 := Parses.neg_term rfl (hp env k)
      rw [show -((k : K) / r.den) = (r : K) from ?_] at h2
      · exact h2
      · rw [Rat.cast_def r, show r.num = -(k : Int) by omega]
        push_cast
        ring
    · rw [if_neg hn]
      obtain ⟨k, hk⟩ := Int.eq_ofNat_of_zero_le (show 0 ≤ r.num by omega)
      rw [hk, show intStr ((k : Nat) : Int) = natStr k from rfl]
      refine (raw_frac k r.den).prints (ts := [.lpar, .int k, .slash, .int r.den, .rpar]) fun env => ?_
      have h2 := hp env k
      rwa [show ((k : K) / r.den) = (r : K) by rw [Rat.cast_def r, hk]; push_cast; rfl] at h2
  | false =>
    rw [if_neg (by simp)]
    intro env
    obtain ⟨l, h2, h3⟩ := (prints_intStr (K := K) r.num).raw env
    have h4 := (h2.append raw_slash (Or.inr rfl)).append (raw_nat r.den) (Or.inl rfl)
    refine ⟨l ++ .slash :: [.int r.den], by rw [h4.lex]; simp, ?_⟩
    rw [times_op .slash rfl rfl (ne_nil_of_times h3) (by simp), Rat.cast_def r]
    exact .div h3 (.factor (.power (.int _))) hd

end Verif.Latex
