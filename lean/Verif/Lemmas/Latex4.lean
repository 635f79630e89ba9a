import Verif.Lemmas.Latex3
/-!
# LaTeX texts of vectors, names of basis functions, and formulas in documentation strings
-/

namespace Verif.Latex
open Verif Verif.Str Verif.PyExpr Verif.CodeGen Verif.Poly Verif.MI

variable {n i : Nat} {K : Type} [Field K] {env : Env K}

/-! ## Vectors -/

/-- The symbols of a text. -/
def Raw (b d : Bool) (s : Str) (l : List Sym) : Prop := ∃ xs, TexR s xs ∧ LexR b d xs l

theorem Raw.append {b d b' d' : Bool} {s s' : Str} {l l' : List Sym} (h : Raw b d s l) (h' : Raw b' d' s' l') (hbd : d = true ∨ b' = true) :
    Raw b d' (s ++ s') (l ++ l') := by
  obtain ⟨xs, h1, h2⟩ := h
  obtain ⟨xs', h1', h2'⟩ := h'
  exact ⟨_, h1.append h1', h2.append h2' hbd⟩

theorem raw_lit {b d : Bool} (s : Str) (xs : List Tx) (l : List Sym) (p : Pend) (o f : List Sym) (h1 : TexR s xs)
    (h2 : xs.foldlM step ([], .done []) = some (o, p)) (h3 : flush p = some f) (h4 : l = o ++ f)
    (h5 : ∃ t xs', xs = t :: xs' ∧ (b = true → Break t = true)) (h6 : d = true → ∃ ts, p = .done ts) : Raw b d s l :=
  ⟨xs, h1, h5, o, p, f, h2, h3, h4, h6⟩

theorem raw_begin {e : Str} (he : e ∈ environments) : Raw true true ("\\begin{".toList ++ e ++ "}".toList) [.opens e] := by
  simp only [environments, List.mem_cons, List.not_mem_nil, or_false] at he
  rcases he with rfl | rfl
  · exact raw_lit _ (.cmd "begin".toList :: "{pmatrix}".toList.map .chr) _ (.done [.opens "pmatrix".toList]) [] _ rfl rfl rfl rfl
      ⟨_, _, rfl, fun _ => rfl⟩ fun _ => ⟨_, rfl⟩
  · exact raw_lit _ (.cmd "begin".toList :: "{bmatrix}".toList.map .chr) _ (.done [.opens "bmatrix".toList]) [] _ rfl rfl rfl rfl
      ⟨_, _, rfl, fun _ => rfl⟩ fun _ => ⟨_, rfl⟩

theorem raw_end {e : Str} (he : e ∈ environments) : Raw true true ("\\end{".toList ++ e ++ "}".toList) [.closes e] := by
  simp only [environments, List.mem_cons, List.not_mem_nil, or_false] at he
  rcases he with rfl | rfl
  · exact raw_lit _ (.cmd "end".toList :: "{pmatrix}".toList.map .chr) _ (.done [.closes "pmatrix".toList]) [] _ rfl rfl rfl rfl
      ⟨_, _, rfl, fun _ => rfl⟩ fun _ => ⟨_, rfl⟩
  · exact raw_lit _ (.cmd "end".toList :: "{bmatrix}".toList.map .chr) _ (.done [.closes "bmatrix".toList]) [] _ rfl rfl rfl rfl
      ⟨_, _, rfl, fun _ => rfl⟩ fun _ => ⟨_, rfl⟩

theorem raw_sep (column : Bool) : Raw true true (if column then " \\\\ ".toList else " & ".toList) [.next] := by
  cases column
  · exact raw_lit _ [.chr '&'] _ (.done [.next]) [] _ rfl rfl rfl rfl ⟨_, _, rfl, fun _ => rfl⟩ fun _ => ⟨_, rfl⟩
  · exact raw_lit _ [.cmd "\\".toList] _ (.done [.next]) [] _ rfl rfl rfl rfl ⟨_, _, rfl, fun _ => rfl⟩ fun _ => ⟨_, rfl⟩

/-- The symbols of the entries of a matrix. -/
def rows : List (List Tok) → List Sym
  | [] => []
  | [l] => l.map .tok
  | l :: ls => l.map .tok ++ [.next] ++ rows ls

theorem raw_rows (column : Bool) {a : List Str} {ls : List (List Tok)} (h : List.Forall₂ (fun s (l : List Tok) => Raw false false s (l.map .tok)) a ls)
    (hne : a ≠ []) : Raw false false (join (if column then " \\\\ ".toList else " & ".toList) a) (rows ls) := by
  induction h with
  | nil => exact absurd rfl hne
  | cons h1 h2 ih =>
    cases h2 with
    | nil => exact h1
    | cons h3 h4 => exact (h1.append (raw_sep column) (Or.inr rfl)).append (ih (by simp)) (Or.inl rfl)

theorem entry_toks (o : List Tok) (e : Str) (k : Nat) (l : List Tok) :
    (l.map Sym.tok).foldlM (entryStep n i) (o, some (e, k)) = some (if k = i then o ++ l else o, some (e, k)) := by
  induction l generalizing o with
  | nil => simp
  | cons t l ih =>
    rw [List.map_cons, List.foldlM_cons]
    change List.foldlM (entryStep n i) ((if k = i then o ++ [t] else o), some (e, k)) (l.map Sym.tok) = _
    rw [ih]
    by_cases hk : k = i <;> simp [hk]

theorem entry_rows (e : Str) : ∀ (ls : List (List Tok)) (o : List Tok) (k : Nat), ls ≠ [] →
    (rows ls).foldlM (entryStep n i) (o, some (e, k)) = some (o ++ (if k ≤ i then ls.getD (i - k) [] else []), some (e, k + ls.length - 1)) := by
  intro ls
  induction ls with
  | nil => intro o k h; exact absurd rfl h
  | cons l ls ih =>
    intro o k _
    cases ls with
    | nil =>
      rw [show rows [l] = l.map .tok from rfl, entry_toks]
      by_cases hk : k = i
      · subst hk; simp
      · rw [if_neg hk]
        by_cases hk' : k ≤ i
        · have : i - k ≠ 0 := by omega
          obtain ⟨j, hj⟩ := Nat.exists_eq_succ_of_ne_zero this
          simp [hk', hj]
        · simp [hk']
    | cons l' ls =>
      rw [show rows (l :: l' :: ls) = l.map .tok ++ [.next] ++ rows (l' :: ls) from rfl, List.append_assoc, List.foldlM_append, entry_toks]
      change List.foldlM (entryStep n i) ((if k = i then o ++ l else o), some (e, k)) (Sym.next :: rows (l' :: ls)) = _
      rw [List.foldlM_cons]
      change List.foldlM (entryStep n i) ((if k = i then o ++ l else o), some (e, k + 1)) (rows (l' :: ls)) = _
      rw [ih _ _ (by simp)]
      congr 2
      · by_cases hk : k = i
        · subst hk; simp
        · rw [if_neg hk]
          by_cases hk' : k ≤ i
          · rw [if_pos hk', if_pos (by omega), show i - k = (i - (k + 1)) + 1 by omega]
            simp
          · rw [if_neg hk', if_neg (by omega)]
      · simp; omega

theorem PrintsExactly.raw {s : Str} {v : K} (h : PrintsExactly s v) (env : Env K) :
    ∃ l : List Tok, Raw false false s (l.map .tok) ∧ Parses env .term (times l) v := by
  obtain ⟨l, h1, h2⟩ := h env
  obtain ⟨t, h3, h4⟩ := Parses.last_ends h2
  rw [times_getLast] at h3
  exact ⟨l, raw_of_lex h1 h3 h4, h2⟩

theorem exists_rows (env : Env K) {a : List Str} {vs : List K} (h : List.Forall₂ PrintsExactly a vs) :
    ∃ ls : List (List Tok), List.Forall₂ (fun s (l : List Tok) => Raw false false s (l.map .tok)) a ls ∧
      List.Forall₂ (fun l v => Parses env .term (times l) v) ls vs := by
  induction h with
  | nil => exact ⟨[], .nil, .nil⟩
  | cons h1 _ ih =>
    obtain ⟨l, h2, h3⟩ := h1.raw env
    obtain ⟨ls, h4, h5⟩ := ih
    exact ⟨l :: ls, .cons h2 h4, .cons h3 h5⟩

/-- The text of a vector. -/
theorem txt_strNumberArray (column : Bool) {style : Str} (hstyle : style ∈ environments) {a : List Str} {vs : List K}
    (h : List.Forall₂ PrintsExactly a vs) (j : Nat) (hj : j < vs.length) :
    Txt env vs.length j .atom true true (strNumberArray a true column style) vs[j] := by
  obtain ⟨ls, h1, h2⟩ := exists_rows env h
  have hl1 := h1.length_eq
  have hl2 := h2.length_eq
  have hne : a ≠ [] := by rintro rfl; simp at hl1; rw [← hl2, ← hl1] at hj; omega
  have hls : ls ≠ [] := by rintro rfl; simp at hl2; omega
  have hraw := ((raw_begin hstyle).append (raw_rows column h1 hne) (Or.inl rfl)).append (raw_end hstyle) (Or.inr rfl)
  obtain ⟨xs, hx1, hx2⟩ := hraw
  have hp := (List.forall₂_iff_get.1 h2).2 j (by omega) hj
  simp only [List.get_eq_getElem] at hp
  refine ⟨[.lpar] ++ ls[j]'(by omega) ++ [.rpar], ⟨xs, _, ?_, hx2, ?_⟩, Parses.times_paren (.sum hp)⟩
  · unfold strNumberArray
    rw [if_pos rfl]
    simpa only [List.append_assoc] using hx1
  · unfold EntR
    rw [List.append_assoc, List.cons_append, List.nil_append, List.foldlM_cons]
    have h3 : entryStep vs.length j ([], none) (.opens style) = some ([.lpar], some (style, 0)) := by
      simp [entryStep, hstyle]
    rw [h3]
    change List.foldlM (entryStep vs.length j) ([.lpar], some (style, 0)) (rows ls ++ [.closes style]) = _
    rw [List.foldlM_append, entry_rows _ _ _ _ hls]
    change List.foldlM (entryStep vs.length j) (_, some (style, 0 + ls.length - 1)) [.closes style] = _
    rw [List.foldlM_cons]
    have hlen : 0 + ls.length - 1 + 1 = vs.length := by
      have := List.length_pos_iff.2 hls
      omega
    have hg : ls.getD j [] = ls[j]'(by omega) := by
      rw [List.getD_eq_getElem?_getD, List.getElem?_eq_getElem (by omega)]
      rfl
    rw [if_pos (Nat.zero_le _), Nat.sub_zero, hg]
    simp [entryStep]
    omega

theorem txt_vectorStr [LinearOrder K] {num : K → Str} {m : Nat} {c : Fin m → K} (h : ∀ j, PrintsExactly (num (c j)) (c j)) (j : Fin m) :
    Txt env m j .atom true true (vectorStr num c) (c j) := by
  have h1 : List.Forall₂ PrintsExactly ((List.finRange m).map (fun j => num (c j))) ((List.finRange m).map c) := by
    rw [List.forall₂_map_left_iff, List.forall₂_map_right_iff, List.forall₂_same]
    exact fun j _ => h j
  have h2 := txt_strNumberArray (env := env) true (style := "pmatrix".toList) (by decide) h1 j.1 (by simp)
  unfold vectorStr
  simpa using h2

/-! ## Subscripts and exponents in braces -/

theorem isAlpha_facts {v : Char} (hv : v.isAlpha = true) : v.isDigit = false ∧ v ≠ '\\' ∧ isBlank v = false ∧ Break (.chr v) = true := by
  have h5 : v.isDigit = false := by
    simp only [Char.isAlpha, Char.isUpper, Char.isLower, Char.isDigit, Bool.or_eq_true, Bool.and_eq_true, decide_eq_true_eq, Bool.and_eq_false_iff,
      decide_eq_false_iff_not, ge_iff_le] at hv ⊢
    rcases hv with hv | hv
    · right
      intro h
      exact absurd (UInt32.le_trans hv.1 h) (by decide)
    · right
      intro h
      exact absurd (UInt32.le_trans hv.1 h) (by decide)
  have h6 : v ≠ '\\' := by rintro rfl; exact absurd hv (by decide)
  have h7 : isBlank v = false := by
    simp only [isBlank, Bool.or_eq_false_iff, decide_eq_false_iff_not]
    constructor <;> (rintro rfl; exact absurd hv (by decide))
  have h8 : v ≠ '.' := by rintro rfl; exact absurd hv (by decide)
  have h9 : v ≠ '_' := by rintro rfl; exact absurd hv (by decide)
  exact ⟨h5, h6, h7, by simp [Break, h5, h8, h9]⟩

theorem isIndexChar_ne {c : Char} (h : isIndexChar c = true) : c ≠ '}' ∧ c ≠ '\\' ∧ isBlank c = false := by
  refine ⟨?_, ?_, ?_⟩
  · rintro rfl; exact absurd h (by decide)
  · rintro rfl; exact absurd h (by decide)
  · simp only [isBlank, Bool.or_eq_false_iff, decide_eq_false_iff_not]
    constructor <;> (rintro rfl; exact absurd h (by decide))

theorem scan_subG (o : List Sym) (v : Char) : ∀ (cs s : Str), (∀ c ∈ cs, isIndexChar c = true) →
    (cs.map Tx.chr).foldlM step (o, .subG v s) = some (o, .subG v (s ++ cs)) := by
  intro cs
  induction cs with
  | nil => intro s _; simp
  | cons c cs ih =>
    intro s h
    have hc := h c List.mem_cons_self
    rw [List.map_cons, List.foldlM_cons, show step (o, .subG v s) (.chr c) = some (o, .subG v (s ++ [c])) by
      simp [step, advance, hc, (isIndexChar_ne hc).1]]
    change List.foldlM step (o, Pend.subG v (s ++ [c])) (cs.map Tx.chr) = _
    rw [ih _ (fun c' h' => h c' (List.mem_cons_of_mem _ h'))]
    simp

theorem texR_index {s : Str} (h : ∀ c ∈ s, isIndexChar c = true ∨ c = ' ') : TexR s ((s.filter (fun c => c ≠ ' ')).map .chr) := by
  induction s with
  | nil => rfl
  | cons c s ih =>
    have h1 := ih (fun c' h' => h c' (List.mem_cons_of_mem _ h'))
    rcases h c List.mem_cons_self with h2 | rfl
    · have h3 := isIndexChar_ne h2
      have h4 : c ≠ ' ' := by rintro rfl; exact absurd h2 (by decide)
      rw [List.filter_cons_of_pos (by simpa using h4)]
      exact .cons h3.2.1 h3.2.2 h1
    · rw [List.filter_cons_of_neg (by simp)]
      exact (show TexR [' '] [] from rfl).append h1

theorem scan_group (v : Char) (hv : v.isAlpha = true) (cs : Str) (h : ∀ c ∈ cs, isIndexChar c = true) :
    (.chr v :: .chr '_' :: .chr '{' :: (cs.map Tx.chr ++ [.chr '}'])).foldlM step ([], .done []) = some ([], named v cs) := by
  have hd := (isAlpha_facts hv).1
  rw [List.foldlM_cons, show step ([], .done []) (.chr v) = some ([], .letter v) by simp [step, advance, flush, start, hd, hv]]
  change List.foldlM step ([], Pend.letter v) _ = _
  rw [List.foldlM_cons, show step ([], .letter v) (.chr '_') = some ([], .sub v) from rfl]
  change List.foldlM step ([], Pend.sub v) _ = _
  rw [List.foldlM_cons, show step ([], .sub v) (.chr '{') = some ([], .subG v []) from rfl]
  change List.foldlM step ([], Pend.subG v []) _ = _
  rw [List.foldlM_append, scan_subG _ _ _ _ h]
  rfl

/-- A variable with a subscript in braces. -/
theorem lx_subG {v : Char} (hv : v.isAlpha = true) (hv' : isFn v = false) (k : Nat) :
    Lx n i true true (v :: '_' :: '{' :: (natStr k ++ ['}'])) [.name (subscripted v (natStr k))] := by
  obtain ⟨h1, h2, h3, h4⟩ := isAlpha_facts hv
  have hd : ∀ c ∈ natStr k, isIndexChar c = true := fun c hc => by simp [isIndexChar, Char.isAlphanum, natStr_digit k c hc]
  refine lx_lit _ (.chr v :: .chr '_' :: .chr '{' :: ((natStr k).map Tx.chr ++ [.chr '}'])) _ (.done [.tok (.name (subscripted v (natStr k)))]) [] _ ?_ ?_
    rfl rfl ⟨_, _, rfl, fun _ => h4⟩ fun _ => ⟨_, rfl⟩
  · exact .cons h2 h3 (.cons (by decide) (by decide) (.cons (by decide) (by decide) ((texR_natStr k).append rfl)))
  · rw [scan_group v hv _ hd]
    simp [named, hv']

theorem digit_le {c : Char} (h : c.isDigit = true) : digit c ≤ 9 := by
  simp only [Char.isDigit, ge_iff_le, Bool.and_eq_true, decide_eq_true_eq] at h
  have h2 : c.toNat ≤ 57 := h.2
  unfold digit
  have : '0'.toNat = 48 := rfl
  omega

theorem le_nine_of_length {k : Nat} (h : (natStr k).length = 1) : k ≤ 9 := by
  obtain ⟨c, hc⟩ := List.length_eq_one_iff.1 h
  have h1 := digitsValue_natStr k
  rw [hc] at h1
  have h2 := digit_le (natStr_digit k c (by rw [hc]; exact List.mem_singleton_self _))
  simp only [digitsValue, List.foldl_cons, List.foldl_nil] at h1
  omega

/-- A variable with any subscript, in braces if they are needed. -/
theorem lx_braces {v : Char} (hv : v.isAlpha = true) (hv' : isFn v = false) (k : Nat) :
    Lx n i true true ([v] ++ "_".toList ++ bracesWrapped (natStr k)) [.name (subscripted v (natStr k))] := by
  unfold bracesWrapped
  by_cases h : (natStr k).length = 1
  · rw [if_pos h]
    exact lx_sub hv hv' (le_nine_of_length h)
  · rw [if_neg h]
    exact lx_subG hv hv' k

theorem scan_supG (o : List Sym) : ∀ (cs s : Str), (∀ c ∈ cs, c.isDigit = true) →
    (cs.map Tx.chr).foldlM step (o, .supG s) = some (o, .supG (s ++ cs)) := by
  intro cs
  induction cs with
  | nil => intro s _; simp
  | cons c cs ih =>
    intro s h
    have hc := h c List.mem_cons_self
    have hc' : c ≠ '}' := by rintro rfl; exact absurd hc (by decide)
    rw [List.map_cons, List.foldlM_cons, show step (o, .supG s) (.chr c) = some (o, .supG (s ++ [c])) by simp [step, advance, hc, hc']]
    change List.foldlM step (o, Pend.supG (s ++ [c])) (cs.map Tx.chr) = _
    rw [ih _ (fun c' h' => h c' (List.mem_cons_of_mem _ h'))]
    simp

/-- An exponent in braces. -/
theorem lx_powG (k : Nat) : Lx n i true true ("^{".toList ++ natStr k ++ "}".toList) [.pow, .int k] := by
  refine lx_lit _ (.chr '^' :: .chr '{' :: ((natStr k).map Tx.chr ++ [.chr '}'])) _ (.done [.tok .pow, .tok (.int k)]) [] _ ?_ ?_
    rfl rfl ⟨_, _, rfl, fun _ => rfl⟩ fun _ => ⟨_, rfl⟩
  · have := ((show TexR "^{".toList [.chr '^', .chr '{'] from rfl).append (texR_natStr k)).append (show TexR "}".toList [.chr '}'] from rfl)
    simpa using this
  · rw [List.foldlM_cons, show step ([], .done []) (.chr '^') = some ([], .sup) from rfl]
    change List.foldlM step ([], Pend.sup) _ = _
    rw [List.foldlM_cons, show step ([], .sup) (.chr '{') = some ([], .supG []) from rfl]
    change List.foldlM step ([], Pend.supG []) _ = _
    rw [List.foldlM_append, scan_supG _ _ _ (natStr_digit k), List.nil_append]
    change List.foldlM step ([], Pend.supG (natStr k)) [.chr '}'] = _
    rw [List.foldlM_cons, show step ([], .supG (natStr k)) (.chr '}') = some ([], .done [.tok .pow, .tok (.int k)]) by
      simp [step, advance, natStr_ne_nil, digitsValue_natStr]]
    rfl

/-! ## Factors -/

theorem Lx.head_digit {b d : Bool} {c : Char} {s : Str} {ts : List Tok} (h : Lx n i b d (c :: s) ts) (hc : c.isDigit = true) : b = false := by
  obtain ⟨xs, l, h1, ⟨⟨t, xs', rfl, h2⟩, _⟩, _⟩ := h
  have h3 := texFold_out [.chr c] [] none s
  obtain ⟨h4, h5⟩ := digit_plain hc
  have h6 : (c :: s).foldl texStep ([], none) = s.foldl texStep ([.chr c], none) := by simp [texStep, texStart, h4, h5]
  unfold TexR at h1
  rw [h6] at h1
  rw [List.append_nil, h1] at h3
  simp only [List.cons_append, List.nil_append, Prod.mk.injEq, List.cons.injEq] at h3
  obtain ⟨⟨rfl, -⟩, -⟩ := h3
  cases b with
  | false => rfl
  | true => exact absurd (h2 rfl) (by simp [Break, hc])

/-- A factor that is `1` or can stand behind another one. -/
def Fac (env : Env K) (n i : Nat) (s : Str) (v : K) : Prop := (s = "1".toList ∧ v = 1) ∨ Operand env n i false s v

theorem Fac.rhs {s : Str} {v : K} (h : Fac env n i s v) : Rhs env n i s v := by
  rcases h with ⟨rfl, rfl⟩ | h
  · exact .one
  · exact h.rhs

theorem Operand.ne_digit {d : Bool} {s : Str} {v : K} (h : Operand env n i d s v) {c : Char} {t : Str} (hs : s = c :: t) : c.isDigit = false := by
  subst hs
  obtain ⟨ts, x, h1, _⟩ := h
  by_contra hc
  exact absurd (h1.head_digit (by simpa using hc)) (by simp)

theorem Fac.product {s t : Str} {u v : K} (ha : Fac env n i s u) (hb : Fac env n i t v) : Fac env n i (strProduct s t []) (u * v) := by
  unfold strProduct strProductGo
  have h0 : ∀ {s : Str} {u : K}, Fac env n i s u → s ≠ "0".toList := by
    intro s u h h0
    rcases h with ⟨h, -⟩ | h
    · rw [h] at h0; exact absurd h0 (by decide)
    · exact absurd (h.ne_digit (c := '0') (t := []) h0) (by decide)
  rw [if_neg (by rintro (h | h); exact h0 ha h; exact h0 hb h)]
  rcases ha with ⟨rfl, rfl⟩ | ha
  · rw [if_pos rfl, one_mul]; exact hb
  have h1 : ∀ {s : Str} {u : K}, Operand env n i false s u → s ≠ "1".toList := by
    intro s u h h0
    exact absurd (h.ne_digit (c := '1') (t := []) h0) (by decide)
  rw [if_neg (h1 ha)]
  rcases hb with ⟨rfl, rfl⟩ | hb
  · rw [if_pos rfl, mul_one]; exact Or.inr ha
  rw [if_neg (h1 hb)]
  simp only
  rw [if_neg ha.head_ne, if_neg hb.head_ne, if_neg (by simp)]
  exact Or.inr (ha.juxt hb)

theorem Fac.multiProduct {l : List Str} {vs : List K} (h : List.Forall₂ (Fac env n i) l vs) : Fac env n i (strMultiProduct l []) vs.prod := by
  have key : ∀ (acc : Str) (u : K), Fac env n i acc u → Fac env n i (l.foldl (fun res v => strProduct res v []) acc) (u * vs.prod) := by
    induction h with
    | nil => intro acc u ha; simpa using ha
    | cons h1 _ ih =>
      intro acc u ha
      rw [List.foldl_cons, List.prod_cons, ← mul_assoc]
      exact ih _ _ (ha.product h1)
  have := key _ _ (Or.inl ⟨rfl, rfl⟩)
  rwa [one_mul] at this

theorem natStr_inj {a b : Nat} (h : natStr a = natStr b) : a = b := by rw [← digitsValue_natStr a, h, digitsValue_natStr]

theorem fac_strExponent {d : Bool} {s : Str} {v : K} (h : Txt env n i .atom true d s v) (k : Nat) : Fac env n i (strExponent s (natStr k)) (v ^ k) := by
  unfold strExponent
  rw [if_neg (show s ≠ "0".toList from fun h0 => absurd (h.power.operand.ne_digit (c := '0') (t := []) h0) (by decide))]
  by_cases h0 : natStr k = "0".toList
  · rw [if_pos h0, natStr_inj (b := 0) h0, pow_zero]
    exact Or.inl ⟨rfl, rfl⟩
  rw [if_neg h0]
  by_cases h1 : natStr k = "1".toList
  · rw [if_pos h1, natStr_inj (b := 1) h1, pow_one]
    exact Or.inr h.power.operand.weaken
  rw [if_neg h1]
  by_cases h2 : (natStr k).length = 1
  · rw [if_pos h2]
    exact Or.inr (h.pow (le_nine_of_length h2)).operand.weaken
  · rw [if_neg h2]
    right
    obtain ⟨ts, h3, h4⟩ := h
    refine Operand.weaken (d := true) (Txt.operand ⟨ts ++ [.pow, .int k], ?_, ?_⟩)
    · have := h3.append (lx_powG k) (Or.inr rfl)
      simpa using this
    · rw [times_op .pow rfl rfl (ne_nil_of_times h4) (by simp)]
      exact .pow k h4

/-! ## Names of basis functions -/

theorem filter_join (l : List Nat) : (join ", ".toList (l.map natStr)).filter (fun c => c ≠ ' ') = [','].intercalate (l.map natStr) := by
  have hd : ∀ k, (natStr k).filter (fun c => c ≠ ' ') = natStr k := by
    intro k
    rw [List.filter_eq_self]
    intro c hc
    have := natStr_digit k c hc
    simp only [decide_eq_true_eq, ne_eq]
    rintro rfl
    exact absurd this (by decide)
  induction l with
  | nil => rfl
  | cons a l ih =>
    cases l with
    | nil =>
      rw [List.map_cons, List.map_nil, show join ", ".toList [natStr a] = natStr a from rfl, hd]
      simp [List.intercalate]
    | cons b l =>
      rw [List.map_cons, List.map_cons, show join ", ".toList (natStr a :: natStr b :: l.map natStr) =
        natStr a ++ ", ".toList ++ join ", ".toList (natStr b :: l.map natStr) from rfl, List.filter_append, List.filter_append, hd]
      rw [List.map_cons] at ih
      rw [ih]
      simp [List.intercalate, List.intersperse]

theorem join_index (l : List Nat) : ∀ c ∈ join ", ".toList (l.map natStr), isIndexChar c = true ∨ c = ' ' := by
  have hd : ∀ k, ∀ c ∈ natStr k, isIndexChar c = true ∨ c = ' ' := fun k c hc => Or.inl (by simp [isIndexChar, Char.isAlphanum, natStr_digit k c hc])
  induction l with
  | nil => simp [join]
  | cons a l ih =>
    cases l with
    | nil => exact hd a
    | cons b l =>
      intro c hc
      rw [List.map_cons, List.map_cons, show join ", ".toList (natStr a :: natStr b :: l.map natStr) =
        natStr a ++ ", ".toList ++ join ", ".toList (natStr b :: l.map natStr) from rfl, List.mem_append, List.mem_append] at hc
      rcases hc with (hc | hc) | hc
      · exact hd a c hc
      · simp at hc
        rcases hc with rfl | rfl
        · exact Or.inl (by decide)
        · exact Or.inr rfl
      · exact ih c hc

/-- A basis function with its argument. -/
theorem lx_fn {v : Char} (hv : v.isAlpha = true) (hv' : isFn v = true) {s : Str} (h : ∀ c ∈ s, isIndexChar c = true ∨ c = ' ') :
    Lx n i true true (v :: "_{".toList ++ s ++ "}(x)".toList) [.name (subscripted v (s.filter (fun c => c ≠ ' ')))] := by
  obtain ⟨h1, h2, h3, h4⟩ := isAlpha_facts hv
  have hf : ∀ c ∈ s.filter (fun c => c ≠ ' '), isIndexChar c = true := by
    intro c hc
    obtain ⟨h5, h6⟩ := List.mem_filter.1 hc
    rcases h c h5 with h7 | h7
    · exact h7
    · simp [h7] at h6
  have e : s.filter (fun c => c ≠ ' ') = s.filter (fun c => c ≠ ' ') := rfl
  revert hf
  have ht := texR_index h
  revert ht
  generalize s.filter (fun c => c ≠ ' ') = t
  intro ht hf
  refine lx_lit _ ((.chr v :: .chr '_' :: .chr '{' :: (t.map Tx.chr ++ [.chr '}'])) ++ [.chr '(', .chr 'x', .chr ')']) _
    (.done [.tok (.name (subscripted v t))]) [] _ ?_ ?_ rfl rfl ⟨_, _, rfl, fun _ => h4⟩ fun _ => ⟨_, rfl⟩
  · have := TexR.cons h2 h3 (((show TexR "_{".toList [.chr '_', .chr '{'] from rfl).append ht).append
      (show TexR "}(x)".toList [.chr '}', .chr '(', .chr 'x', .chr ')'] from rfl))
    simpa using this
  · rw [List.foldlM_append, scan_group v hv _ hf]
    simp only [named, hv', if_true]
    rfl

theorem lx_compact {v : Char} (hv : v.isAlpha = true) (hv' : isFn v = true) (nu : List Nat) (r : Nat) :
    Lx n i true true (basisFnLatexCompact v nu r) [.name (functionName v nu r)] := by
  have hd : ∀ k, ∀ c ∈ natStr k, isIndexChar c = true ∨ c = ' ' := fun k c hc => Or.inl (by simp [isIndexChar, Char.isAlphanum, natStr_digit k c hc])
  have hf : ∀ k, (natStr k).filter (fun c => c ≠ ' ') = natStr k := by
    intro k
    have := filter_join [k]
    simpa [join, List.intercalate] using this
  unfold basisFnLatexCompact functionName
  split
  · rename_i k
    have h1 := lx_fn (n := n) (i := i) hv hv' (s := natStr k ++ ", ".toList ++ natStr r) (by
      intro c hc
      rw [List.mem_append, List.mem_append] at hc
      rcases hc with (hc | hc) | hc
      · exact hd k c hc
      · simp at hc
        rcases hc with rfl | rfl
        · exact Or.inl (by decide)
        · exact Or.inr rfl
      · exact hd r c hc)
    rw [List.filter_append, List.filter_append, hf, hf, show (", ".toList).filter (fun c => c ≠ ' ') = ",".toList from rfl] at h1
    simpa [indexText, natStr] using h1
  · rename_i hnu
    have h1 := lx_fn (n := n) (i := i) hv hv' (s := tupleStr nu ++ ", ".toList ++ natStr r) (by
      intro c hc
      unfold tupleStr at hc
      rw [List.mem_append, List.mem_append, List.mem_append, List.mem_append] at hc
      rcases hc with (((hc | hc) | hc) | hc) | hc
      · simp at hc; subst hc; exact Or.inl (by decide)
      · exact join_index nu c hc
      · simp at hc; subst hc; exact Or.inl (by decide)
      · simp at hc
        rcases hc with rfl | rfl
        · exact Or.inl (by decide)
        · exact Or.inr rfl
      · exact hd r c hc)
    have h2 : (tupleStr nu).filter (fun c => c ≠ ' ') = indexText nu := by
      unfold tupleStr
      rw [List.filter_append, List.filter_append, filter_join]
      rw [show indexText nu = "(".toList ++ [','].intercalate (nu.map (Nat.toDigits 10)) ++ ")".toList from ?_]
      · rfl
      · unfold indexText
        split
        · exact absurd rfl (hnu _)
        · rfl
    rw [List.filter_append, List.filter_append, hf, h2, show (", ".toList).filter (fun c => c ≠ ' ') = ",".toList from rfl] at h1
    simpa [natStr] using h1

theorem operand_compact {v : Char} (hv : v.isAlpha = true) (hv' : isFn v = true) {nu : List Nat} {r : Nat} {y : K}
    (h : env (functionName v nu r) = some (.num y)) : Operand env n i true (basisFnLatexCompact v nu r) y :=
  Txt.operand (Txt.power ⟨_, lx_compact hv hv' nu r, .name h⟩)

/-! ### The names are different -/

theorem comma_not_mem (k : Nat) : ',' ∉ Nat.toDigits 10 k := fun h => absurd (natStr_digit k ',' h) (by decide)

theorem split_last {α : Type} [DecidableEq α] {a : α} : ∀ {s t s' t' : List α}, a ∉ t → a ∉ t' → s ++ a :: t = s' ++ a :: t' → s = s' ∧ t = t' := by
  intro s t s' t' h h' e
  induction s generalizing s' with
  | nil =>
    cases s' with
    | nil => simpa using e
    | cons b s' =>
      simp only [List.nil_append, List.cons_append, List.cons.injEq] at e
      exact absurd (by rw [e.2]; simp) h
  | cons b s ih =>
    cases s' with
    | nil =>
      simp only [List.nil_append, List.cons_append, List.cons.injEq] at e
      exact absurd (by rw [← e.2]; simp) h'
    | cons b' s' =>
      simp only [List.cons_append, List.cons.injEq] at e
      obtain ⟨h1, h2⟩ := ih e.2
      exact ⟨by rw [e.1, h1], h2⟩

theorem map_natStr_inj {a b : List Nat} (h : a.map (Nat.toDigits 10) = b.map (Nat.toDigits 10)) : a = b :=
  List.map_injective_iff.2 (fun _ _ h => natStr_inj h) h

theorem intercalate_inj {a b : List Nat} (h : [','].intercalate (a.map (Nat.toDigits 10)) = [','].intercalate (b.map (Nat.toDigits 10))) : a = b := by
  have key : ∀ l : List Nat, l ≠ [] → ([','].intercalate (l.map (Nat.toDigits 10))).splitOn ',' = l.map (Nat.toDigits 10) := by
    intro l hl
    refine List.splitOn_intercalate _ (fun s hs => ?_) (by simpa using hl)
    obtain ⟨k, _, rfl⟩ := List.mem_map.1 hs
    exact comma_not_mem k
  have hnil : ∀ l : List Nat, [','].intercalate (l.map (Nat.toDigits 10)) = [] → l = [] := by
    intro l hl
    by_contra hne
    have := key l hne
    rw [hl] at this
    cases l with
    | nil => exact hne rfl
    | cons k l =>
      rw [List.map_cons] at this
      simp only [List.splitOn_nil, List.cons.injEq] at this
      exact natStr_ne_nil k this.1.symm
  by_cases ha : a = []
  · subst ha
    exact (hnil b h.symm).symm
  by_cases hb : b = []
  · subst hb
    exact hnil a h
  have h1 := key a ha
  rw [h, key b hb] at h1
  exact map_natStr_inj h1.symm

theorem indexText_inj {a b : List Nat} (h : indexText a = indexText b) : a = b := by
  have hd : ∀ k l, Nat.toDigits 10 k ≠ "(".toList ++ l := by
    intro k l h
    have : '(' ∈ Nat.toDigits 10 k := by rw [h]; simp
    exact absurd (natStr_digit k _ this) (by decide)
  unfold indexText at h
  split at h <;> split at h
  · rw [natStr_inj h]
  · rw [List.append_assoc] at h
    exact absurd h (hd _ _)
  · rw [List.append_assoc] at h
    exact absurd h.symm (hd _ _)
  · rw [List.append_cancel_right_eq, List.append_cancel_left_eq] at h
    exact intercalate_inj h

theorem functionName_inj {v v' : Char} {a b : List Nat} {r s : Nat} (h : functionName v a r = functionName v' b s) : v = v' ∧ a = b ∧ r = s := by
  unfold functionName subscripted at h
  simp only [List.cons.injEq, true_and] at h
  obtain ⟨h0, h⟩ := h
  rw [List.append_assoc, List.append_assoc] at h
  obtain ⟨h1, h2⟩ := split_last (comma_not_mem r) (comma_not_mem s) h
  exact ⟨h0, indexText_inj h1, natStr_inj h2⟩

end Verif.Latex
