import Verif.Spec.PyLiteral
import Verif.Lemmas.CodeStr3
/-!
# Lemmas: reading texts of integers, sequences of integers and calls
-/

namespace Verif.PyLit
open Verif Verif.Str Verif.PyExpr Verif.CodeGen Verif.Repr

/-- The tokens of an integer. -/
def intToks : Int → List Tok
  | .ofNat n => [.int n]
  | .negSucc n => [.minus, .int (n + 1)]

theorem lx_intStr (i : Int) : Lx (intStr i) (intToks i) := by
  cases i with
  | ofNat n => exact lx_natStr n
  | negSucc n => exact Lx.minus.2 ⟨_, rfl, lx_natStr (n + 1)⟩

theorem readInt_intToks (i : Int) : readInt (intToks i) = some i := by
  cases i with
  | ofNat n => rfl
  | negSucc n => simp [intToks, readInt, Int.negSucc_eq]

/-- The tokens of integers separated by commas. -/
def seqToks : List Int → List Tok
  | [] => []
  | [i] => intToks i
  | i :: l => intToks i ++ .comma :: seqToks l

theorem lx_nil : Lx [] [] := fun o d => ⟨[], .idle, [], by simp [scan_nil], rfl, trivial, rfl⟩

theorem lx_join : ∀ l : List Int, Lx (join ", ".toList (l.map intStr)) (seqToks l)
  | [] => lx_nil
  | [i] => lx_intStr i
  | i :: j :: l => by
    have h := Lx.mid (lx_intStr i) mid_comma (lx_join (j :: l))
    simpa [join, seqToks] using h

theorem lx_brack {a : Str} {ta : List Tok} (ha : Lx a ta) : Lx ("[".toList ++ a ++ "]".toList) (.lbrk :: ta ++ [.rbrk]) := by
  intro o d
  refine ⟨.lbrk :: ta ++ [.rbrk], .idle, [], ?_, rfl, trivial, by simp⟩
  rw [show ("[".toList ++ a ++ "]".toList : Str) = '[' :: (a ++ ']' :: []) by simp, scan_cons,
    show step ⟨o, d, .idle⟩ '[' = some ⟨o ++ [.lbrk], d + 1, .idle⟩ by simp [step, advance, flush, start], Option.bind_some,
    ha.next (by decide), scan_cons, show ∀ o' : List Tok, step ⟨o', d + 1, .idle⟩ ']' = some ⟨o' ++ [.rbrk], d, .idle⟩ by
      intro o'; simp [step, advance, flush, start], Option.bind_some, scan_nil]
  simp

theorem lx_listStr (l : List Int) : Lx (listStr l) (.lbrk :: seqToks l ++ [.rbrk]) := lx_brack (lx_join l)

theorem lx_comma {a : Str} {ta : List Tok} (ha : Lx a ta) : Lx (a ++ ",".toList) (ta ++ [.comma]) := by
  intro o d
  refine ⟨ta ++ [.comma], .idle, [], ?_, rfl, trivial, by simp⟩
  rw [show (a ++ ",".toList : Str) = a ++ ',' :: [] by simp, ha.next (by decide), scan_cons,
    show ∀ o' : List Tok, step ⟨o', d, .idle⟩ ',' = some ⟨o' ++ [.comma], d, .idle⟩ by
      intro o'; simp [step, advance, flush, start], Option.bind_some, scan_nil]
  simp

/-- The tokens between the parentheses of a tuple. -/
def tupToks : List Int → List Tok
  | [i] => intToks i ++ [.comma]
  | l => seqToks l

theorem lx_tupleStr (l : List Int) : Lx (tupleStr l) (.lpar :: tupToks l ++ [.rpar]) := by
  match l with
  | [] => exact (lx_join []).paren
  | [i] =>
    have h := (lx_comma (lx_intStr i)).paren
    simpa [tupleStr, tupToks] using h
  | i :: j :: l => exact (lx_join (i :: j :: l)).paren

/-! ## Splitting -/

/-- No brackets. -/
def NoBrackets (ts : List Tok) : Prop := Tok.lpar ∉ ts ∧ Tok.rpar ∉ ts ∧ Tok.lbrk ∉ ts ∧ Tok.rbrk ∉ ts

theorem splitCommas_flat (ts rest : List Tok) (hb : NoBrackets ts) (hc : Tok.comma ∉ ts) (d : Nat) : ∀ cur, splitCommas d cur (ts ++ rest) = splitCommas d (cur ++ ts) rest := by
  induction ts with
  | nil => intro cur; simp
  | cons t ts ih =>
    intro cur
    have hb' : NoBrackets ts := by unfold NoBrackets at *; simp_all
    have hc' : Tok.comma ∉ ts := by simp_all
    unfold NoBrackets at hb
    rw [List.cons_append]
    cases t <;> simp_all [splitCommas]

theorem splitCommas_deep (ts rest : List Tok) (hb : NoBrackets ts) (d : Nat) : ∀ cur, splitCommas (d + 1) cur (ts ++ rest) = splitCommas (d + 1) (cur ++ ts) rest := by
  induction ts with
  | nil => intro cur; simp
  | cons t ts ih =>
    intro cur
    have hb' : NoBrackets ts := by unfold NoBrackets at *; simp_all
    unfold NoBrackets at hb
    rw [List.cons_append]
    cases t <;> simp_all [splitCommas]

theorem intToks_noBrackets (i : Int) : NoBrackets (intToks i) := by
  cases i <;> simp [intToks, NoBrackets]

theorem intToks_noComma (i : Int) : Tok.comma ∉ intToks i := by
  cases i <;> simp [intToks]

theorem intToks_ne (i : Int) : intToks i ≠ [] := by
  cases i <;> simp [intToks]

theorem seqToks_noBrackets : ∀ l : List Int, NoBrackets (seqToks l)
  | [] => by simp [seqToks, NoBrackets]
  | [i] => intToks_noBrackets i
  | i :: j :: l => by
    have h1 := intToks_noBrackets i
    have h2 := seqToks_noBrackets (j :: l)
    simp only [NoBrackets, seqToks] at *
    simp_all

theorem tupToks_noBrackets (l : List Int) : NoBrackets (tupToks l) := by
  match l with
  | [] => exact seqToks_noBrackets []
  | [i] => have := intToks_noBrackets i; simp only [NoBrackets, tupToks] at *; simp_all
  | i :: j :: l => exact seqToks_noBrackets (i :: j :: l)

theorem splitCommas_seq : ∀ l : List Int, l ≠ [] → splitCommas 0 [] (seqToks l) = l.map intToks
  | [i], _ => by
    have := splitCommas_flat (intToks i) [] (intToks_noBrackets i) (intToks_noComma i) 0 []
    simpa [seqToks, splitCommas] using this
  | i :: j :: l, _ => by
    have := splitCommas_flat (intToks i) (.comma :: seqToks (j :: l)) (intToks_noBrackets i) (intToks_noComma i) 0 []
    rw [show seqToks (i :: j :: l) = intToks i ++ .comma :: seqToks (j :: l) from rfl, this]
    simp only [List.nil_append, splitCommas, if_true]
    rw [splitCommas_seq (j :: l) (by simp)]
    rfl

theorem items_seq (l : List Int) : items (seqToks l) = l.map intToks := by
  by_cases h : l = []
  · subst h; rfl
  · unfold items
    simp only
    rw [splitCommas_seq l h, if_neg]
    rw [List.getLast?_map]
    cases e : l.getLast? with
    | none => simp
    | some i => simp [intToks_ne]

theorem items_tup (l : List Int) : items (tupToks l) = l.map intToks := by
  match l with
  | [] => exact items_seq []
  | [i] =>
    have := splitCommas_flat (intToks i) [.comma] (intToks_noBrackets i) (intToks_noComma i) 0 []
    simp [items, tupToks, this, splitCommas]
  | i :: j :: l => exact items_seq (i :: j :: l)

theorem mapM_intToks (l : List Int) : (l.map intToks).mapM readInt = some l := by
  induction l with
  | nil => rfl
  | cons i l ih => simp [List.mapM_cons, readInt_intToks, ih]

theorem bracketed_append (close : Tok) (ts : List Tok) : bracketed close (ts ++ [close]) = some ts := by
  simp [bracketed]

theorem readVal_list (l : List Int) : readVal (.lbrk :: seqToks l ++ [.rbrk]) = some (.list l) := by
  simp only [List.cons_append, readVal, bracketed_append, Option.bind_eq_bind, Option.bind_some, items_seq, mapM_intToks]
  rfl

theorem tup_cond (l : List Int) : tupToks l = [] ∨ Tok.comma ∈ tupToks l := by
  match l with
  | [] => exact Or.inl rfl
  | [i] => right; simp [tupToks]
  | i :: j :: l => right; simp [tupToks, seqToks]

theorem readVal_tuple (l : List Int) : readVal (.lpar :: tupToks l ++ [.rpar]) = some (.tuple l) := by
  simp only [List.cons_append, readVal, bracketed_append, Option.bind_eq_bind, Option.bind_some, items_tup, mapM_intToks, if_pos (tup_cond l)]
  rfl

theorem readVal_int (i : Int) : readVal (intToks i) = some (.int i) := by
  cases i with
  | ofNat n => rfl
  | negSucc n => simp [intToks, readVal, readInt, Int.negSucc_eq]

theorem literal_listStr (l : List Int) : literal (listStr l) = some (.list l) := by
  unfold literal
  rw [(lx_listStr l).tokens]
  exact readVal_list l

theorem literal_tupleStr (l : List Int) : literal (tupleStr l) = some (.tuple l) := by
  unfold literal
  rw [(lx_tupleStr l).tokens]
  exact readVal_tuple l

theorem literal_intStr (i : Int) : literal (intStr i) = some (.int i) := by
  unfold literal
  rw [(lx_intStr i).tokens]
  exact readVal_int i

/-! ## Calls -/

/-- The tokens of a dotted name. -/
def pathToks : List Str → List Tok
  | [] => []
  | [s] => [.name s]
  | s :: l => .name s :: .dot :: pathToks l

theorem scan_name_end {s : Str} (h : IsIdentifier s) {c : Char} (hc : ¬(c.isAlphanum ∨ c = '_')) (rest : Str) (o : List Tok) (d : Nat) :
    scan ⟨o, d, .idle⟩ (s ++ c :: rest) = scan ⟨o ++ [.name s], d, .idle⟩ (c :: rest) := by
  have h1 : scan ⟨o, d, .idle⟩ s = some ⟨o, d, .name s⟩ := by
    obtain ⟨⟨c', cs, rfl, hc'⟩, ha⟩ := h
    have hs : step ⟨o, d, .idle⟩ c' = some ⟨o, d, .name [c']⟩ := by
      have hd := alpha_not_digit hc'
      have : (c'.isAlpha || decide (c' = '_')) = true := by simpa using hc'
      simp only [step, advance, flush, start, hd, this, if_true]
      simp
    rw [scan_cons, hs, Option.bind_some, scan_ident o d cs [c'] (fun c' h' => ha c' (List.mem_cons_of_mem _ h'))]
    simp
  have hc' : (c.isAlphanum || decide (c = '_')) = false := by simpa using hc
  rw [scan_append_some h1, scan_cons, scan_cons]
  congr 1
  unfold step
  simp only [advance, hc', flush]
  cases start d c <;> simp

theorem scan_path : ∀ (path : List Str), path ≠ [] → (∀ s ∈ path, IsIdentifier s) → ∀ (rest : Str) (o : List Tok) (d : Nat),
    scan ⟨o, d, .idle⟩ (join ".".toList path ++ '(' :: rest) = scan ⟨o ++ pathToks path ++ [.lpar], d + 1, .idle⟩ rest
  | [s], _, h, rest, o, d => by
    rw [show join ".".toList [s] = s from rfl, scan_name_end (h s (by simp)) (by decide), scan_cons,
      show ∀ o' : List Tok, step ⟨o', d, .idle⟩ '(' = some ⟨o' ++ [.lpar], d + 1, .idle⟩ by intro o'; simp [step, advance, flush, start], Option.bind_some]
    rfl
  | s :: t :: l, _, h, rest, o, d => by
    rw [show join ".".toList (s :: t :: l) ++ '(' :: rest = s ++ '.' :: (join ".".toList (t :: l) ++ '(' :: rest) by simp [join],
      scan_name_end (h s (by simp)) (by decide), scan_cons,
      show ∀ o' : List Tok, step ⟨o', d, .idle⟩ '.' = some ⟨o' ++ [.dot], d, .idle⟩ by intro o'; simp [step, advance, flush, start], Option.bind_some,
      scan_path (t :: l) (by simp) (fun s' hs' => h s' (List.mem_cons_of_mem _ hs'))]
    congr 2
    simp [pathToks]

theorem tokens_call {path : List Str} (hne : path ≠ []) (hp : ∀ s ∈ path, IsIdentifier s) {a : Str} {ta : List Tok} (ha : Lx a ta) :
    tokens (join ".".toList path ++ "(".toList ++ a ++ ")".toList) = some (pathToks path ++ [.lpar] ++ ta ++ [.rpar]) := by
  unfold tokens
  rw [show join ".".toList path ++ "(".toList ++ a ++ ")".toList = join ".".toList path ++ '(' :: (a ++ ')' :: []) by simp,
    scan_path path hne hp, ha.next (by decide), scan_cons, show ∀ o' : List Tok, step ⟨o', 0 + 1, .idle⟩ ')' = some ⟨o' ++ [.rpar], 0, .idle⟩ by
      intro o'; simp [step, advance, flush, start], Option.bind_some, scan_nil]
  simp [flush]

theorem dottedName_path : ∀ (path : List Str), path ≠ [] → ∀ rest, dottedName (pathToks path ++ .lpar :: rest) = some (path, rest)
  | [s], _, rest => rfl
  | s :: t :: l, _, rest => by
    rw [show pathToks (s :: t :: l) ++ .lpar :: rest = .name s :: .dot :: (pathToks (t :: l) ++ .lpar :: rest) from rfl]
    simp only [dottedName]
    rw [dottedName_path (t :: l) (by simp) rest]
    rfl

theorem callTokens_eq {path : List Str} (hne : path ≠ []) (hp : ∀ s ∈ path, IsIdentifier s) {a : Str} {ta : List Tok} (ha : Lx a ta) :
    callTokens (join ".".toList path ++ "(".toList ++ a ++ ")".toList) = some (path, items ta) := by
  unfold callTokens
  rw [tokens_call hne hp ha, show pathToks path ++ [Tok.lpar] ++ ta ++ [Tok.rpar] = pathToks path ++ .lpar :: (ta ++ [.rpar]) by simp]
  simp only [Option.bind_eq_bind, Option.bind_some, dottedName_path path hne, bracketed_append]
  rfl

theorem items_one {ts : List Tok} (h : splitCommas 0 [] ts = [ts]) (hne : ts ≠ []) : items ts = [ts] := by
  simp [items, h, hne]

theorem split_brack (l : List Int) : splitCommas 0 [] (.lbrk :: seqToks l ++ [.rbrk]) = [.lbrk :: seqToks l ++ [.rbrk]] := by
  rw [List.cons_append]
  simp only [splitCommas, List.nil_append]
  rw [splitCommas_deep _ _ (seqToks_noBrackets l)]
  simp [splitCommas]

theorem split_paren (l : List Int) : splitCommas 0 [] (.lpar :: tupToks l ++ [.rpar]) = [.lpar :: tupToks l ++ [.rpar]] := by
  rw [List.cons_append]
  simp only [splitCommas, List.nil_append]
  rw [splitCommas_deep _ _ (tupToks_noBrackets l)]
  simp [splitCommas]

theorem call_eq {s : Str} {p : List Str} {args : List (List Tok)} {vs : List PyVal} (h : callTokens s = some (p, args)) (hv : args.mapM readVal = some vs) :
    call s = some (p, vs) := by
  unfold call
  rw [h]
  simp only [Option.bind_eq_bind, Option.bind_some, hv]
  rfl

/-- The nesting depth after the tokens. -/
def endDepth : Nat → List Tok → Nat
  | d, [] => d
  | d, .lpar :: ts => endDepth (d + 1) ts
  | d, .lbrk :: ts => endDepth (d + 1) ts
  | d, .rpar :: ts => endDepth (d - 1) ts
  | d, .rbrk :: ts => endDepth (d - 1) ts
  | d, _ :: ts => endDepth d ts

theorem endDepth_append (a b : List Tok) : ∀ d, endDepth d (a ++ b) = endDepth (endDepth d a) b := by
  induction a with
  | nil => intro d; rfl
  | cons t a ih => intro d; cases t <;> simp [endDepth, ih]

theorem splitCommas_append' (a rest : List Tok) : ∀ (d : Nat) (cur x : List Tok), splitCommas d cur a = [x] → endDepth d a = 0 →
    splitCommas d cur (a ++ .comma :: rest) = x :: splitCommas 0 [] rest := by
  induction a with
  | nil =>
    intro d cur x h hd
    simp only [endDepth] at hd
    subst hd
    simp only [splitCommas, List.cons.injEq, and_true] at h
    simp [splitCommas, h]
  | cons t a ih =>
    intro d cur x h hd
    cases t <;> simp only [splitCommas, endDepth, List.cons_append] at * <;> try exact ih _ _ _ h hd
    by_cases h0 : d = 0
    · rw [if_pos h0] at h
      exfalso
      have : splitCommas 0 [] a ≠ [] := by
        have key : ∀ (l : List Tok) (d : Nat) (cur : List Tok), splitCommas d cur l ≠ [] := by
          intro l
          induction l with
          | nil => intro d cur; simp [splitCommas]
          | cons t l ih =>
            intro d cur
            cases t <;> simp only [splitCommas] <;> try exact ih _ _
            split
            · simp
            · exact ih _ _
        exact key _ _ _
      simp only [List.cons.injEq] at h
      exact this h.2
    · rw [if_neg h0] at h ⊢
      exact ih _ _ _ h hd

theorem splitCommas_append {a : List Tok} (h : splitCommas 0 [] a = [a]) (hd : endDepth 0 a = 0) (rest : List Tok) :
    splitCommas 0 [] (a ++ .comma :: rest) = a :: splitCommas 0 [] rest := splitCommas_append' a rest 0 [] a h hd

theorem flush_endDepth {p : Pend} {t : List Tok} (h : flush p = some t) (d : Nat) : endDepth d t = d := by
  cases p <;> simp [flush] at h <;> subst h <;> rfl

theorem start_endDepth {d : Nat} {c : Char} {ts : List Tok} {d' : Nat} {p : Pend} (h : start d c = some (ts, d', p)) : endDepth d ts = d' := by
  unfold start at h
  by_cases hc : c.isDigit = true
  · rw [if_pos hc] at h
    simp only [Option.some.injEq, Prod.mk.injEq] at h; obtain ⟨rfl, rfl, -⟩ := h; rfl
  rw [if_neg hc] at h
  clear hc
  by_cases hc : (c.isAlpha || c = '_') = true
  · rw [if_pos hc] at h
    simp only [Option.some.injEq, Prod.mk.injEq] at h; obtain ⟨rfl, rfl, -⟩ := h; rfl
  rw [if_neg hc] at h
  clear hc
  by_cases hc : c = ' '
  · rw [if_pos hc] at h
    simp only [Option.some.injEq, Prod.mk.injEq] at h; obtain ⟨rfl, rfl, -⟩ := h; rfl
  rw [if_neg hc] at h
  clear hc
  by_cases hc : c = '\n'
  · rw [if_pos hc] at h
    by_cases hd : 0 < d
    · rw [if_pos hd] at h
      simp only [Option.some.injEq, Prod.mk.injEq] at h; obtain ⟨rfl, rfl, -⟩ := h; rfl
    · rw [if_neg hd] at h
      exact absurd h (by simp)
  rw [if_neg hc] at h
  clear hc
  by_cases hc : c = '+'
  · rw [if_pos hc] at h
    simp only [Option.some.injEq, Prod.mk.injEq] at h; obtain ⟨rfl, rfl, -⟩ := h; rfl
  rw [if_neg hc] at h
  clear hc
  by_cases hc : c = '-'
  · rw [if_pos hc] at h
    simp only [Option.some.injEq, Prod.mk.injEq] at h; obtain ⟨rfl, rfl, -⟩ := h; rfl
  rw [if_neg hc] at h
  clear hc
  by_cases hc : c = '*'
  · rw [if_pos hc] at h
    simp only [Option.some.injEq, Prod.mk.injEq] at h; obtain ⟨rfl, rfl, -⟩ := h; rfl
  rw [if_neg hc] at h
  clear hc
  by_cases hc : c = '/'
  · rw [if_pos hc] at h
    simp only [Option.some.injEq, Prod.mk.injEq] at h; obtain ⟨rfl, rfl, -⟩ := h; rfl
  rw [if_neg hc] at h
  clear hc
  by_cases hc : c = '('
  · rw [if_pos hc] at h
    simp only [Option.some.injEq, Prod.mk.injEq] at h; obtain ⟨rfl, rfl, -⟩ := h; rfl
  rw [if_neg hc] at h
  clear hc
  by_cases hc : c = ')'
  · rw [if_pos hc] at h
    by_cases hd : 0 < d
    · rw [if_pos hd] at h
      simp only [Option.some.injEq, Prod.mk.injEq] at h; obtain ⟨rfl, rfl, -⟩ := h; rfl
    · rw [if_neg hd] at h
      exact absurd h (by simp)
  rw [if_neg hc] at h
  clear hc
  by_cases hc : c = '['
  · rw [if_pos hc] at h
    simp only [Option.some.injEq, Prod.mk.injEq] at h; obtain ⟨rfl, rfl, -⟩ := h; rfl
  rw [if_neg hc] at h
  clear hc
  by_cases hc : c = ']'
  · rw [if_pos hc] at h
    by_cases hd : 0 < d
    · rw [if_pos hd] at h
      simp only [Option.some.injEq, Prod.mk.injEq] at h; obtain ⟨rfl, rfl, -⟩ := h; rfl
    · rw [if_neg hd] at h
      exact absurd h (by simp)
  rw [if_neg hc] at h
  clear hc
  by_cases hc : c = ','
  · rw [if_pos hc] at h
    simp only [Option.some.injEq, Prod.mk.injEq] at h; obtain ⟨rfl, rfl, -⟩ := h; rfl
  rw [if_neg hc] at h
  clear hc
  by_cases hc : c = '.'
  · rw [if_pos hc] at h
    simp only [Option.some.injEq, Prod.mk.injEq] at h; obtain ⟨rfl, rfl, -⟩ := h; rfl
  rw [if_neg hc] at h
  clear hc
  exact absurd h (by simp)

theorem step_endDepth {st st' : Scan} {c : Char} (h : step st c = some st') (hd : endDepth 0 st.out = st.depth) : endDepth 0 st'.out = st'.depth := by
  unfold step at h
  cases h1 : advance st.pend c with
  | some p =>
    rw [h1] at h
    simp only [Option.some.injEq] at h
    subst h
    exact hd
  | none =>
    rw [h1] at h
    simp only at h
    cases h2 : flush st.pend with
    | none => rw [h2] at h; simp at h
    | some ts =>
      rw [h2] at h
      cases h3 : start st.depth c with
      | none => rw [h3] at h; simp at h
      | some x =>
        obtain ⟨ts', d', p⟩ := x
        rw [h3] at h
        have h := Option.some.inj h
        subst h
        simp only
        rw [endDepth_append, endDepth_append, hd, flush_endDepth h2, start_endDepth h3]

theorem scan_endDepth (s : Str) : ∀ {st st' : Scan}, scan st s = some st' → endDepth 0 st.out = st.depth → endDepth 0 st'.out = st'.depth := by
  induction s with
  | nil => intro st st' h hd; rw [scan_nil] at h; cases h; exact hd
  | cons c s ih =>
    intro st st' h hd
    rw [scan_cons] at h
    cases h1 : step st c with
    | none => rw [h1] at h; exact absurd h (by simp)
    | some st1 =>
      rw [h1] at h
      exact ih h (step_endDepth h1 hd)

theorem tokens_endDepth {s : Str} {ts : List Tok} (h : tokens s = some ts) : endDepth 0 ts = 0 := by
  unfold tokens at h
  cases h1 : scan ⟨[], 0, .idle⟩ s with
  | none => rw [h1] at h; exact absurd h (by simp)
  | some st =>
    rw [h1] at h
    simp only [Option.bind_eq_bind, Option.bind_some] at h
    cases h2 : flush st.pend with
    | none => rw [h2] at h; exact absurd h (by simp)
    | some t =>
      rw [h2] at h
      simp only [Option.bind_some] at h
      by_cases hd : st.depth = 0
      · rw [if_pos hd] at h
        have h := Option.some.inj h
        rw [← h, endDepth_append, scan_endDepth s h1 rfl, hd, flush_endDepth h2]
      · rw [if_neg hd] at h; exact absurd h (by simp)

end Verif.PyLit
