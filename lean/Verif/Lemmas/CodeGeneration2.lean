import Verif.Lemmas.CodeGeneration
/-!
# Line breaks, function definitions and polynomial objects
-/

namespace Verif.PyExpr
open Verif Verif.Str Verif.CodeGen Verif.Poly Verif.MI

variable {K : Type} [Field K] {env : Env K}

/-! ## Line breaks -/

/-- The same state inside `e` more brackets. -/
def Scan.shift (e : Nat) (st : Scan) : Scan := { st with depth := e + st.depth }

theorem scan_spaces (o : List Tok) (d n : Nat) (s : Str) : scan ⟨o, d, .idle⟩ (List.replicate n ' ' ++ s) = scan ⟨o, d, .idle⟩ s := by
  induction n with
  | zero => rfl
  | succ n ih =>
    rw [List.replicate_succ, List.cons_append, scan_cons,
      show step ⟨o, d, .idle⟩ ' ' = some ⟨o, d, .idle⟩ by simp [step, advance, flush, start], Option.bind_some, ih]

theorem advance_space (p : Pend) : advance p ' ' = none := by cases p <;> simp [advance]

theorem advance_newline (p : Pend) : advance p '\n' = none := by cases p <;> simp [advance]

theorem step_space {st st' : Scan} (h : step st ' ' = some st') : ∃ t, flush st.pend = some t ∧ st' = ⟨st.out ++ t, st.depth, .idle⟩ := by
  unfold step at h
  rw [advance_space] at h
  cases h2 : flush st.pend with
  | none => rw [h2] at h; exact absurd h (by simp)
  | some t =>
    rw [h2] at h
    refine ⟨t, rfl, ?_⟩
    have : start st.depth ' ' = some ([], st.depth, .idle) := by simp [start]
    simp only [this] at h
    have h := Option.some.inj h
    simpa using h.symm

theorem step_newline (st : Scan) (hd : 0 < st.depth) {t : List Tok} (h : flush st.pend = some t) :
    step st '\n' = some ⟨st.out ++ t, st.depth, .idle⟩ := by
  unfold step
  rw [advance_newline, h]
  have : start st.depth '\n' = some ([], st.depth, .idle) := by simp [start, hd]
  simp [this]

/-- A line break with indentation instead of a space, inside brackets. -/
theorem scan_break {st st' : Scan} {t : Str} (h : scan st (' ' :: t) = some st') {e : Nat} (he : 0 < e) (n : Nat) :
    scan (st.shift e) ('\n' :: (List.replicate n ' ' ++ t)) = some (st'.shift e) := by
  rw [scan_cons] at h
  cases h1 : step st ' ' with
  | none => rw [h1] at h; exact absurd h (by simp)
  | some st1 =>
    rw [h1] at h
    obtain ⟨ts, h2, rfl⟩ := step_space h1
    rw [scan_cons, step_newline (st.shift e) (show 0 < e + st.depth by omega) h2, Option.bind_some, scan_spaces]
    exact scan_depth h e

theorem scan_joinWith (sep sep' : Str) {e : Nat}
    (hsep : ∀ st st', scan st sep = some st' → scan (st.shift e) sep' = some (st'.shift e)) :
    ∀ (parts : List Str) (st st' : Scan), scan st (joinWith sep parts) = some st' → scan (st.shift e) (joinWith sep' parts) = some (st'.shift e)
  | [], st, st', h => by rw [← Option.some.inj h]; rfl
  | [p], st, st', h => scan_depth h e
  | p :: q :: r, st, st', h => by
    rw [joinWith, scan_append, scan_append] at h
    cases h1 : scan st p with
    | none => rw [h1] at h; exact absurd h (by simp)
    | some st1 =>
      rw [h1, Option.bind_some] at h
      cases h2 : scan st1 sep with
      | none => rw [h2] at h; exact absurd h (by simp)
      | some st2 =>
        rw [h2, Option.bind_some] at h
        rw [joinWith, scan_append, scan_append, show scan (st.shift e) p = some (st1.shift e) from scan_depth h1 e, Option.bind_some,
          hsep _ _ h2, Option.bind_some]
        exact scan_joinWith sep sep' hsep (q :: r) st2 st' h

/-- The text consists of the tokens, inside brackets. -/
def LxDeep (s : Str) (ts : List Tok) : Prop :=
  ∀ o d, 0 < d → ∃ o' p t, scan ⟨o, d, .idle⟩ s = some ⟨o ++ o', d, p⟩ ∧ flush p = some t ∧ p.Solid ∧ ts = o' ++ t

theorem LxDeep.next {s : Str} {ts : List Tok} (h : LxDeep s ts) {c : Char} (hc : Delim c) (rest : Str) (o : List Tok) (d : Nat) (hd : 0 < d) :
    scan ⟨o, d, .idle⟩ (s ++ c :: rest) = scan ⟨o ++ ts, d, .idle⟩ (c :: rest) := by
  obtain ⟨o', p, t, h1, h2, h3, rfl⟩ := h o d hd
  rw [scan_append_some h1, scan_cons, scan_cons]
  congr 1
  unfold step
  rw [advance_none hc h3 h2]
  simp only [h2, show flush Pend.idle = some [] from rfl, show advance Pend.idle c = none from rfl]
  cases start d c <;> simp

theorem LxDeep.paren {a : Str} {ta : List Tok} (ha : LxDeep a ta) : Lx ("(".toList ++ a ++ ")".toList) (.lpar :: ta ++ [.rpar]) := by
  intro o d
  refine ⟨.lpar :: ta ++ [.rpar], .idle, [], ?_, rfl, trivial, by simp⟩
  rw [show "(".toList ++ a ++ ")".toList = '(' :: (a ++ ')' :: []) by simp, scan_cons]
  rw [show step ⟨o, d, .idle⟩ '(' = some ⟨o ++ [.lpar], d + 1, .idle⟩ by simp [step, advance, flush, start], Option.bind_some,
    ha.next (by decide) _ _ _ (by omega)]
  simp [scan, step, advance, flush, start]

theorem Lx.deep {s : Str} {ts : List Tok} (h : Lx s ts) : LxDeep s ts := fun o d _ => h o d

theorem Lx.breakLines (sep sep' : Str) (hsep : ∀ e, 0 < e → ∀ st st', scan st sep = some st' → scan (st.shift e) sep' = some (st'.shift e))
    {parts : List Str} {ts : List Tok} (h : Lx (joinWith sep parts) ts) : LxDeep (joinWith sep' parts) ts := by
  intro o d hd
  obtain ⟨o', p, t, h1, h2, h3, h4⟩ := h o 0
  exact ⟨o', p, t, scan_joinWith sep sep' (hsep d hd) parts _ _ h1, h2, h3, h4⟩

theorem break_plus (e : Nat) (he : 0 < e) (st st' : Scan) (h : scan st " +".toList = some st') :
    scan (st.shift e) "\n        +".toList = some (st'.shift e) := scan_break (t := ['+']) h he 8

theorem break_comma (e : Nat) (he : 0 < e) (st st' : Scan) (h : scan st ", ".toList = some st') :
    scan (st.shift e) ",\n                 ".toList = some (st'.shift e) := by
  rw [show ", ".toList = ',' :: [' '] from rfl, scan_cons] at h
  rw [show ",\n                 ".toList = ',' :: ('\n' :: (List.replicate 17 ' ' ++ [])) from rfl, scan_cons]
  cases h1 : step st ',' with
  | none => rw [h1] at h; exact absurd h (by simp)
  | some st1 =>
    rw [h1] at h
    rw [show step (st.shift e) ',' = some (st1.shift e) from step_depth h1 e, Option.bind_some]
    exact scan_break (t := []) h he 17

theorem join_eq (sep : Str) : ∀ l : List Str, join sep l = joinWith sep l
  | [] => rfl
  | [p] => rfl
  | p :: q :: r => by
    rw [joinWith, ← join_eq sep (q :: r)]
    rfl

theorem linesFrom_nil : ∀ l : List Str, linesFrom [] [] [] l = l
  | [] => rfl
  | [p] => rfl
  | p :: q :: r => by
    rw [linesFrom, linesFrom_nil (q :: r)]
    simp

/-- Wrapped lines are the text with some separators replaced. -/
theorem splitLongStr_parts (s sep : Str) (hsep : sep ≠ []) : ∃ parts, splitLongStr s sep 100 [] [] = .ok parts ∧ joinWith sep parts = s := by
  obtain ⟨lines, groups, h1, h2, -, -, h3, -⟩ := (C32_split_long_str s sep 100 [] []).2 hsep
  rw [linesFrom_nil] at h2
  exact ⟨lines, h1, by rw [h2]; exact h3⟩

theorem txt_wrapScalarLines (s : Str) : ∃ e, wrapScalarLines s = .ok ("return ".toList ++ e) ∧
    ∀ (env : Env K) (w : K), Txt env .sum s w → Txt env .sum e w := by
  unfold wrapScalarLines
  obtain ⟨parts, h1, h2⟩ := splitLongStr_parts s " +".toList (by decide)
  rw [h1, Py.bind_ok]
  simp only [join_eq]
  by_cases hp : parts.length > 1
  · simp only [decide_eq_true hp, if_true]
    refine ⟨"(".toList ++ joinWith "\n        +".toList parts ++ ")".toList, ?_, ?_⟩
    · rw [Py.pure_eq]
      congr 1
    · rintro env w ⟨ts, h3, h4⟩
      rw [← h2] at h3
      exact ⟨_, (h3.breakLines _ _ break_plus).paren, .sum (.term (.factor (.power (.paren h4))))⟩
  · simp only [decide_eq_false hp]
    have h5 : joinWith "\n        +".toList parts = s := by
      rw [← h2]
      cases parts with
      | nil => rfl
      | cons p l =>
        cases l with
        | nil => rfl
        | cons q l => exact absurd (by simp) hp
    rw [h5]
    exact ⟨s, rfl, fun _ _ h => h⟩

theorem txt_scalarBody (s : Str) : ∃ e, scalarBody s = .ok ("return ".toList ++ e) ∧
    ∀ (env : Env K) (w : K), Txt env .sum s w → Txt env .sum e w := by
  unfold scalarBody
  by_cases hl : s.length > 100
  · rw [if_pos hl]
    exact txt_wrapScalarLines s
  · rw [if_neg hl]
    exact ⟨s, rfl, fun _ _ h => h⟩

/-! ## Function definitions -/

/-- The line with its indentation. -/
def lineIndent (l : Str) : Str := if l = [] then [] else "    ".toList ++ l

theorem scan_indent (st : Scan) (l rest : Str) : scan st ('\n' :: (lineIndent l ++ rest)) = scan st ('\n' :: (l ++ rest)) := by
  unfold lineIndent
  by_cases hl : l = []
  · rw [if_pos hl, hl]
  · rw [if_neg hl, scan_cons, scan_cons]
    cases h : step st '\n' with
    | none => rfl
    | some st' =>
      have hp : st'.pend = .idle := by
        unfold step at h
        rw [advance_newline] at h
        cases h2 : flush st.pend with
        | none => rw [h2] at h; exact absurd h (by simp)
        | some t =>
          rw [h2] at h
          by_cases hd : 0 < st.depth
          · have : start st.depth '\n' = some ([], st.depth, .idle) := by simp [start, hd]
            simp only [this] at h
            rw [← Option.some.inj h]
          · have : start st.depth '\n' = none := by simp [start, hd]
            simp only [this] at h
            exact absurd h (by simp)
      obtain ⟨o, d, p⟩ := st'
      simp only at hp
      subst hp
      simp only [Option.bind_some]
      exact scan_spaces o d 4 (l ++ rest)

theorem scan_lines : ∀ (ls : List Str) (st : Scan),
    scan st (ls.map (fun l => '\n' :: lineIndent l)).flatten = scan st (ls.map (fun l => '\n' :: l)).flatten := by
  intro ls
  induction ls with
  | nil => intro st; rfl
  | cons l ls ih =>
    intro st
    rw [List.map_cons, List.map_cons, List.flatten_cons, List.flatten_cons, List.cons_append, scan_indent, List.cons_append]
    rw [← List.cons_append, ← List.cons_append, scan_append, scan_append]
    congr 1
    funext st'
    exact ih st'

theorem joinWith_flatten (p : Str) (ls : List Str) : joinWith ['\n'] (p :: ls) = p ++ (ls.map (fun l => '\n' :: l)).flatten := by
  induction ls generalizing p with
  | nil => simp [joinWith]
  | cons q ls ih => rw [joinWith, ih q, List.map_cons, List.flatten_cons]; simp

theorem tokens_newline {s : Str} {ts : List Tok} (h : tokens s = some ts) : s.getLast? ≠ some '\n' := by
  intro hl
  obtain ⟨s', rfl⟩ : ∃ s', s = s' ++ ['\n'] := by
    rw [List.getLast?_eq_some_iff] at hl
    exact hl
  unfold tokens at h
  rw [scan_append] at h
  cases h1 : scan ⟨[], 0, .idle⟩ s' with
  | none => rw [h1] at h; exact absurd h (by simp)
  | some st =>
    rw [h1, Option.bind_some, scan_cons] at h
    by_cases hd : 0 < st.depth
    · cases h2 : flush st.pend with
      | none =>
        have : step st '\n' = none := by unfold step; rw [advance_newline, h2]; rfl
        rw [this] at h
        exact absurd h (by simp)
      | some t =>
        rw [step_newline st hd h2] at h
        simp only [Option.bind_some, scan_nil, Option.bind_eq_bind, flush] at h
        rw [if_neg (by omega)] at h
        exact absurd h (by simp)
    · have : step st '\n' = none := by
        unfold step
        rw [advance_newline]
        cases h2 : flush st.pend with
        | none => rfl
        | some t =>
          have : start st.depth '\n' = none := by simp [start, hd]
          simp [this]
      rw [this] at h
      exact absurd h (by simp)

/-- The part before the first separator: a prefix without the first character of the separator is part of the first line. -/
theorem first_line (c : Char) (sep' A B : Str) (hA : c ∉ A) (l : Str) (ls : List Str) (h : joinWith (c :: sep') (l :: ls) = A ++ B) :
    ∃ l', l = A ++ l' ∧ joinWith (c :: sep') (l' :: ls) = B := by
  cases ls with
  | nil => exact ⟨B, h, rfl⟩
  | cons q r =>
    rw [joinWith, List.append_assoc] at h
    rcases List.append_eq_append_iff.1 h with ⟨a', h1, h2⟩ | ⟨c', h1, h2⟩
    · cases a' with
      | nil =>
        rw [List.append_nil] at h1
        refine ⟨[], by rw [h1]; simp, ?_⟩
        rw [joinWith, List.nil_append, h2, List.nil_append]
      | cons x a' =>
        rw [List.cons_append, List.cons_append, List.cons.injEq] at h2
        exact absurd (by rw [h1, ← h2.1]; simp) hA
    · exact ⟨c', h1, by rw [joinWith, List.append_assoc, h2]⟩

theorem wc_return (w : Writer) (hi : w.indent = "    ".toList) (hd : w.depth = 1) {e0 : Str} {ts : List Tok} (h : tokens e0 = some ts) :
    ∃ e, w.wc ("return ".toList ++ e0) = .ok { w with code := w.code ++ ("    return ".toList ++ e ++ "\n".toList) } ∧ ∀ st, scan st e = scan st e0 := by
  obtain ⟨lines, h1, h2, h3, -, h5⟩ := (C32_write_code w ("return ".toList ++ e0)).2 (by simp)
  have hlast := tokens_newline h
  have hjoin : joinWith ['\n'] lines = "return ".toList ++ e0 := by
    rcases h3 with h3 | h3
    · exact h3
    · exfalso
      have h6 : ("return ".toList ++ e0).getLast? = some '\n' := by rw [← h3, List.getLast?_append]; rfl
      rw [List.getLast?_append] at h6
      cases he : e0.getLast? with
      | none => rw [he] at h6; exact absurd h6 (by decide)
      | some c =>
        rw [he] at h6
        rw [he] at hlast
        exact hlast h6
  obtain ⟨l, ls, rfl⟩ := List.exists_cons_of_ne_nil h2
  obtain ⟨l', rfl, hl'⟩ := first_line '\n' [] "return ".toList e0 (by decide) l ls hjoin
  rw [joinWith_flatten] at hl'
  refine ⟨l' ++ (ls.map (fun l => '\n' :: lineIndent l)).flatten, ?_, fun st => ?_⟩
  · rw [h5]
    congr 2
    congr 1
    have hline : ∀ s : Str, lineText w s = lineIndent s ++ ['\n'] := by
      intro s
      unfold lineText lineIndent
      rw [hi, hd]
      by_cases hs : s = []
      · rw [if_pos ⟨hs, by decide⟩, if_pos hs]; rfl
      · rw [if_neg (fun h => hs h.1), if_neg hs]; rfl
    have hshift : ∀ (ls : List Str), ['\n'] ++ (ls.map (lineText w)).flatten = (ls.map (fun l => '\n' :: lineIndent l)).flatten ++ ['\n'] := by
      intro ls
      induction ls with
      | nil => rfl
      | cons q ls ih =>
        rw [List.map_cons, List.map_cons, List.flatten_cons, List.flatten_cons, hline, List.append_assoc, List.append_assoc, ← ih]
        simp
    rw [List.map_cons, List.flatten_cons, hline, List.append_assoc, hshift ls]
    have hr : lineIndent ("return ".toList ++ l') = "    return ".toList ++ l' := by
      unfold lineIndent
      rw [if_neg (by simp)]
      rfl
    rw [hr]
    simp
  · rw [scan_append, ← hl', scan_append]
    congr 1
    funext st'
    exact scan_lines ls st'

theorem natStr_alnum (n : Nat) : ∀ c ∈ natStr n, c.isAlphanum ∨ c = '_' := fun _ hc =>
  Or.inl (digit_alnum (Nat.isDigit_of_mem_toDigits (by omega) (by omega) hc))

theorem specificName_eq (hash : Int) : specificName hash = natStr hash.natAbs := by
  unfold specificName
  by_cases h : hash < 0
  · rw [if_pos h, show hash * -1 = ((hash.natAbs : Nat) : Int) by omega]
    rfl
  · rw [if_neg h]
    rw [show hash = ((hash.natAbs : Nat) : Int) by omega]
    rfl

/-- The name of the generated function. -/
def fnName (kind : Str) (m r : Nat) (hash : Int) : Str :=
  "eval_".toList ++ kind ++ "_polynomial_".toList ++ natStr m ++ natStr r ++ "_".toList ++ natStr hash.natAbs

theorem idChars_append {s t : Str} (hs : ∀ c ∈ s, c.isAlphanum ∨ c = '_') (ht : ∀ c ∈ t, c.isAlphanum ∨ c = '_') :
    ∀ c ∈ s ++ t, c.isAlphanum ∨ c = '_' := by
  intro c hc
  rcases List.mem_append.1 hc with hc | hc
  · exact hs c hc
  · exact ht c hc

theorem idChars_eval : ∀ c ∈ "eval_".toList, c.isAlphanum ∨ c = '_' := by decide

theorem idChars_polynomial : ∀ c ∈ "_polynomial_".toList, c.isAlphanum ∨ c = '_' := by decide

theorem idChars_underscore : ∀ c ∈ "_".toList, c.isAlphanum ∨ c = '_' := by decide

theorem idChars_kind (b : Basis) : ∀ c ∈ kindOf b, c.isAlphanum ∨ c = '_' := by cases b <;> decide

theorem isIdentifier_name (b : Basis) (m r : Nat) (hash : Int) : IsIdentifier (fnName (kindOf b) m r hash) := by
  refine ⟨⟨'e', "val_".toList ++ kindOf b ++ "_polynomial_".toList ++ natStr m ++ natStr r ++ "_".toList ++ natStr hash.natAbs, ?_, Or.inl (by decide)⟩, ?_⟩
  · unfold fnName
    rw [show "eval_".toList = 'e' :: "val_".toList from rfl]
    simp only [List.cons_append]
  · exact idChars_append (idChars_append (idChars_append (idChars_append (idChars_append (idChars_append idChars_eval (idChars_kind b))
      idChars_polynomial) (natStr_alnum m)) (natStr_alnum r)) idChars_underscore) (natStr_alnum _)

theorem functionSpecific_spec (b : Basis) (m r : Nat) (hash : Int) {e0 : Str} {ts : List Tok} (h : tokens e0 = some ts) :
    ∃ code e, functionSpecific (kindOf b) m r hash ("return ".toList ++ e0) = .ok (code, fnName (kindOf b) m r hash) ∧
      DefinesFunction code (fnName (kindOf b) m r hash) e ∧ tokens e = tokens e0 := by
  unfold functionSpecific
  rw [specificName_eq]
  simp only
  rw [wl_eq]
  set name := "eval_".toList ++ kindOf b ++ "_polynomial_".toList ++ natStr m ++ natStr r ++ "_".toList ++ natStr hash.natAbs with hname
  set w : Writer := Writer.incIndent _ with hw
  have hi : w.indent = "    ".toList := rfl
  have hd : w.depth = 1 := rfl
  have hcode : w.code = "def ".toList ++ name ++ "(x):\n".toList := by
    rw [hw]
    simp only [Writer.incIndent]
    unfold lineText
    rw [if_neg (by simp)]
    simp
  obtain ⟨e, h1, h2⟩ := wc_return w hi hd h
  rw [h1, Py.bind_ok]
  refine ⟨_, e, rfl, ⟨isIdentifier_name b m r hash, ?_⟩, ?_⟩
  · change w.code ++ ("    return ".toList ++ e ++ "\n".toList) = _
    rw [hcode, show fnName (kindOf b) m r hash = name from rfl]
    generalize name = nm
    simp only [List.append_assoc]
  · unfold tokens
    rw [h2]

/-! ## Vector valued expressions -/

/-- Texts separated by commas. -/
theorem seq_join {parts : List Str} {vs : List K} (h : List.Forall₂ (Txt env .sum) parts vs) (hne : parts ≠ []) :
    ∃ ts, Lx (joinWith ", ".toList parts) ts ∧ ParsesSeq env ts vs := by
  induction h with
  | nil => exact absurd rfl hne
  | cons h1 h2 ih =>
    rename_i p v ps vs
    obtain ⟨t1, ha, hb⟩ := h1
    cases h2 with
    | nil => exact ⟨t1, ha, .one hb⟩
    | cons h3 h4 =>
      obtain ⟨t2, hc, hd⟩ := ih (by simp)
      rw [joinWith_cons _ _ _ (by simp)]
      refine ⟨_, ha.mid mid_comma hc, ?_⟩
      rw [List.append_assoc]
      exact ParsesSeq.cons hb hd

theorem tokens_array {s : Str} {ts : List Tok} (h : LxDeep s ts) :
    tokens ("np.array([".toList ++ s ++ "])".toList) =
      some ([.name "np".toList, .dot, .name "array".toList, .lpar, .lbrk] ++ ts ++ [.rbrk, .rpar]) := by
  have h0 : scan ⟨[], 0, .idle⟩ "np.array([".toList = some ⟨[.name "np".toList, .dot, .name "array".toList, .lpar, .lbrk], 2, .idle⟩ := by
    simp [scan, step, advance, flush, start, Char.isAlphanum, Char.isAlpha, Char.isUpper, Char.isLower, Char.isDigit]
  unfold tokens
  rw [show "np.array([".toList ++ s ++ "])".toList = "np.array([".toList ++ (s ++ ']' :: [')']) by simp, scan_append_some h0,
    h.next (by decide) _ _ _ (by omega)]
  simp [scan, step, advance, flush, start]

theorem vectorText_join (p : Str) (ps : List Str) :
    p ++ (ps.map (fun q => ", ".toList ++ q)).flatten = joinWith ", ".toList (p :: ps) := by
  induction ps generalizing p with
  | nil => simp [joinWith]
  | cons q ps ih => rw [joinWith, ← ih q, List.map_cons, List.flatten_cons]; simp

theorem last_line (c : Char) (sep' B : Str) (hc : c ∉ B) : ∀ (ls : List Str) (l A : Str), joinWith (sep' ++ [c]) (l :: ls) = A ++ B →
    ∃ ls' , ls'.length = ls.length + 1 ∧ joinWith (sep' ++ [c]) ls' = A ∧ ∀ sep : Str, joinWith sep (l :: ls) = joinWith sep ls' ++ B := by
  intro ls
  induction ls with
  | nil =>
    intro l A h
    refine ⟨[A], rfl, rfl, fun sep => h⟩
  | cons q r ih =>
    intro l A h
    rw [joinWith] at h
    rcases List.append_eq_append_iff.1 h with ⟨a', h1, h2⟩ | ⟨c', h1, h2⟩
    · obtain ⟨ls', h3, h4, h5⟩ := ih q a' h2
      have hne : ls' ≠ [] := by rintro rfl; simp at h3
      refine ⟨l :: ls', by simp [h3], ?_, fun sep => ?_⟩
      · rw [joinWith_cons _ _ _ hne, h4, h1]
      · rw [joinWith, h5 sep, joinWith_cons _ _ _ hne]; simp only [List.append_assoc]
    · cases hc' : c'.getLast? with
      | none =>
        rw [List.getLast?_eq_none_iff] at hc'
        subst hc'
        rw [List.append_nil] at h1
        rw [List.nil_append] at h2
        obtain ⟨ls', h3, h4, h5⟩ := ih q [] h2.symm
        have hne : ls' ≠ [] := by rintro rfl; simp at h3
        refine ⟨l :: ls', by simp [h3], ?_, fun sep => ?_⟩
        · rw [joinWith_cons _ _ _ hne, h4, h1, List.append_nil]
        · rw [joinWith, h5 sep, joinWith_cons _ _ _ hne]; simp only [List.append_assoc]
      | some x =>
        exfalso
        obtain ⟨c'', rfl⟩ := List.getLast?_eq_some_iff.1 hc'
        have h6 : (l ++ (sep' ++ [c])).getLast? = some c := by rw [← List.append_assoc, List.getLast?_append]; rfl
        rw [h1, ← List.append_assoc, List.getLast?_append] at h6
        have h6 : x = c := Option.some.inj h6
        apply hc
        rw [h2, h6]
        simp

theorem vectorBody_spec {parts : List Str} (hne : parts ≠ []) :
    ∃ e, vectorBody ("np.array([".toList ++ joinWith ", ".toList parts ++ "])".toList) = .ok ("return ".toList ++ e) ∧
      (∀ (env : Env K) (ws : List K), List.Forall₂ (Txt env .sum) parts ws → DenotesArray env e ws) := by
  unfold vectorBody
  have key0 : ∀ (env' : Env K) (ws : List K), List.Forall₂ (Txt env' .sum) parts ws →
      DenotesArray env' ("np.array([".toList ++ joinWith ", ".toList parts ++ "])".toList) ws := by
    intro env' ws h
    obtain ⟨ts, h1, h2⟩ := seq_join h hne
    exact ⟨ts, tokens_array h1.deep, h2⟩
  split
  · set s := "np.array([".toList ++ joinWith ", ".toList parts ++ "])".toList with hs
    obtain ⟨lines, h1, h2⟩ := splitLongStr_parts s ", ".toList (by decide)
    rw [h1, Py.bind_ok, join_eq]
    refine ⟨_, rfl, fun env' ws h => ?_⟩
    have hlne : lines ≠ [] := by
      rintro rfl
      rw [hs] at h2
      exact absurd h2 (by simp [joinWith])
    obtain ⟨l, ls, rfl⟩ := List.exists_cons_of_ne_nil hlne
    rw [hs, List.append_assoc] at h2
    obtain ⟨l', rfl, h3⟩ := first_line ',' [' '] "np.array([".toList _ (by decide) l ls h2
    obtain ⟨ls', -, h4, h5⟩ := last_line ' ' [','] "])".toList (by decide) ls l' _ h3
    obtain ⟨ts, h6, h7⟩ := seq_join h hne
    rw [← h4] at h6
    have h8 := h6.breakLines ", ".toList ",\n                 ".toList break_comma
    refine ⟨ts, ?_, h7⟩
    have h9 : joinWith ",\n                 ".toList (("np.array([".toList ++ l') :: ls) =
        "np.array([".toList ++ joinWith ",\n                 ".toList ls' ++ "])".toList := by
      rw [List.append_assoc, ← h5]
      cases ls with
      | nil => rfl
      | cons q r => simp [joinWith]
    rw [h9]
    exact tokens_array h8
  · exact ⟨_, rfl, key0⟩

end Verif.PyExpr
