import Verif.Spec.Latex
import Verif.Model.Latex
import Verif.Lemmas.PyExpr
import Mathlib.Tactic.IntervalCases
/-!
# Reading LaTeX formulas
-/

namespace Verif.Latex
open Verif Verif.Str Verif.PyExpr Verif.CodeGen

/-! ## Characters and control words -/

theorem texStart_out (o : List Tx) (c : Char) : texStart o c = (o ++ (texStart [] c).1, (texStart [] c).2) := by
  unfold texStart
  split
  · simp
  · split <;> simp

theorem texStep_out (o o' : List Tx) (w : Option Str) (c : Char) :
    texStep (o ++ o', w) c = (o ++ (texStep (o', w) c).1, (texStep (o', w) c).2) := by
  cases w with
  | none =>
    simp only [texStep]
    rw [texStart_out, texStart_out o']
    simp
  | some w =>
    simp only [texStep]
    split
    · rfl
    · split
      · simp
      · rw [texStart_out, texStart_out (o' ++ _)]
        simp

theorem texFold_out (o o' : List Tx) (w : Option Str) (s : Str) :
    s.foldl texStep (o ++ o', w) = (o ++ (s.foldl texStep (o', w)).1, (s.foldl texStep (o', w)).2) := by
  induction s generalizing o' w with
  | nil => rfl
  | cons c s ih => rw [List.foldl_cons, texStep_out, ih]; rfl

/-- The text does not end within a control word, and `xs` are its characters and control words. -/
def TexR (s : Str) (xs : List Tx) : Prop := s.foldl texStep ([], none) = (xs, none)

theorem TexR.tex {s : Str} {xs : List Tx} (h : TexR s xs) : tex s = xs := by
  unfold Latex.tex
  rw [show s.foldl texStep ([], none) = (xs, none) from h]

theorem TexR.append {s t : Str} {xs ys : List Tx} (h : TexR s xs) (h' : TexR t ys) : TexR (s ++ t) (xs ++ ys) := by
  unfold TexR at *
  rw [List.foldl_append, h]
  have := texFold_out xs [] none t
  rw [List.append_nil] at this
  rw [this, h']

theorem texR_nil : TexR [] [] := rfl

theorem TexR.cons {c : Char} {s : Str} {xs : List Tx} (h1 : c ≠ '\\') (h2 : isBlank c = false) (h : TexR s xs) : TexR (c :: s) (.chr c :: xs) :=
  TexR.append (s := [c]) (xs := [.chr c]) (by simp [TexR, texStep, texStart, h1, h2]) h

theorem texR_plain {s : Str} (h : ∀ c ∈ s, c ≠ '\\' ∧ isBlank c = false) : TexR s (s.map .chr) := by
  induction s with
  | nil => rfl
  | cons c s ih => exact .cons (h c List.mem_cons_self).1 (h c List.mem_cons_self).2 (ih fun c' h' => h c' (List.mem_cons_of_mem _ h'))

/-! ## Symbols -/

theorem step_out (o o' : List Sym) (p : Pend) (t : Tx) :
    step (o ++ o', p) t = (step (o', p) t).map (fun st => (o ++ st.1, st.2)) := by
  unfold step
  simp only
  cases advance p t with
  | some q => rfl
  | none =>
    cases flush p with
    | none => rfl
    | some ts =>
      cases start t with
      | none => rfl
      | some q => simp

theorem scan_out (o o' : List Sym) (p : Pend) (xs : List Tx) :
    xs.foldlM step (o ++ o', p) = (xs.foldlM step (o', p)).map (fun st => (o ++ st.1, st.2)) := by
  induction xs generalizing o' p with
  | nil => rfl
  | cons t xs ih =>
    rw [List.foldlM_cons, List.foldlM_cons, step_out]
    cases step (o', p) t with
    | none => rfl
    | some st => exact ih st.1 st.2

/-- The character does not continue a complete symbol. -/
def Break : Tx → Bool
  | .chr c => !c.isDigit && c != '.' && c != '_'
  | .cmd _ => true

theorem advance_break {p : Pend} {f : List Sym} {t : Tx} (hf : flush p = some f) (ht : Break t = true) : advance p t = none := by
  cases t with
  | cmd w => cases p <;> first | rfl | exact absurd hf (by simp [flush])
  | chr c =>
    simp only [Break, Bool.and_eq_true, Bool.not_eq_true', bne_iff_ne, ne_eq] at ht
    cases p <;> simp_all [flush, advance]

theorem advance_done (ts : List Sym) (t : Tx) : advance (.done ts) t = none := by cases t <;> rfl

/-- The symbols of a sequence of characters; `b`: they start with a character that does not continue a symbol; `d`: the last symbol is complete. -/
def LexR (b d : Bool) (xs : List Tx) (l : List Sym) : Prop :=
  (∃ t xs', xs = t :: xs' ∧ (b = true → Break t = true)) ∧
    ∃ o p f, xs.foldlM step ([], .done []) = some (o, p) ∧ flush p = some f ∧ l = o ++ f ∧ (d = true → ∃ ts, p = .done ts)

theorem scan_next {p : Pend} {o f : List Sym} {t : Tx} (xs : List Tx) (hf : flush p = some f) (ha : advance p t = none) :
    (t :: xs).foldlM step (o, p) = ((t :: xs).foldlM step ([], .done [])).map (fun st => (o ++ f ++ st.1, st.2)) := by
  rw [List.foldlM_cons, List.foldlM_cons]
  have h1 : step (o, p) t = (start t).map (fun q => (o ++ f, q)) := by
    simp only [step, ha, hf]
    cases start t <;> rfl
  have h2 : step ([], .done []) t = (start t).map (fun q => ([], q)) := by
    simp only [step, advance_done, flush]
    cases start t <;> rfl
  rw [h1, h2]
  cases start t with
  | none => rfl
  | some q =>
    have := scan_out (o ++ f) [] q xs
    rw [List.append_nil] at this
    simpa using this

theorem LexR.append {b d b' d' : Bool} {xs ys : List Tx} {l l' : List Sym} (h : LexR b d xs l) (h' : LexR b' d' ys l') (hbd : d = true ∨ b' = true) :
    LexR b d' (xs ++ ys) (l ++ l') := by
  obtain ⟨⟨t, xs', rfl, h1⟩, o, p, f, h2, h3, rfl, h4⟩ := h
  obtain ⟨⟨t', ys', rfl, h1'⟩, o', p', f', h2', h3', rfl, h4'⟩ := h'
  refine ⟨⟨t, xs' ++ t' :: ys', rfl, h1⟩, o ++ f ++ o', p', f', ?_, h3', by simp, h4'⟩
  have ha : advance p t' = none := by
    rcases hbd with hd | hb
    · obtain ⟨ts, rfl⟩ := h4 hd
      exact advance_done _ _
    · exact advance_break h3 (h1' hb)
  rw [List.foldlM_append, h2]
  change List.foldlM step (o, p) (t' :: ys') = _
  rw [scan_next ys' h3 ha, h2']
  rfl

theorem LexR.weaken {b d : Bool} {xs : List Tx} {l : List Sym} (h : LexR b d xs l) : LexR false false xs l := by
  obtain ⟨⟨t, xs', rfl, h1⟩, o, p, f, h2, h3, rfl, h4⟩ := h
  exact ⟨⟨t, xs', rfl, by simp⟩, o, p, f, h2, h3, rfl, by simp⟩

theorem LexR.weaken_end {b d : Bool} {xs : List Tx} {l : List Sym} (h : LexR b d xs l) : LexR b false xs l := by
  obtain ⟨h1, o, p, f, h2, h3, rfl, h4⟩ := h
  exact ⟨h1, o, p, f, h2, h3, rfl, by simp⟩

/-! ## Vectors -/

theorem entryStep_out (n i : Nat) (o o' : List Tok) (w : Inside) (t : Sym) :
    entryStep n i (o ++ o', w) t = (entryStep n i (o', w) t).map (fun st => (o ++ st.1, st.2)) := by
  cases t with
  | tok t =>
    cases w with
    | none => simp [entryStep]
    | some e =>
      simp only [entryStep]
      split <;> simp
  | opens e =>
    cases w with
    | none => simp only [entryStep]; split <;> simp
    | some e => rfl
  | next =>
    cases w with
    | none => rfl
    | some e => rfl
  | closes e =>
    cases w with
    | none => rfl
    | some e => simp only [entryStep]; split <;> simp
  | space => rfl

theorem entryFold_out (n i : Nat) (o o' : List Tok) (w : Inside) (l : List Sym) :
    l.foldlM (entryStep n i) (o ++ o', w) = (l.foldlM (entryStep n i) (o', w)).map (fun st => (o ++ st.1, st.2)) := by
  induction l generalizing o' w with
  | nil => rfl
  | cons t xs ih =>
    rw [List.foldlM_cons, List.foldlM_cons, entryStep_out]
    cases entryStep n i (o', w) t with
    | none => rfl
    | some st => exact ih st.1 st.2

/-- The tokens of the component `i`. -/
def EntR (n i : Nat) (l : List Sym) (ts : List Tok) : Prop := l.foldlM (entryStep n i) ([], none) = some (ts, none)

theorem EntR.entry {n i : Nat} {l : List Sym} {ts : List Tok} (h : EntR n i l ts) : entry n i l = some ts := by
  unfold Latex.entry
  rw [show l.foldlM (entryStep n i) ([], none) = some (ts, none) from h]

theorem EntR.of_entry {n i : Nat} {l : List Sym} {ts : List Tok} (h : Latex.entry n i l = some ts) : EntR n i l ts := by
  unfold Latex.entry at h
  unfold EntR
  split at h
  · rename_i o h1
    rw [h1]
    rw [Option.some.inj h]
  · exact absurd h (by simp)

theorem EntR.append {n i : Nat} {l l' : List Sym} {ts ts' : List Tok} (h : EntR n i l ts) (h' : EntR n i l' ts') : EntR n i (l ++ l') (ts ++ ts') := by
  unfold EntR at *
  rw [List.foldlM_append, h]
  have := entryFold_out n i ts [] none l'
  rw [List.append_nil] at this
  change List.foldlM (entryStep n i) (ts, none) l' = _
  rw [this, h']
  rfl

theorem entR_tok (n i : Nat) (ts : List Tok) : EntR n i (ts.map .tok) ts := by
  induction ts with
  | nil => rfl
  | cons t ts ih => exact EntR.append (l := [.tok t]) (ts := [t]) rfl ih

/-- The text can be read; `b`: at any place; `d`: and be followed by anything. -/
def Lx (n i : Nat) (b d : Bool) (s : Str) (ts : List Tok) : Prop := ∃ xs l, TexR s xs ∧ LexR b d xs l ∧ EntR n i l ts

variable {n i : Nat}

theorem Lx.append {b d b' d' : Bool} {s s' : Str} {ts ts' : List Tok} (h : Lx n i b d s ts) (h' : Lx n i b' d' s' ts') (hbd : d = true ∨ b' = true) :
    Lx n i b d' (s ++ s') (ts ++ ts') := by
  obtain ⟨xs, l, h1, h2, h3⟩ := h
  obtain ⟨xs', l', h1', h2', h3'⟩ := h'
  exact ⟨_, _, h1.append h1', h2.append h2' hbd, h3.append h3'⟩

theorem Lx.weaken {b d : Bool} {s : Str} {ts : List Tok} (h : Lx n i b d s ts) : Lx n i false false s ts := by
  obtain ⟨xs, l, h1, h2, h3⟩ := h
  exact ⟨_, _, h1, h2.weaken, h3⟩

theorem Lx.weaken_end {b d : Bool} {s : Str} {ts : List Tok} (h : Lx n i b d s ts) : Lx n i b false s ts := by
  obtain ⟨xs, l, h1, h2, h3⟩ := h
  exact ⟨_, _, h1, h2.weaken_end, h3⟩

theorem Lx.blank {b d : Bool} {s : Str} {ts : List Tok} (h : Lx n i b d s ts) : Lx n i b d (' ' :: s) ts := by
  obtain ⟨xs, l, h1, h2, h3⟩ := h
  exact ⟨_, _, (show TexR [' '] [] from rfl).append h1, h2, h3⟩

/-- Texts that are given literally. -/
theorem lx_lit {b d : Bool} (s : Str) (xs : List Tx) (ts : List Tok) (p : Pend) (o f : List Sym) (h1 : TexR s xs)
    (h2 : xs.foldlM step ([], .done []) = some (o, p)) (h3 : flush p = some f) (h4 : o ++ f = ts.map .tok)
    (h5 : ∃ t xs', xs = t :: xs' ∧ (b = true → Break t = true)) (h6 : d = true → ∃ ts, p = .done ts) : Lx n i b d s ts :=
  ⟨xs, ts.map .tok, h1, ⟨h5, o, p, f, h2, h3, h4.symm, h6⟩, entR_tok n i ts⟩

theorem lx_plus : Lx n i true true " + ".toList [.plus] :=
  lx_lit _ [.chr '+'] _ (.done [.tok .plus]) [] _ rfl rfl rfl rfl ⟨_, _, rfl, fun _ => rfl⟩ fun _ => ⟨_, rfl⟩

theorem lx_minus : Lx n i true true " - ".toList [.minus] :=
  lx_lit _ [.chr '-'] _ (.done [.tok .minus]) [] _ rfl rfl rfl rfl ⟨_, _, rfl, fun _ => rfl⟩ fun _ => ⟨_, rfl⟩

theorem lx_neg : Lx n i true true "-".toList [.minus] :=
  lx_lit _ [.chr '-'] _ (.done [.tok .minus]) [] _ rfl rfl rfl rfl ⟨_, _, rfl, fun _ => rfl⟩ fun _ => ⟨_, rfl⟩

theorem lx_slash : Lx n i true true " / ".toList [.slash] :=
  lx_lit _ [.chr '/'] _ (.done [.tok .slash]) [] _ rfl rfl rfl rfl ⟨_, _, rfl, fun _ => rfl⟩ fun _ => ⟨_, rfl⟩

theorem lx_lpar : Lx n i true true "(".toList [.lpar] :=
  lx_lit _ [.chr '('] _ (.done [.tok .lpar]) [] _ rfl rfl rfl rfl ⟨_, _, rfl, fun _ => rfl⟩ fun _ => ⟨_, rfl⟩

theorem lx_rpar : Lx n i true true ")".toList [.rpar] :=
  lx_lit _ [.chr ')'] _ (.done [.tok .rpar]) [] _ rfl rfl rfl rfl ⟨_, _, rfl, fun _ => rfl⟩ fun _ => ⟨_, rfl⟩

theorem lx_cdot : Lx n i true true (" ".toList ++ "\\cdot".toList ++ " ".toList) [.star] :=
  lx_lit _ [.cmd "cdot".toList] _ (.done [.tok .star]) [] _ rfl rfl rfl rfl ⟨_, _, rfl, fun _ => rfl⟩ fun _ => ⟨_, rfl⟩

theorem lx_x : Lx n i true false "x".toList [.name "x".toList] :=
  lx_lit _ [.chr 'x'] _ (.letter 'x') [] _ rfl rfl rfl rfl ⟨_, _, rfl, fun _ => rfl⟩ (by simp)

/-! ### Numbers -/

theorem natStr_digit (k : Nat) : ∀ c ∈ natStr k, c.isDigit = true := fun _ hc => Nat.isDigit_of_mem_toDigits (by omega) (by omega) hc

theorem digit_plain {c : Char} (h : c.isDigit = true) : c ≠ '\\' ∧ isBlank c = false := by
  constructor
  · rintro rfl
    exact absurd h (by decide)
  · simp only [isBlank, Bool.or_eq_false_iff, decide_eq_false_iff_not]
    constructor <;> (rintro rfl; exact absurd h (by decide))

theorem texR_natStr (k : Nat) : TexR (natStr k) ((natStr k).map .chr) := texR_plain fun c hc => digit_plain (natStr_digit k c hc)

theorem digitsValue_natStr (k : Nat) : digitsValue (natStr k) = k := by
  have hv := Nat.ofDigitChars_toDigits (b := 10) (n := k) (by omega) (by omega)
  rw [show digitsValue (natStr k) = Nat.ofDigitChars 10 (natStr k) 0 from rfl]
  exact hv

theorem scan_digits (o : List Sym) : ∀ (cs : Str) (k : Nat), (∀ c ∈ cs, c.isDigit = true) →
    (cs.map Tx.chr).foldlM step (o, .num k) = some (o, .num (cs.foldl (fun n c => 10 * n + digit c) k)) := by
  intro cs
  induction cs with
  | nil => intro k _; rfl
  | cons c cs ih =>
    intro k h
    have hc := h c List.mem_cons_self
    rw [List.map_cons, List.foldlM_cons, show step (o, .num k) (.chr c) = some (o, .num (10 * k + digit c)) by simp [step, advance, hc]]
    exact ih _ (fun c' h' => h c' (List.mem_cons_of_mem _ h'))

theorem lx_natStr (k : Nat) : Lx n i false false (natStr k) [.int k] := by
  have hne : natStr k ≠ [] := natStr_ne_nil k
  have hd := natStr_digit k
  have hv := digitsValue_natStr k
  refine ⟨_, [.tok (.int k)], texR_natStr k, ⟨?_, [], .num k, _, ?_, rfl, rfl, by simp⟩, rfl⟩
  · obtain ⟨c, cs, h⟩ := List.exists_cons_of_ne_nil hne
    exact ⟨.chr c, cs.map .chr, by rw [h]; rfl, by simp⟩
  · generalize natStr k = s at hd hv hne
    obtain ⟨c, cs, rfl⟩ := List.exists_cons_of_ne_nil hne
    have hc := hd c List.mem_cons_self
    rw [List.map_cons, List.foldlM_cons, show step ([], .done []) (.chr c) = some ([], .num (digit c)) by simp [step, advance, flush, start, hc]]
    change List.foldlM step ([], Pend.num (digit c)) (cs.map Tx.chr) = _
    rw [scan_digits _ _ _ (fun c' h' => hd c' (List.mem_cons_of_mem _ h')), ← hv]
    simp [digitsValue]

theorem natStr_single {k : Nat} (hk : k ≤ 9) : ∃ c : Char, natStr k = [c] ∧ c.isDigit = true ∧ digit c = k := by
  interval_cases k
  · exact ⟨'0', rfl, rfl, rfl⟩
  · exact ⟨'1', rfl, rfl, rfl⟩
  · exact ⟨'2', rfl, rfl, rfl⟩
  · exact ⟨'3', rfl, rfl, rfl⟩
  · exact ⟨'4', rfl, rfl, rfl⟩
  · exact ⟨'5', rfl, rfl, rfl⟩
  · exact ⟨'6', rfl, rfl, rfl⟩
  · exact ⟨'7', rfl, rfl, rfl⟩
  · exact ⟨'8', rfl, rfl, rfl⟩
  · exact ⟨'9', rfl, rfl, rfl⟩

/-- An exponent of one digit. -/
theorem lx_pow {k : Nat} (hk : k ≤ 9) : Lx n i true true ("^".toList ++ natStr k) [.pow, .int k] := by
  obtain ⟨c, h1, h2, h3⟩ := natStr_single hk
  rw [h1]
  have h4 : c ≠ '{' := by rintro rfl; exact absurd h2 (by decide)
  refine lx_lit _ [.chr '^', .chr c] _ (.done [.tok .pow, .tok (.int k)]) [] _ ?_ ?_ rfl rfl ⟨_, _, rfl, fun _ => rfl⟩ fun _ => ⟨_, rfl⟩
  · exact (show TexR "^".toList [.chr '^'] from rfl).append (texR_plain (s := [c]) (by simpa using digit_plain h2))
  · simp [step, advance, flush, start, h2, h3, h4]

/-- A variable with a subscript of one digit. -/
theorem lx_sub {v : Char} (hv : v.isAlpha = true) (hv' : isFn v = false) {k : Nat} (hk : k ≤ 9) :
    Lx n i true true (v :: '_' :: natStr k) [.name (subscripted v (natStr k))] := by
  obtain ⟨c, h1, h2, h3⟩ := natStr_single hk
  rw [h1]
  have h4 : c ≠ '{' := by rintro rfl; exact absurd h2 (by decide)
  have h5 : v.isDigit = false := by
    simp only [Char.isAlpha, Char.isUpper, Char.isLower, Char.isDigit, Bool.or_eq_true, Bool.and_eq_true, decide_eq_true_eq, Bool.and_eq_false_iff,
      decide_eq_false_iff_not, ge_iff_le] at hv ⊢
    rcases hv with hv | hv
    · right
      intro h
      exact absurd (UInt32.le_trans hv.1 h) (by decide)
    · right
      intro h
      exact absurd (UInt32.le_trans hv.1 h) (by decide)
  have h6 : v ≠ '\\' := by rintro rfl; exact absurd hv (by decide)
  have h7 : isBlank v = false := by
    simp only [isBlank, Bool.or_eq_false_iff, decide_eq_false_iff_not]
    constructor <;> (rintro rfl; exact absurd hv (by decide))
  have h8 : v ≠ '.' := by rintro rfl; exact absurd hv (by decide)
  have h9 : v ≠ '_' := by rintro rfl; exact absurd hv (by decide)
  have hc : c.isAlphanum = true := by simp [Char.isAlphanum, h2]
  refine lx_lit _ [.chr v, .chr '_', .chr c] _ (.done [.tok (.name (subscripted v [c]))]) [] _ ?_ ?_ rfl rfl
    ⟨_, _, rfl, fun _ => by simp [Break, h5, h8, h9]⟩ fun _ => ⟨_, rfl⟩
  · exact texR_plain (s := [v, '_', c]) (by simp [h6, h7, digit_plain h2]; decide)
  · simp [step, advance, flush, start, h2, h3, h4, h5, hv, named, hv', hc]

theorem step_minus : step ([], .done []) (.chr '-') = some ([], .done [.tok .minus]) := rfl

/-- A leading minus sign. -/
theorem Lx.minus_inv {b d : Bool} {s : Str} {ts : List Tok} (h : Lx n i b d ('-' :: s) ts) :
    ∃ ts', ts = .minus :: ts' ∧ (ts' = [] ∨ Lx n i false d s ts') := by
  obtain ⟨xs, l, h1, ⟨_, o, p, f, h2, h3, rfl, h4⟩, h5⟩ := h
  have hx : ∃ ys, TexR s ys ∧ xs = .chr '-' :: ys := by
    have h6 := texFold_out [.chr '-'] [] none s
    have h7 : ('-' :: s).foldl texStep ([], none) = s.foldl texStep ([.chr '-'], none) := rfl
    unfold TexR at h1
    rw [h7] at h1
    rw [List.append_nil, h1] at h6
    refine ⟨(s.foldl texStep ([], none)).1, ?_, ?_⟩
    · unfold TexR
      rw [Prod.mk.injEq] at h6
      exact Prod.ext rfl h6.2.symm
    · rw [Prod.mk.injEq] at h6
      exact h6.1
  obtain ⟨ys, hy, rfl⟩ := hx
  rw [List.foldlM_cons, step_minus] at h2
  change List.foldlM step ([], Pend.done [.tok .minus]) ys = _ at h2
  cases ys with
  | nil =>
    obtain ⟨rfl, rfl⟩ := Prod.mk.inj (Option.some.inj h2)
    obtain rfl := Option.some.inj h3
    obtain ⟨rfl, -⟩ := Prod.mk.inj (Option.some.inj h5)
    exact ⟨[], rfl, Or.inl rfl⟩
  | cons t ys =>
    rw [scan_next ys (show flush (Pend.done [.tok .minus]) = some [.tok .minus] from rfl) (advance_done _ _)] at h2
    cases h6 : (t :: ys).foldlM step ([], Pend.done []) with
    | none => rw [h6] at h2; exact absurd h2 (by simp)
    | some st =>
      obtain ⟨o', p'⟩ := st
      rw [h6] at h2
      simp only [Option.map_some, Option.some.injEq, Prod.mk.injEq, List.nil_append] at h2
      obtain ⟨rfl, rfl⟩ := h2
      unfold EntR at h5
      rw [List.append_assoc, List.cons_append, List.nil_append, List.foldlM_cons] at h5
      have h7 := entryFold_out n i [.minus] [] none (o' ++ f)
      rw [List.append_nil] at h7
      change List.foldlM (entryStep n i) ([.minus], none) (o' ++ f) = _ at h5
      rw [h7] at h5
      cases h8 : List.foldlM (entryStep n i) ([], none) (o' ++ f) with
      | none => rw [h8] at h5; exact absurd h5 (by simp)
      | some e =>
        obtain ⟨te, we⟩ := e
        rw [h8] at h5
        simp only [Option.map_some, Option.some.injEq, Prod.mk.injEq] at h5
        obtain ⟨rfl, rfl⟩ := h5
        exact ⟨te, rfl, Or.inr ⟨_, _, hy, ⟨⟨t, ys, rfl, by simp⟩, o', p', f, h6, h3, rfl, h4⟩, h8⟩⟩

theorem Lx.unique {b d b' d' : Bool} {s : Str} {ts ts' : List Tok} (h : Lx n i b d s ts) (h' : Lx n i b' d' s ts') : ts = ts' := by
  obtain ⟨xs, l, h1, ⟨_, o, p, f, h2, h3, rfl, h4⟩, h5⟩ := h
  obtain ⟨xs', l', h1', ⟨_, o', p', f', h2', h3', rfl, h4'⟩, h5'⟩ := h'
  obtain ⟨rfl, -⟩ := Prod.mk.inj (h1.symm.trans h1')
  obtain ⟨rfl, rfl⟩ := Prod.mk.inj (Option.some.inj (h2.symm.trans h2'))
  obtain rfl := Option.some.inj (h3.symm.trans h3')
  exact (Prod.mk.inj (Option.some.inj (h5.symm.trans h5'))).1

theorem Lx.lex {b d : Bool} {s : Str} {ts : List Tok} (h : Lx n i b d s ts) : ∃ l, lex s = some l ∧ entry n i l = some ts := by
  obtain ⟨xs, l, h1, ⟨_, o, p, f, h2, h3, rfl, h4⟩, h5⟩ := h
  refine ⟨o ++ f, ?_, h5.entry⟩
  unfold Latex.lex
  rw [h1.tex, h2]
  simp [h3]

/-! ## Products -/

theorem times_cons (a b : Tok) (l : List Tok) : times (a :: b :: l) = a :: ((if ends a && starts b then [.star] else []) ++ times (b :: l)) := by
  rw [times]
  split <;> simp

theorem times_append {a b : List Tok} {x y : Tok} (hx : a.getLast? = some x) (hy : b.head? = some y) :
    times (a ++ b) = times a ++ ((if ends x && starts y then [.star] else []) ++ times b) := by
  induction a with
  | nil => exact absurd hx (by simp)
  | cons c a ih =>
    cases a with
    | nil =>
      simp only [List.getLast?_singleton, Option.some.injEq] at hx
      subst hx
      cases b with
      | nil => exact absurd hy (by simp)
      | cons e b =>
        simp only [List.head?_cons, Option.some.injEq] at hy
        subst hy
        rw [List.cons_append, List.nil_append, times_cons]
        rfl
    | cons c' a =>
      rw [List.getLast?_cons_cons] at hx
      have := ih hx
      rw [List.cons_append] at this ⊢
      rw [List.cons_append, times_cons, this, times_cons]
      simp

theorem times_getLast (a : List Tok) : (times a).getLast? = a.getLast? := by
  induction a with
  | nil => rfl
  | cons c a ih =>
    cases a with
    | nil => rfl
    | cons c' a =>
      rw [times_cons, List.getLast?_cons_cons, ← ih]
      have hne : times (c' :: a) ≠ [] := by cases a with
        | nil => simp [times]
        | cons e a => rw [times_cons]; simp
      split
      · rw [List.cons_append, List.nil_append, List.getLast?_cons_cons]
        obtain ⟨t, ts, h⟩ := List.exists_cons_of_ne_nil hne
        rw [h, List.getLast?_cons_cons]
      · rw [List.nil_append]
        obtain ⟨t, ts, h⟩ := List.exists_cons_of_ne_nil hne
        rw [h, List.getLast?_cons_cons]

theorem times_head (a : List Tok) : (times a).head? = a.head? := by
  cases a with
  | nil => rfl
  | cons c a => cases a with
    | nil => rfl
    | cons c' a => rw [times_cons]; rfl

variable {K : Type} [Field K] {env : Env K}

theorem Parses.last_ends {l : Level} {ts : List Tok} {v : K} (h : Parses env l ts v) : ∃ t, ts.getLast? = some t ∧ ends t = true := by
  induction h with
  | add h1 h2 ih1 ih2 => rw [getLast_tail _ _ h2.ne_nil]; exact ih2
  | sub h1 h2 ih1 ih2 => rw [getLast_tail _ _ h2.ne_nil]; exact ih2
  | sum h ih => exact ih
  | mul h1 h2 ih1 ih2 => rw [getLast_tail _ _ h2.ne_nil]; exact ih2
  | div h1 h2 h3 ih1 ih2 => rw [getLast_tail _ _ h2.ne_nil]; exact ih2
  | term h ih => exact ih
  | neg h ih => rw [← List.nil_append (_ :: _), getLast_tail _ _ h.ne_nil]; exact ih
  | pos h ih => rw [← List.nil_append (_ :: _), getLast_tail _ _ h.ne_nil]; exact ih
  | factor h ih => exact ih
  | pow k h ih => exact ⟨.int k, by simp [List.getLast?_append], rfl⟩
  | power h ih => exact ih
  | int k => exact ⟨_, rfl, rfl⟩
  | float q => exact ⟨_, rfl, rfl⟩
  | name h => exact ⟨_, rfl, rfl⟩
  | index i h1 h2 => exact ⟨_, rfl, rfl⟩
  | paren h ih => exact ⟨.rpar, by rw [List.getLast?_append]; rfl, rfl⟩

/-- An operator between two texts. -/
theorem times_op {a b : List Tok} (t : Tok) (ht : starts t = false) (ht' : ends t = false) (ha : a ≠ []) (hb : b ≠ []) :
    times (a ++ t :: b) = times a ++ t :: times b := by
  obtain ⟨x, hx⟩ : ∃ x, a.getLast? = some x := ⟨_, List.getLast?_eq_some_getLast ha⟩
  obtain ⟨y, b, rfl⟩ := List.exists_cons_of_ne_nil hb
  rw [times_append hx rfl, ht, Bool.and_false, times_cons, ht', Bool.false_and]
  rfl

theorem times_op_left {b : List Tok} (t : Tok) (ht' : ends t = false) (hb : b ≠ []) : times (t :: b) = t :: times b := by
  obtain ⟨y, b, rfl⟩ := List.exists_cons_of_ne_nil hb
  rw [times_cons, ht', Bool.false_and]
  rfl

/-! ## Texts with a value -/

/-- The text can be read as an expression of the level with the value. -/
def Txt (env : Env K) (n i : Nat) (l : Level) (b d : Bool) (s : Str) (v : K) : Prop := ∃ ts, Lx n i b d s ts ∧ Parses env l (times ts) v

/-- Texts without special properties of their ends. -/
abbrev Txt' (env : Env K) (n i : Nat) (l : Level) (s : Str) (v : K) : Prop := Txt env n i l false false s v

theorem ne_nil_of_times {ts : List Tok} {l : Level} {v : K} (h : Parses env l (times ts) v) : ts ≠ [] := by
  rintro rfl
  exact h.ne_nil rfl

theorem Txt.weaken {l : Level} {b d : Bool} {s : Str} {v : K} (h : Txt env n i l b d s v) : Txt' env n i l s v := by
  obtain ⟨ts, h1, h2⟩ := h
  exact ⟨ts, h1.weaken, h2⟩

theorem Txt.weaken_end {l : Level} {b d : Bool} {s : Str} {v : K} (h : Txt env n i l b d s v) : Txt env n i l b false s v := by
  obtain ⟨ts, h1, h2⟩ := h
  exact ⟨ts, h1.weaken_end, h2⟩

theorem Txt.sum {b d : Bool} {s : Str} {v : K} (h : Txt env n i .term b d s v) : Txt env n i .sum b d s v := by
  obtain ⟨ts, h1, h2⟩ := h
  exact ⟨ts, h1, .sum h2⟩

theorem Txt.factor {b d : Bool} {s : Str} {v : K} (h : Txt env n i .power b d s v) : Txt env n i .factor b d s v := by
  obtain ⟨ts, h1, h2⟩ := h
  exact ⟨ts, h1, .factor h2⟩

theorem Txt.power {b d : Bool} {s : Str} {v : K} (h : Txt env n i .atom b d s v) : Txt env n i .power b d s v := by
  obtain ⟨ts, h1, h2⟩ := h
  exact ⟨ts, h1, .power h2⟩

theorem Txt.term {b d : Bool} {s : Str} {v : K} (h : Txt env n i .factor b d s v) : Txt env n i .term b d s v := by
  obtain ⟨ts, h1, h2⟩ := h
  exact ⟨ts, h1, .term h2⟩

theorem Txt.denotes {l : Level} {b d : Bool} {s : Str} {v : K} (hl : l = .sum) (h : Txt env n i l b d s v) : DenotesEntry env n i s v := by
  subst hl
  obtain ⟨ts, h1, h2⟩ := h
  obtain ⟨l, h3, h4⟩ := h1.lex
  exact ⟨l, ts, h3, h4, h2⟩

theorem txt_nat (k : Nat) : Txt' env n i .atom (natStr k) (k : K) := ⟨_, lx_natStr k, .int k⟩

theorem txt_zero : Txt' env n i .atom "0".toList (0 : K) := by
  have := txt_nat (env := env) (n := n) (i := i) 0
  rwa [Nat.cast_zero] at this

theorem txt_one : Txt' env n i .atom "1".toList (1 : K) := by
  have := txt_nat (env := env) (n := n) (i := i) 1
  rwa [Nat.cast_one] at this

theorem Txt.zero_eq {l : Level} {b d : Bool} {v : K} (h : Txt env n i l b d "0".toList v) : v = 0 := by
  obtain ⟨ts, h1, h2⟩ := h
  rw [h1.unique (lx_natStr 0)] at h2
  rw [show times [.int 0] = [.int 0] from rfl] at h2
  rw [h2.int_eq, Nat.cast_zero]

theorem Txt.one_eq {l : Level} {b d : Bool} {v : K} (h : Txt env n i l b d "1".toList v) : v = 1 := by
  obtain ⟨ts, h1, h2⟩ := h
  rw [h1.unique (lx_natStr 1)] at h2
  rw [show times [.int 1] = [.int 1] from rfl] at h2
  rw [h2.int_eq, Nat.cast_one]

theorem Txt.neg_term {b d : Bool} {s : Str} {v : K} (h : Txt env n i .term b d s v) : Txt env n i .term true d ('-' :: s) (-v) := by
  obtain ⟨ts, h1, h2⟩ := h
  refine ⟨_, lx_neg.append h1 (Or.inl rfl), ?_⟩
  rw [List.cons_append, List.nil_append, times_op_left .minus rfl (ne_nil_of_times h2)]
  exact h2.neg_term rfl

theorem Parses.not_minus_alone {l : Level} {v : K} (h : Parses env l [.minus] v) : False := by
  obtain ⟨t, h1, h2⟩ := Parses.last_ends h
  simp only [List.getLast?_singleton, Option.some.injEq] at h1
  subst h1
  exact absurd h2 (by decide)

theorem Txt.drop_minus {b d : Bool} {s : Str} {v : K} (h : Txt env n i .term b d ('-' :: s) v) : Txt env n i .term false d s (-v) := by
  obtain ⟨ts, h1, h2⟩ := h
  obtain ⟨ts', rfl, h3⟩ := h1.minus_inv
  rcases h3 with rfl | h3
  · exact (Parses.not_minus_alone h2).elim
  · have hne : ts' ≠ [] := by rintro rfl; exact Parses.not_minus_alone h2
    rw [times_op_left .minus rfl hne] at h2
    exact ⟨ts', h3, h2.term_neg (Or.inl rfl) _ rfl⟩

theorem txt_strSum {b d b' d' : Bool} {s t : Str} {u v : K} (ha : Txt env n i .sum b d s u) (hb : Txt env n i .sum b' d' t v) :
    Txt' env n i .sum (strSum s t) (u + v) := by
  unfold strSum
  by_cases h0 : s = "0".toList
  · rw [if_pos h0]
    rw [h0] at ha
    rw [ha.zero_eq, zero_add]
    exact hb.weaken
  rw [if_neg h0]
  by_cases h1 : t = "0".toList
  · rw [if_pos h1]
    rw [h1] at hb
    rw [hb.zero_eq, add_zero]
    exact ha.weaken
  rw [if_neg h1]
  obtain ⟨ta, ha1, ha2⟩ := ha
  obtain ⟨tb, hb1, hb2⟩ := hb
  by_cases h2 : t.head? = some '-'
  · rw [if_pos h2]
    cases t with
    | nil => exact absurd h2 (by simp)
    | cons c t =>
      simp only [List.head?_cons, Option.some.injEq] at h2
      subst h2
      obtain ⟨tb', rfl, h3⟩ := hb1.minus_inv
      rcases h3 with rfl | h3
      · exact (Parses.not_minus_alone hb2).elim
      have hne : tb' ≠ [] := by rintro rfl; exact Parses.not_minus_alone hb2
      rw [times_op_left .minus rfl hne] at hb2
      refine ⟨_, ((ha1.append lx_minus (Or.inr rfl)).append h3 (Or.inl rfl)).weaken, ?_⟩
      rw [List.append_assoc, List.cons_append, List.nil_append, times_op .minus rfl rfl (ne_nil_of_times ha2) hne]
      exact ha2.sub_sum rfl hb2 _ rfl
  · rw [if_neg h2]
    refine ⟨_, ((ha1.append lx_plus (Or.inr rfl)).append hb1 (Or.inl rfl)).weaken, ?_⟩
    rw [List.append_assoc, List.cons_append, List.nil_append, times_op .plus rfl rfl (ne_nil_of_times ha2) (ne_nil_of_times hb2)]
    exact ha2.add_sum rfl hb2

/-- A text that can stand behind a factor, with a blank between them: not a number, and without a sign. -/
def Operand (env : Env K) (n i : Nat) (d : Bool) (s : Str) (v : K) : Prop :=
  ∃ ts t, Lx n i true d s ts ∧ ts.head? = some t ∧ starts t = true ∧ Parses env .term (times ts) v

theorem Operand.txt {d : Bool} {s : Str} {v : K} (h : Operand env n i d s v) : Txt env n i .term true d s v := by
  obtain ⟨ts, t, h1, _, _, h2⟩ := h
  exact ⟨ts, h1, h2⟩

theorem Operand.weaken {d : Bool} {s : Str} {v : K} (h : Operand env n i d s v) : Operand env n i false s v := by
  obtain ⟨ts, t, h1, h2, h3, h4⟩ := h
  exact ⟨ts, t, h1.weaken_end, h2, h3, h4⟩

theorem Parses.starts_of_atom {l : Level} (hl : l = .power ∨ l = .atom) {ts : List Tok} {v : K} (h : Parses env l ts v) :
    ∃ t, ts.head? = some t ∧ starts t = true := by
  induction h with
  | add h1 h2 ih1 ih2 => exact absurd hl (by simp)
  | sub h1 h2 ih1 ih2 => exact absurd hl (by simp)
  | sum h ih => exact absurd hl (by simp)
  | mul h1 h2 ih1 ih2 => exact absurd hl (by simp)
  | div h1 h2 h3 ih1 ih2 => exact absurd hl (by simp)
  | term h ih => exact absurd hl (by simp)
  | neg h ih => exact absurd hl (by simp)
  | pos h ih => exact absurd hl (by simp)
  | factor h ih => exact absurd hl (by simp)
  | pow k h ih =>
    rename_i a _
    obtain ⟨t, h1, h2⟩ := ih (Or.inr rfl)
    exact ⟨t, by cases a <;> simp_all, h2⟩
  | power h ih => exact ih (Or.inr rfl)
  | int k => exact ⟨_, rfl, rfl⟩
  | float q => exact ⟨_, rfl, rfl⟩
  | name h => exact ⟨_, rfl, rfl⟩
  | index i h1 h2 => exact ⟨_, rfl, rfl⟩
  | paren h ih => exact ⟨_, rfl, rfl⟩

theorem Txt.operand {d : Bool} {s : Str} {v : K} (h : Txt env n i .power true d s v) : Operand env n i d s v := by
  obtain ⟨ts, h1, h2⟩ := h
  obtain ⟨t, h3, h4⟩ := Parses.starts_of_atom (Or.inl rfl) h2
  exact ⟨ts, t, h1, by rwa [times_head] at h3, h4, .term (.factor h2)⟩

/-- A product without a sign for it. -/
theorem Txt.juxt {b d d' : Bool} {s t : Str} {u v : K} (ha : Txt env n i .term b d s u) (hb : Operand env n i d' t v) :
    Txt env n i .term b d' (s ++ " ".toList ++ t) (u * v) := by
  obtain ⟨ta, ha1, ha2⟩ := ha
  obtain ⟨tb, t0, hb1, hb2, hb3, hb4⟩ := hb
  obtain ⟨x, hx, hx'⟩ := Parses.last_ends ha2
  rw [times_getLast] at hx
  have h1 := ha1.append hb1.blank (Or.inr rfl)
  refine ⟨_, by simpa using h1, ?_⟩
  rw [times_append hx hb2, hx', hb3]
  exact ha2.mul_term rfl hb4

theorem Operand.juxt {d d' : Bool} {s t : Str} {u v : K} (ha : Operand env n i d s u) (hb : Operand env n i d' t v) :
    Operand env n i d' (s ++ " ".toList ++ t) (u * v) := by
  obtain ⟨ts, h1, h2⟩ := ha.txt.juxt hb
  obtain ⟨ta, x, ha1, ha2, ha3, ha4⟩ := ha
  obtain ⟨tb, t0, hb1, hb2, hb3, hb4⟩ := hb
  have h3 := ha1.append hb1.blank (Or.inr rfl)
  rw [show s ++ ' ' :: t = s ++ " ".toList ++ t by simp] at h3
  refine ⟨ts, x, h1, ?_, ha3, h2⟩
  rw [h1.unique h3, List.head?_append, ha2]
  rfl

/-- The second factor of a product without a sign for it. -/
inductive Rhs (env : Env K) (n i : Nat) : Str → K → Prop where
  | zero : Rhs env n i "0".toList 0
  | one : Rhs env n i "1".toList 1
  | neg {s : Str} {v : K} : Rhs env n i s v → Rhs env n i ('-' :: s) (-v)
  | operand {s : Str} {v : K} : s.head? ≠ some '-' → Operand env n i false s v → Rhs env n i s v

theorem Rhs.txt {s : Str} {v : K} (h : Rhs env n i s v) : Txt' env n i .term s v := by
  induction h with
  | zero => exact txt_zero.power.factor.term
  | one => exact txt_one.power.factor.term
  | neg h ih => exact ih.neg_term.weaken
  | operand h1 h2 => exact h2.txt.weaken

theorem Rhs.drop_minus {s : Str} {v : K} (h : Rhs env n i ('-' :: s) v) : Rhs env n i s (-v) := by
  generalize hs : '-' :: s = t at h
  cases h with
  | zero => exact absurd hs (by simp)
  | one => exact absurd hs (by simp)
  | neg h =>
    rw [List.cons.injEq] at hs
    rw [hs.2, neg_neg]
    exact h
  | operand h1 h2 => exact absurd (by rw [← hs]; rfl) h1

theorem head_minus {s : Str} (h : s.head? = some '-') : ∃ t, s = '-' :: t := by
  cases s with
  | nil => exact absurd h (by simp)
  | cons c s => exact ⟨s, by simp at h; rw [h]⟩

/-- Products without a sign for the multiplication. -/
theorem txt_strProductGo : ∀ (k : Nat) (s t : Str) (u v : K), s.length + t.length < k → Txt' env n i .term s u → Rhs env n i t v →
    Txt' env n i .term (strProductGo [] k s t) (u * v) := by
  intro k
  induction k with
  | zero => intro a b u v h; omega
  | succ k ih =>
    intro a b u v hn ha hb
    unfold strProductGo
    by_cases h0 : a = "0".toList ∨ b = "0".toList
    · rw [if_pos h0]
      have : u * v = 0 := by
        rcases h0 with h0 | h0
        · rw [h0] at ha; rw [ha.zero_eq, zero_mul]
        · rw [h0] at hb; rw [hb.txt.zero_eq, mul_zero]
      rw [this]
      exact txt_zero.power.factor.term
    rw [if_neg h0]
    by_cases h1 : a = "1".toList
    · rw [if_pos h1]
      rw [h1] at ha
      rw [ha.one_eq, one_mul]
      exact hb.txt
    rw [if_neg h1]
    by_cases h2 : b = "1".toList
    · rw [if_pos h2]
      rw [h2] at hb
      rwa [hb.txt.one_eq, mul_one]
    rw [if_neg h2]
    simp only
    by_cases h3 : a.head? = some '-'
    · rw [if_pos h3]
      obtain ⟨a, rfl⟩ := head_minus h3
      simp only [List.length_cons] at hn
      by_cases h4 : b.head? = some '-'
      · rw [if_pos h4]
        obtain ⟨b, rfl⟩ := head_minus h4
        simp only [List.length_cons] at hn
        have := ih a b (-u) (-v) (by omega) ha.drop_minus hb.drop_minus
        rwa [neg_mul_neg] at this
      · rw [if_neg h4]
        have := (ih a b (-u) v (by omega) ha.drop_minus hb).neg_term.weaken
        rwa [neg_mul, neg_neg] at this
    · rw [if_neg h3]
      by_cases h4 : b.head? = some '-'
      · rw [if_pos h4]
        obtain ⟨b, rfl⟩ := head_minus h4
        simp only [List.length_cons] at hn
        have := (ih a b u (-v) (by omega) ha hb.drop_minus).neg_term.weaken
        rwa [mul_neg, neg_neg] at this
      · rw [if_neg h4, if_neg (by simp)]
        cases hb with
        | zero => exact absurd (Or.inr rfl) h0
        | one => exact absurd rfl h2
        | neg h => exact absurd rfl h4
        | operand h5 h6 => exact ha.juxt h6

theorem txt_strProduct {s t : Str} {u v : K} (ha : Txt' env n i .term s u) (hb : Rhs env n i t v) : Txt' env n i .term (strProduct s t []) (u * v) :=
  txt_strProductGo _ s t u v (by omega) ha hb

/-- Products with `\cdot`. -/
theorem txt_strProductGo_cdot : ∀ (k : Nat) (s t : Str) (u v : K), s.length + t.length < k → Txt' env n i .term s u → Txt' env n i .term t v →
    Txt' env n i .term (strProductGo "\\cdot".toList k s t) (u * v) := by
  intro k
  induction k with
  | zero => intro a b u v h; omega
  | succ k ih =>
    intro a b u v hn ha hb
    unfold strProductGo
    by_cases h0 : a = "0".toList ∨ b = "0".toList
    · rw [if_pos h0]
      have : u * v = 0 := by
        rcases h0 with h0 | h0
        · rw [h0] at ha; rw [ha.zero_eq, zero_mul]
        · rw [h0] at hb; rw [hb.zero_eq, mul_zero]
      rw [this]
      exact txt_zero.power.factor.term
    rw [if_neg h0]
    by_cases h1 : a = "1".toList
    · rw [if_pos h1]
      rw [h1] at ha
      rwa [ha.one_eq, one_mul]
    rw [if_neg h1]
    by_cases h2 : b = "1".toList
    · rw [if_pos h2]
      rw [h2] at hb
      rwa [hb.one_eq, mul_one]
    rw [if_neg h2]
    simp only
    by_cases h3 : a.head? = some '-'
    · rw [if_pos h3]
      obtain ⟨a, rfl⟩ := head_minus h3
      simp only [List.length_cons] at hn
      by_cases h4 : b.head? = some '-'
      · rw [if_pos h4]
        obtain ⟨b, rfl⟩ := head_minus h4
        simp only [List.length_cons] at hn
        have := ih a b (-u) (-v) (by omega) ha.drop_minus hb.drop_minus
        rwa [neg_mul_neg] at this
      · rw [if_neg h4]
        have := (ih a b (-u) v (by omega) ha.drop_minus hb).neg_term.weaken
        rwa [neg_mul, neg_neg] at this
    · rw [if_neg h3]
      by_cases h4 : b.head? = some '-'
      · rw [if_pos h4]
        obtain ⟨b, rfl⟩ := head_minus h4
        simp only [List.length_cons] at hn
        have := (ih a b u (-v) (by omega) ha hb.drop_minus).neg_term.weaken
        rwa [mul_neg, neg_neg] at this
      · rw [if_neg h4, if_pos (by decide)]
        obtain ⟨ta, ha1, ha2⟩ := ha
        obtain ⟨tb, hb1, hb2⟩ := hb
        have h5 := (ha1.append lx_cdot (Or.inr rfl)).append hb1 (Or.inl rfl)
        refine ⟨_, by simpa using h5, ?_⟩
        rw [times_op .star rfl rfl (ne_nil_of_times ha2) (ne_nil_of_times hb2)]
        exact ha2.mul_term rfl hb2

theorem txt_strProduct_cdot {s t : Str} {u v : K} (ha : Txt' env n i .term s u) (hb : Txt' env n i .term t v) :
    Txt' env n i .term (strProduct s t "\\cdot".toList) (u * v) := txt_strProductGo_cdot _ s t u v (by omega) ha hb

theorem txt_strMultiSum {l : List Str} {vs : List K} (h : List.Forall₂ (Txt' env n i .sum) l vs) : Txt' env n i .sum (strMultiSum l) vs.sum := by
  have key : ∀ (acc : Str) (u : K), Txt' env n i .sum acc u → Txt' env n i .sum (l.foldl strSum acc) (u + vs.sum) := by
    induction h with
    | nil => intro acc u ha; simpa using ha
    | cons h1 _ ih =>
      intro acc u ha
      rw [List.foldl_cons, List.sum_cons, ← add_assoc]
      exact ih _ _ (txt_strSum ha h1)
  have := key _ _ txt_zero.power.factor.term.sum
  rwa [zero_add] at this

theorem txt_strMultiProduct {l : List Str} {vs : List K} (h : List.Forall₂ (Rhs env n i) l vs) :
    Txt' env n i .term (strMultiProduct l []) vs.prod := by
  have key : ∀ (acc : Str) (u : K), Txt' env n i .term acc u → Txt' env n i .term (l.foldl (fun res v => strProduct res v []) acc) (u * vs.prod) := by
    induction h with
    | nil => intro acc u ha; simpa using ha
    | cons h1 _ ih =>
      intro acc u ha
      rw [List.foldl_cons, List.prod_cons, ← mul_assoc]
      exact ih _ _ (txt_strProduct ha h1)
  have := key _ _ txt_one.power.factor.term
  rwa [one_mul] at this

theorem txt_strDotProduct {a b : List Str} {us vs : List K} (ha : List.Forall₂ (Txt' env n i .term) a us) (hb : List.Forall₂ (Rhs env n i) b vs)
    (hlen : a.length = b.length) :
    ∃ s, strDotProduct a b [] = .ok s ∧ Txt' env n i .sum s (List.zipWith (· * ·) us vs).sum := by
  refine ⟨_, by unfold strDotProduct; rw [decide_eq_true hlen]; rfl, ?_⟩
  have key : ∀ (acc : Str) (w : K), Txt' env n i .sum acc w →
      Txt' env n i .sum ((a.zip b).foldl (fun res e => strSum res (strProduct e.1 e.2 [])) acc) (w + (List.zipWith (· * ·) us vs).sum) := by
    clear hlen
    induction ha generalizing b vs with
    | nil => intro acc w h; simpa using h
    | cons h1 _ ih =>
      cases hb with
      | nil => intro acc w h; simpa using h
      | cons h2 hb =>
        intro acc w h
        rw [List.zip_cons_cons, List.foldl_cons, List.zipWith_cons_cons, List.sum_cons, ← add_assoc]
        exact ih hb _ _ (txt_strSum h (txt_strProduct h1 h2).sum)
  have := key _ _ txt_zero.power.factor.term.sum
  rwa [zero_add] at this

theorem Parses.times_paren {ts : List Tok} {v : K} (h : Parses env .sum (times ts) v) : Parses env .atom (times ([.lpar] ++ ts ++ [.rpar])) v := by
  have hne := ne_nil_of_times h
  obtain ⟨x, hx, hx'⟩ := Parses.last_ends h
  rw [times_getLast] at hx
  have hx2 : ([Tok.lpar] ++ ts).getLast? = some x := by rw [List.getLast?_append, hx]; rfl
  rw [times_append hx2 rfl, show starts .rpar = false from rfl, Bool.and_false, List.cons_append, List.nil_append,
    times_op_left .lpar rfl hne]
  exact .paren h

theorem Txt.paren {b d : Bool} {s : Str} {v : K} (h : Txt env n i .sum b d s v) : Txt env n i .atom true true ("(".toList ++ s ++ ")".toList) v := by
  obtain ⟨ts, h1, h2⟩ := h
  exact ⟨_, (lx_lpar.append h1 (Or.inl rfl)).append lx_rpar (Or.inr rfl), Parses.times_paren h2⟩

end Verif.Latex
