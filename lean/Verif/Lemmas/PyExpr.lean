import Verif.Spec.PyExpr
import Verif.Model.CodeGeneration
import Mathlib.Tactic.Ring
import Mathlib.Tactic.FieldSimp
/-!
# Reading generated text: tokenizing and parsing
-/

namespace Verif.PyExpr
open Verif Verif.Str Verif.CodeGen

/-! ## Scanning -/

theorem scan_nil (st : Scan) : scan st [] = some st := rfl

theorem scan_cons (st : Scan) (c : Char) (s : Str) : scan st (c :: s) = (step st c).bind (fun st' => scan st' s) := rfl

theorem scan_append (st : Scan) (s t : Str) : scan st (s ++ t) = (scan st s).bind (fun st' => scan st' t) := by
  induction s generalizing st with
  | nil => rfl
  | cons c s ih =>
    rw [List.cons_append, scan_cons, scan_cons, Option.bind_assoc]
    congr 1
    funext st'
    exact ih st'

theorem scan_append_some {st st' : Scan} {s : Str} (h : scan st s = some st') (t : Str) : scan st (s ++ t) = scan st' t := by
  rw [scan_append, h]; rfl

theorem step_out (o : List Tok) (st : Scan) (c : Char) :
    step { st with out := o ++ st.out } c = (step st c).map (fun s => { s with out := o ++ s.out }) := by
  unfold step
  cases h : advance st.pend c with
  | some p => simp
  | none =>
    cases h2 : flush st.pend with
    | none => simp
    | some ts =>
      cases h3 : start st.depth c with
      | none => simp [h3]
      | some x => simp [h3]

theorem scan_out (o : List Tok) (st : Scan) (s : Str) :
    scan { st with out := o ++ st.out } s = (scan st s).map (fun s => { s with out := o ++ s.out }) := by
  induction s generalizing st with
  | nil => rfl
  | cons c s ih =>
    rw [scan_cons, scan_cons, step_out]
    cases h : step st c with
    | none => rfl
    | some st' => exact ih st'

theorem start_depth {d : Nat} {c : Char} {ts : List Tok} {d' : Nat} {p : Pend} (h : start d c = some (ts, d', p)) (e : Nat) :
    start (e + d) c = some (ts, e + d', p) := by
  unfold start at h ⊢
  by_cases hc : c.isDigit = true
  · rw [if_pos hc] at h ⊢
    simp only [Option.some.injEq, Prod.mk.injEq] at h ⊢
    obtain ⟨rfl, rfl, rfl⟩ := h
    exact ⟨rfl, by omega, rfl⟩
  rw [if_neg hc] at h ⊢
  clear hc
  by_cases hc : (c.isAlpha || c = '_') = true
  · rw [if_pos hc] at h ⊢
    simp only [Option.some.injEq, Prod.mk.injEq] at h ⊢
    obtain ⟨rfl, rfl, rfl⟩ := h
    exact ⟨rfl, by omega, rfl⟩
  rw [if_neg hc] at h ⊢
  clear hc
  by_cases hc : c = ' '
  · rw [if_pos hc] at h ⊢
    simp only [Option.some.injEq, Prod.mk.injEq] at h ⊢
    obtain ⟨rfl, rfl, rfl⟩ := h
    exact ⟨rfl, by omega, rfl⟩
  rw [if_neg hc] at h ⊢
  clear hc
  by_cases hc : c = '\n'
  · rw [if_pos hc] at h ⊢
    by_cases hd : 0 < d
    · rw [if_pos hd] at h
      rw [if_pos (by omega)]
      simp only [Option.some.injEq, Prod.mk.injEq] at h ⊢
      obtain ⟨rfl, rfl, rfl⟩ := h
      exact ⟨rfl, by omega, rfl⟩
    · rw [if_neg hd] at h
      exact absurd h (by simp)
  rw [if_neg hc] at h ⊢
  clear hc
  by_cases hc : c = '+'
  · rw [if_pos hc] at h ⊢
    simp only [Option.some.injEq, Prod.mk.injEq] at h ⊢
    obtain ⟨rfl, rfl, rfl⟩ := h
    exact ⟨rfl, by omega, rfl⟩
  rw [if_neg hc] at h ⊢
  clear hc
  by_cases hc : c = '-'
  · rw [if_pos hc] at h ⊢
    simp only [Option.some.injEq, Prod.mk.injEq] at h ⊢
    obtain ⟨rfl, rfl, rfl⟩ := h
    exact ⟨rfl, by omega, rfl⟩
  rw [if_neg hc] at h ⊢
  clear hc
  by_cases hc : c = '*'
  · rw [if_pos hc] at h ⊢
    simp only [Option.some.injEq, Prod.mk.injEq] at h ⊢
    obtain ⟨rfl, rfl, rfl⟩ := h
    exact ⟨rfl, by omega, rfl⟩
  rw [if_neg hc] at h ⊢
  clear hc
  by_cases hc : c = '/'
  · rw [if_pos hc] at h ⊢
    simp only [Option.some.injEq, Prod.mk.injEq] at h ⊢
    obtain ⟨rfl, rfl, rfl⟩ := h
    exact ⟨rfl, by omega, rfl⟩
  rw [if_neg hc] at h ⊢
  clear hc
  by_cases hc : c = '('
  · rw [if_pos hc] at h ⊢
    simp only [Option.some.injEq, Prod.mk.injEq] at h ⊢
    obtain ⟨rfl, rfl, rfl⟩ := h
    exact ⟨rfl, by omega, rfl⟩
  rw [if_neg hc] at h ⊢
  clear hc
  by_cases hc : c = ')'
  · rw [if_pos hc] at h ⊢
    by_cases hd : 0 < d
    · rw [if_pos hd] at h
      rw [if_pos (by omega)]
      simp only [Option.some.injEq, Prod.mk.injEq] at h ⊢
      obtain ⟨rfl, rfl, rfl⟩ := h
      exact ⟨rfl, by omega, rfl⟩
    · rw [if_neg hd] at h
      exact absurd h (by simp)
  rw [if_neg hc] at h ⊢
  clear hc
  by_cases hc : c = '['
  · rw [if_pos hc] at h ⊢
    simp only [Option.some.injEq, Prod.mk.injEq] at h ⊢
    obtain ⟨rfl, rfl, rfl⟩ := h
    exact ⟨rfl, by omega, rfl⟩
  rw [if_neg hc] at h ⊢
  clear hc
  by_cases hc : c = ']'
  · rw [if_pos hc] at h ⊢
    by_cases hd : 0 < d
    · rw [if_pos hd] at h
      rw [if_pos (by omega)]
      simp only [Option.some.injEq, Prod.mk.injEq] at h ⊢
      obtain ⟨rfl, rfl, rfl⟩ := h
      exact ⟨rfl, by omega, rfl⟩
    · rw [if_neg hd] at h
      exact absurd h (by simp)
  rw [if_neg hc] at h ⊢
  clear hc
  by_cases hc : c = ','
  · rw [if_pos hc] at h ⊢
    simp only [Option.some.injEq, Prod.mk.injEq] at h ⊢
    obtain ⟨rfl, rfl, rfl⟩ := h
    exact ⟨rfl, by omega, rfl⟩
  rw [if_neg hc] at h ⊢
  clear hc
  by_cases hc : c = '.'
  · rw [if_pos hc] at h ⊢
    simp only [Option.some.injEq, Prod.mk.injEq] at h ⊢
    obtain ⟨rfl, rfl, rfl⟩ := h
    exact ⟨rfl, by omega, rfl⟩
  rw [if_neg hc] at h ⊢
  clear hc
  exact absurd h (by simp)

theorem step_depth {st st' : Scan} {c : Char} (h : step st c = some st') (e : Nat) :
    step { st with depth := e + st.depth } c = some { st' with depth := e + st'.depth } := by
  unfold step at h ⊢
  cases h1 : advance st.pend c with
  | some p =>
    rw [h1] at h
    simp only [Option.some.injEq] at h
    subst h
    simp
  | none =>
    rw [h1] at h
    simp only at h
    cases h2 : flush st.pend with
    | none => rw [h2] at h; simp at h
    | some ts =>
      rw [h2] at h
      cases h3 : start st.depth c with
      | none => rw [h3] at h; simp at h
      | some x =>
        obtain ⟨ts', d', p⟩ := x
        rw [h3] at h
        have h := Option.some.inj h
        subst h
        simp [start_depth h3 e]

theorem scan_depth {st st' : Scan} {s : Str} (h : scan st s = some st') (e : Nat) :
    scan { st with depth := e + st.depth } s = some { st' with depth := e + st'.depth } := by
  induction s generalizing st with
  | nil =>
    rw [scan_nil] at h
    rw [← Option.some.inj h]
    rfl
  | cons c s ih =>
    rw [scan_cons] at h ⊢
    cases h1 : step st c with
    | none => rw [h1] at h; exact absurd h (by simp)
    | some st1 =>
      rw [h1] at h
      rw [step_depth h1 e]
      exact ih h

/-- The token is complete whatever follows, unless a letter, a digit, an underscore or a point follows. -/
def Pend.Solid : Pend → Prop
  | .star => False
  | .pow => False
  | _ => True

/-- The text consists of the tokens, at any place and depth. -/
def Lx (s : Str) (ts : List Tok) : Prop :=
  ∀ o d, ∃ o' p t, scan ⟨o, d, .idle⟩ s = some ⟨o ++ o', d, p⟩ ∧ flush p = some t ∧ p.Solid ∧ ts = o' ++ t

/-- The characters that end a token. -/
def Delim (c : Char) : Prop := c.isAlphanum = false ∧ c ≠ '_' ∧ c ≠ '.'

instance (c : Char) : Decidable (Delim c) := by unfold Delim; infer_instance

theorem digit_alnum {c : Char} (h : c.isDigit = true) : c.isAlphanum = true := by
  unfold Char.isAlphanum; rw [h]; simp

theorem advance_none {p : Pend} {c : Char} {t : List Tok} (hc : Delim c) (hp : p.Solid) (hf : flush p = some t) : advance p c = none := by
  obtain ⟨h1, h2, h3⟩ := hc
  have hd : c.isDigit = false := by
    cases h : c.isDigit with
    | false => rfl
    | true => rw [digit_alnum h] at h1; exact absurd h1 (by simp)
  have he : c ≠ 'e' := by rintro rfl; exact absurd h1 (by decide)
  cases p <;> simp_all [advance, flush, Pend.Solid]

theorem advance_idle (c : Char) : advance .idle c = none := rfl

theorem Lx.next {s : Str} {ts : List Tok} (h : Lx s ts) {c : Char} (hc : Delim c) (rest : Str) (o : List Tok) (d : Nat) :
    scan ⟨o, d, .idle⟩ (s ++ c :: rest) = scan ⟨o ++ ts, d, .idle⟩ (c :: rest) := by
  obtain ⟨o', p, t, h1, h2, h3, rfl⟩ := h o d
  rw [scan_append_some h1, scan_cons, scan_cons]
  congr 1
  unfold step
  rw [advance_none hc h3 h2]
  simp only [h2, show flush Pend.idle = some [] from rfl, show advance Pend.idle c = none from rfl]
  cases start d c <;> simp

theorem Lx.tokens {s : Str} {ts : List Tok} (h : Lx s ts) : tokens s = some ts := by
  obtain ⟨o', p, t, h1, h2, -, rfl⟩ := h [] 0
  unfold PyExpr.tokens
  rw [h1]
  simp [h2]

theorem Lx.unique {s : Str} {ts ts' : List Tok} (h : Lx s ts) (h' : Lx s ts') : ts = ts' := by
  have := h.tokens
  rw [h'.tokens] at this
  exact (Option.some.inj this).symm

/-- A text between two others: it starts with a character that ends a token and leaves no token open. -/
def Mid (mid : Str) (tm : List Tok) : Prop := ∃ c cs, mid = c :: cs ∧ Delim c ∧ ∀ o d, scan ⟨o, d, .idle⟩ mid = some ⟨o ++ tm, d, .idle⟩

theorem Lx.mid {a b mid : Str} {ta tb tm : List Tok} (ha : Lx a ta) (hm : Mid mid tm) (hb : Lx b tb) : Lx (a ++ mid ++ b) (ta ++ tm ++ tb) := by
  obtain ⟨c, cs, rfl, hc, hs⟩ := hm
  intro o d
  obtain ⟨o', p, t, h1, h2, h3, rfl⟩ := hb (o ++ ta ++ tm) d
  refine ⟨ta ++ tm ++ o', p, t, ?_, h2, h3, by simp⟩
  rw [List.append_assoc, List.cons_append, ha.next hc, ← List.cons_append, scan_append_some (hs _ _), h1]
  simp

theorem mid_plus : Mid " + ".toList [.plus] := ⟨' ', _, rfl, by decide, fun o d => by simp [scan, step, advance, flush, start]⟩
theorem mid_minus : Mid " - ".toList [.minus] := ⟨' ', _, rfl, by decide, fun o d => by simp [scan, step, advance, flush, start]⟩
theorem mid_star : Mid " * ".toList [.star] := ⟨' ', _, rfl, by decide, fun o d => by simp [scan, step, advance, flush, start]⟩
theorem mid_slash : Mid " / ".toList [.slash] := ⟨' ', _, rfl, by decide, fun o d => by simp [scan, step, advance, flush, start]⟩
theorem mid_comma : Mid ", ".toList [.comma] := ⟨',', _, rfl, by decide, fun o d => by simp [scan, step, advance, flush, start]⟩


/-- Text in brackets. -/
theorem Lx.paren {a : Str} {ta : List Tok} (ha : Lx a ta) : Lx ("(".toList ++ a ++ ")".toList) (.lpar :: ta ++ [.rpar]) := by
  intro o d
  refine ⟨.lpar :: ta ++ [.rpar], .idle, [], ?_, rfl, trivial, by simp⟩
  rw [show "(".toList ++ a ++ ")".toList = '(' :: (a ++ ')' :: []) by simp, scan_cons]
  rw [show step ⟨o, d, .idle⟩ '(' = some ⟨o ++ [.lpar], d + 1, .idle⟩ by simp [step, advance, flush, start], Option.bind_some, ha.next (by decide)]
  simp [scan, step, advance, flush, start]

theorem Lx.minus {a : Str} {ts : List Tok} : Lx ('-' :: a) ts ↔ ∃ ta, ts = .minus :: ta ∧ Lx a ta := by
  have key : ∀ o d, scan ⟨o, d, .idle⟩ ('-' :: a) = scan ⟨o ++ [.minus], d, .idle⟩ a := by
    intro o d
    rw [scan_cons, show step ⟨o, d, .idle⟩ '-' = some ⟨o ++ [.minus], d, .idle⟩ by simp [step, advance, flush, start]]
    rfl
  constructor
  · intro h
    have h0 : ∀ d, ∃ o' p t, scan ⟨[], d, .idle⟩ a = some ⟨o', d, p⟩ ∧ flush p = some t ∧ p.Solid ∧ ts = .minus :: (o' ++ t) := by
      intro d
      obtain ⟨o', p, t, h1, h2, h3, h4⟩ := h [] d
      rw [key, List.nil_append] at h1
      have h5 := scan_out [.minus] ⟨[], d, .idle⟩ a
      rw [List.append_nil] at h5
      rw [h5] at h1
      cases h6 : scan ⟨[], d, .idle⟩ a with
      | none => rw [h6] at h1; exact absurd h1 (by simp)
      | some st =>
        rw [h6] at h1
        obtain ⟨o1, d1, p1⟩ := st
        simp only [Option.map_some, Option.some.injEq, Scan.mk.injEq, List.nil_append] at h1
        obtain ⟨rfl, rfl, rfl⟩ := h1
        exact ⟨o1, p1, t, rfl, h2, h3, by rw [h4]; rfl⟩
    obtain ⟨o0, p0, t0, -, -, -, h4⟩ := h0 0
    refine ⟨o0 ++ t0, h4, fun o d => ?_⟩
    obtain ⟨o', p, t, h1, h2, h3, h5⟩ := h0 d
    refine ⟨o', p, t, ?_, h2, h3, ?_⟩
    · have h6 := scan_out o ⟨[], d, .idle⟩ a
      rw [List.append_nil] at h6
      rw [h6, h1]
      rfl
    · rw [h4] at h5
      exact (List.cons.inj h5).2
  · rintro ⟨ta, rfl, h⟩ o d
    obtain ⟨o', p, t, h1, h2, h3, rfl⟩ := h (o ++ [.minus]) d
    refine ⟨.minus :: o', p, t, ?_, h2, h3, rfl⟩
    rw [key, h1]
    simp

theorem ne_nil_of_lx {s : Str} {t : Tok} {ts : List Tok} (h : Lx s (t :: ts)) : s ≠ [] := by
  rintro rfl
  have := h.tokens
  exact absurd this (by simp [PyExpr.tokens, scan, flush])

/-- A power. -/
theorem Lx.pow {a b : Str} {ta tb : List Tok} (ha : Lx a ta) (hb : Lx b tb) (hne : b ≠ []) : Lx (a ++ "**".toList ++ b) (ta ++ .pow :: tb) := by
  intro o d
  obtain ⟨o', p, t, h1, h2, h3, rfl⟩ := hb (o ++ ta ++ [.pow]) d
  refine ⟨ta ++ .pow :: o', p, t, ?_, h2, h3, by simp⟩
  rw [show a ++ "**".toList ++ b = a ++ '*' :: ('*' :: b) by simp, ha.next (by decide)]
  obtain ⟨c, cs, rfl⟩ := List.exists_cons_of_ne_nil hne
  have h5 : scan ⟨o ++ ta, d, .idle⟩ ('*' :: '*' :: c :: cs) = scan ⟨o ++ ta ++ [.pow], d, .idle⟩ (c :: cs) := by
    rw [scan_cons, show step ⟨o ++ ta, d, .idle⟩ '*' = some ⟨o ++ ta, d, .star⟩ by simp [step, advance, flush, start], Option.bind_some]
    rw [scan_cons, show step ⟨o ++ ta, d, .star⟩ '*' = some ⟨o ++ ta, d, .pow⟩ by simp [step, advance], Option.bind_some]
    rw [scan_cons, scan_cons]
    congr 1
    simp only [step, advance, flush]
    cases start d c <;> simp
  rw [h5, h1]
  simp

/-! ## Numbers and names -/

theorem scan_digits (o : List Tok) (d : Nat) : ∀ (cs : Str) (k : Nat), (∀ c ∈ cs, c.isDigit = true) →
    scan ⟨o, d, .int k⟩ cs = some ⟨o, d, .int (Nat.ofDigitChars 10 cs k)⟩ := by
  intro cs
  induction cs with
  | nil => intro k _; rfl
  | cons c cs ih =>
    intro k h
    have hc := h c List.mem_cons_self
    rw [scan_cons, show step ⟨o, d, .int k⟩ c = some ⟨o, d, .int (10 * k + digit c)⟩ by simp [step, advance, hc], Option.bind_some,
      ih _ (fun c' h' => h c' (List.mem_cons_of_mem _ h'))]
    rfl

theorem scan_natStr (o : List Tok) (d n : Nat) : scan ⟨o, d, .idle⟩ (natStr n) = some ⟨o, d, .int n⟩ := by
  have hd : ∀ c ∈ natStr n, c.isDigit = true := fun c hc => Nat.isDigit_of_mem_toDigits (by omega) (by omega) hc
  have hv := Nat.ofDigitChars_toDigits (b := 10) (n := n) (by omega) (by omega)
  have hne : natStr n ≠ [] := Nat.toDigits_ne_nil
  change Nat.ofDigitChars 10 (natStr n) 0 = n at hv
  generalize natStr n = s at hd hv hne ⊢
  obtain ⟨c, cs, rfl⟩ := List.exists_cons_of_ne_nil hne
  have hc := hd c List.mem_cons_self
  rw [scan_cons, show step ⟨o, d, .idle⟩ c = some ⟨o, d, .int (digit c)⟩ by simp [step, advance, flush, start, hc], Option.bind_some,
    scan_digits _ _ _ _ (fun c' h' => hd c' (List.mem_cons_of_mem _ h'))]
  rw [← hv]
  simp [Nat.ofDigitChars, digit]

theorem lx_natStr (n : Nat) : Lx (natStr n) [.int n] := fun o d => ⟨[], .int n, _, by rw [scan_natStr]; simp, rfl, trivial, rfl⟩

theorem natStr_ne_nil (n : Nat) : natStr n ≠ [] := Nat.toDigits_ne_nil

theorem natStr_inj {n k : Nat} (h : natStr n = natStr k) : n = k := by
  have h1 := lx_natStr n
  rw [h] at h1
  have := h1.unique (lx_natStr k)
  simpa using this

theorem lx_zero : Lx "0".toList [.int 0] := lx_natStr 0
theorem lx_one : Lx "1".toList [.int 1] := lx_natStr 1

theorem lx_letter (c : Char) (hd : c.isDigit = false) (ha : c.isAlpha = true) : Lx [c] [.name [c]] := fun o d =>
  ⟨[], .name [c], _, by simp [scan, step, advance, flush, start, hd, ha], rfl, trivial, rfl⟩

/-- `a[i]`. -/
theorem lx_subscript (c : Char) (hd : c.isDigit = false) (ha : c.isAlpha = true) (i : Nat) :
    Lx ([c] ++ "[".toList ++ natStr i ++ "]".toList) [.name [c], .lbrk, .int i, .rbrk] := by
  intro o d
  refine ⟨[.name [c], .lbrk, .int i, .rbrk], .idle, [], ?_, rfl, trivial, rfl⟩
  rw [show [c] ++ "[".toList ++ natStr i ++ "]".toList = [c] ++ '[' :: (natStr i ++ [']']) by simp, (lx_letter c hd ha).next (by decide), scan_cons,
    show step ⟨o ++ [.name [c]], d, .idle⟩ '[' = some ⟨o ++ [.name [c], .lbrk], d + 1, .idle⟩ by simp [step, advance, flush, start],
    Option.bind_some, scan_append_some (scan_natStr _ _ _)]
  simp [scan, step, advance, flush, start]

/-! ## Grammar -/

variable {K : Type} [Field K] {env : Env K}

theorem Parses.ne_nil {l : Level} {ts : List Tok} {v : K} (h : Parses env l ts v) : ts ≠ [] := by
  induction h <;> simp_all

theorem getLast_tail (a : List Tok) (t : Tok) {b : List Tok} (h : b ≠ []) : (a ++ t :: b).getLast? = b.getLast? := by
  obtain ⟨x, b, rfl⟩ := List.exists_cons_of_ne_nil h
  rw [List.getLast?_append, List.getLast?_cons_cons]
  simp [List.getLast?_cons]

theorem Parses.last {l : Level} {ts : List Tok} {v : K} (h : Parses env l ts v) : ts.getLast? ≠ some .star ∧ ts.getLast? ≠ some .pow := by
  induction h with
  | add h1 h2 ih1 ih2 => rw [getLast_tail _ _ h2.ne_nil]; exact ih2
  | sub h1 h2 ih1 ih2 => rw [getLast_tail _ _ h2.ne_nil]; exact ih2
  | sum h ih => exact ih
  | mul h1 h2 ih1 ih2 => rw [getLast_tail _ _ h2.ne_nil]; exact ih2
  | div h1 h2 h3 ih1 ih2 => rw [getLast_tail _ _ h2.ne_nil]; exact ih2
  | term h ih => exact ih
  | neg h ih => rw [← List.nil_append (_ :: _), getLast_tail _ _ h.ne_nil]; exact ih
  | pos h ih => rw [← List.nil_append (_ :: _), getLast_tail _ _ h.ne_nil]; exact ih
  | factor h ih => exact ih
  | pow k h ih => simp [List.getLast?_append]
  | power h ih => exact ih
  | int k => simp
  | float q => simp
  | name h => simp
  | index i h1 h2 => simp
  | paren h ih => rw [List.getLast?_append]; simp

theorem Parses.int_eq {l : Level} {n : Nat} {v : K} (h : Parses env l [.int n] v) : v = n := by
  generalize hts : [Tok.int n] = ts at h
  induction h with
  | add h1 h2 ih1 ih2 => exact absurd hts (by rename_i a b _ _; have := h1.ne_nil; cases a <;> simp_all)
  | sub h1 h2 ih1 ih2 => exact absurd hts (by rename_i a b _ _; have := h1.ne_nil; cases a <;> simp_all)
  | sum h ih => exact ih hts
  | mul h1 h2 ih1 ih2 => exact absurd hts (by rename_i a b _ _; have := h1.ne_nil; cases a <;> simp_all)
  | div h1 h2 h3 ih1 ih2 => exact absurd hts (by rename_i a b _ _; have := h1.ne_nil; cases a <;> simp_all)
  | term h ih => exact ih hts
  | neg h ih => exact absurd hts (by simp)
  | pos h ih => exact absurd hts (by simp)
  | factor h ih => exact ih hts
  | pow k h ih => exact absurd hts (by rename_i a _; have := h.ne_nil; cases a <;> simp_all)
  | power h ih => exact ih hts
  | int k => simp at hts; rw [hts]
  | float q => exact absurd hts (by simp)
  | name h => exact absurd hts (by simp)
  | index i h1 h2 => exact absurd hts (by simp)
  | paren h ih => exact absurd hts (by simp)

theorem Parses.not_minus {ts : List Tok} {v : K} {l : Level} (hl : l = .power ∨ l = .atom) (h : Parses env l ts v) : ts.head? ≠ some .minus := by
  induction h with
  | add h1 h2 ih1 ih2 => exact absurd hl (by simp)
  | sub h1 h2 ih1 ih2 => exact absurd hl (by simp)
  | sum h ih => exact absurd hl (by simp)
  | mul h1 h2 ih1 ih2 => exact absurd hl (by simp)
  | div h1 h2 h3 ih1 ih2 => exact absurd hl (by simp)
  | term h ih => exact absurd hl (by simp)
  | neg h ih => exact absurd hl (by simp)
  | pos h ih => exact absurd hl (by simp)
  | factor h ih => exact absurd hl (by simp)
  | pow k h ih =>
    rename_i a _
    have := ih (Or.inr rfl)
    have hn := h.ne_nil
    cases a <;> simp_all
  | power h ih => exact ih (Or.inr rfl)
  | int k => simp
  | float q => simp
  | name h => simp
  | index i h1 h2 => simp
  | paren h ih => simp

/-- A leading minus sign can be dropped from a product. -/
theorem Parses.term_neg {l : Level} (hl : l = .term ∨ l = .factor) {ts : List Tok} {v : K} (h : Parses env l ts v) :
    ∀ a, ts = .minus :: a → Parses env l a (-v) := by
  induction h with
  | add h1 h2 ih1 ih2 => exact absurd hl (by simp)
  | sub h1 h2 ih1 ih2 => exact absurd hl (by simp)
  | sum h ih => exact absurd hl (by simp)
  | mul h1 h2 ih1 ih2 =>
    intro a e
    rename_i ta tb u v
    obtain ⟨t, ta', rfl⟩ := List.exists_cons_of_ne_nil h1.ne_nil
    rw [List.cons_append, List.cons.injEq] at e
    obtain ⟨rfl, rfl⟩ := e
    rw [← neg_mul]
    exact Parses.mul (ih1 (Or.inl rfl) _ rfl) h2
  | div h1 h2 h3 ih1 ih2 =>
    intro a e
    rename_i ta tb u v
    obtain ⟨t, ta', rfl⟩ := List.exists_cons_of_ne_nil h1.ne_nil
    rw [List.cons_append, List.cons.injEq] at e
    obtain ⟨rfl, rfl⟩ := e
    rw [← neg_div]
    exact Parses.div (ih1 (Or.inl rfl) _ rfl) h2 h3
  | term h ih => intro a e; exact Parses.term (ih (Or.inr rfl) a e)
  | neg h ih =>
    intro a e
    rw [List.cons.injEq] at e
    rw [← e.2, neg_neg]
    exact h
  | pos h ih => intro a e; exact absurd e (by simp)
  | factor h ih => intro a e; exact absurd (by rw [e]; rfl) (h.not_minus (Or.inl rfl))
  | pow k h ih => exact absurd hl (by simp)
  | power h ih => exact absurd hl (by simp)
  | int k => exact absurd hl (by simp)
  | float q => exact absurd hl (by simp)
  | name h => exact absurd hl (by simp)
  | index i h1 h2 => exact absurd hl (by simp)
  | paren h ih => exact absurd hl (by simp)

/-- Products of products. -/
theorem Parses.mul_term {ta : List Tok} {u : K} (ha : Parses env .term ta u) {l : Level} (hl : l = .term) {tb : List Tok} {v : K}
    (hb : Parses env l tb v) : Parses env .term (ta ++ .star :: tb) (u * v) := by
  induction hb with
  | mul h1 h2 ih1 ih2 =>
    rw [← List.cons_append, ← List.append_assoc, ← mul_assoc]
    exact Parses.mul (ih1 rfl) h2
  | div h1 h2 h3 ih1 ih2 =>
    rw [← List.cons_append, ← List.append_assoc, ← mul_div_assoc]
    exact Parses.div (ih1 rfl) h2 h3
  | term h ih => exact Parses.mul ha h
  | add h1 h2 ih1 ih2 => exact absurd hl (by simp)
  | sub h1 h2 ih1 ih2 => exact absurd hl (by simp)
  | sum h ih => exact absurd hl (by simp)
  | neg h ih => exact absurd hl (by simp)
  | pos h ih => exact absurd hl (by simp)
  | factor h ih => exact absurd hl (by simp)
  | pow k h ih => exact absurd hl (by simp)
  | power h ih => exact absurd hl (by simp)
  | int k => exact absurd hl (by simp)
  | float q => exact absurd hl (by simp)
  | name h => exact absurd hl (by simp)
  | index i h1 h2 => exact absurd hl (by simp)
  | paren h ih => exact absurd hl (by simp)

/-- Sums of sums. -/
theorem Parses.add_sum {ta : List Tok} {u : K} (ha : Parses env .sum ta u) {l : Level} (hl : l = .sum) {tb : List Tok} {v : K}
    (hb : Parses env l tb v) : Parses env .sum (ta ++ .plus :: tb) (u + v) := by
  induction hb with
  | add h1 h2 ih1 ih2 =>
    rw [← List.cons_append, ← List.append_assoc, ← add_assoc]
    exact Parses.add (ih1 rfl) h2
  | sub h1 h2 ih1 ih2 =>
    rw [← List.cons_append, ← List.append_assoc, ← add_sub_assoc]
    exact Parses.sub (ih1 rfl) h2
  | sum h ih => exact Parses.add ha h
  | mul h1 h2 ih1 ih2 => exact absurd hl (by simp)
  | div h1 h2 h3 ih1 ih2 => exact absurd hl (by simp)
  | term h ih => exact absurd hl (by simp)
  | neg h ih => exact absurd hl (by simp)
  | pos h ih => exact absurd hl (by simp)
  | factor h ih => exact absurd hl (by simp)
  | pow k h ih => exact absurd hl (by simp)
  | power h ih => exact absurd hl (by simp)
  | int k => exact absurd hl (by simp)
  | float q => exact absurd hl (by simp)
  | name h => exact absurd hl (by simp)
  | index i h1 h2 => exact absurd hl (by simp)
  | paren h ih => exact absurd hl (by simp)

/-- Sums whose second part starts with a minus sign. -/
theorem Parses.sub_sum {ta : List Tok} {u : K} (ha : Parses env .sum ta u) {l : Level} (hl : l = .sum) {ts : List Tok} {v : K}
    (hb : Parses env l ts v) : ∀ tb, ts = .minus :: tb → Parses env .sum (ta ++ .minus :: tb) (u + v) := by
  induction hb with
  | add h1 h2 ih1 ih2 =>
    intro tb e
    obtain ⟨t, ta', rfl⟩ := List.exists_cons_of_ne_nil h1.ne_nil
    rw [List.cons_append, List.cons.injEq] at e
    obtain ⟨rfl, rfl⟩ := e
    rw [← List.cons_append, ← List.append_assoc, ← add_assoc]
    exact Parses.add (ih1 rfl _ rfl) h2
  | sub h1 h2 ih1 ih2 =>
    intro tb e
    obtain ⟨t, ta', rfl⟩ := List.exists_cons_of_ne_nil h1.ne_nil
    rw [List.cons_append, List.cons.injEq] at e
    obtain ⟨rfl, rfl⟩ := e
    rw [← List.cons_append, ← List.append_assoc, ← add_sub_assoc]
    exact Parses.sub (ih1 rfl _ rfl) h2
  | sum h ih =>
    intro tb e
    have := Parses.sub ha (h.term_neg (Or.inl rfl) tb e)
    rwa [sub_neg_eq_add] at this
  | mul h1 h2 ih1 ih2 => exact absurd hl (by simp)
  | div h1 h2 h3 ih1 ih2 => exact absurd hl (by simp)
  | term h ih => exact absurd hl (by simp)
  | neg h ih => exact absurd hl (by simp)
  | pos h ih => exact absurd hl (by simp)
  | factor h ih => exact absurd hl (by simp)
  | pow k h ih => exact absurd hl (by simp)
  | power h ih => exact absurd hl (by simp)
  | int k => exact absurd hl (by simp)
  | float q => exact absurd hl (by simp)
  | name h => exact absurd hl (by simp)
  | index i h1 h2 => exact absurd hl (by simp)
  | paren h ih => exact absurd hl (by simp)

/-- A sum without plus and minus signs is a product. -/
theorem Parses.term_of_sum {ts : List Tok} {v : K} (h : Parses env .sum ts v) (hp : Tok.plus ∉ ts) (hm : Tok.minus ∉ ts) : Parses env .term ts v := by
  cases h with
  | add h1 h2 => exact absurd (by simp) hp
  | sub h1 h2 => exact absurd (by simp) hm
  | sum h => exact h


/-! ## Texts with a value -/

/-- The text can be read, at any place, as an expression of the level with the value. -/
def Txt (env : Env K) (l : Level) (s : Str) (v : K) : Prop := ∃ ts, Lx s ts ∧ Parses env l ts v

theorem lx_of_tokens {s : Str} {ts : List Tok} (h : tokens s = some ts) (hlast : ts.getLast? ≠ some .star ∧ ts.getLast? ≠ some .pow) : Lx s ts := by
  unfold tokens at h
  cases h1 : scan ⟨[], 0, .idle⟩ s with
  | none => rw [h1] at h; exact absurd h (by simp)
  | some st =>
    obtain ⟨o', d', p⟩ := st
    rw [h1] at h
    cases h2 : flush p with
    | none => simp [h2] at h
    | some t =>
      simp only [Option.bind_eq_bind, Option.bind_some, h2] at h
      by_cases hd : d' = 0
      · rw [if_pos hd] at h
        have h := Option.some.inj h
        subst hd
        subst h
        intro o d
        refine ⟨o', p, t, ?_, h2, ?_, rfl⟩
        · have h3 := scan_depth h1 d
          have h4 := scan_out o ⟨[], d, .idle⟩ s
          rw [List.append_nil] at h4
          rw [h4]
          simp only [Nat.add_zero] at h3
          rw [h3]
          rfl
        · cases p <;> simp_all [Pend.Solid, flush, List.getLast?_append] <;> (subst h2; simp at hlast)
      · rw [if_neg hd] at h
        exact absurd h (by simp)

theorem txt_of_denotesTerm {s : Str} {v : K} (h : DenotesTerm env s v) : Txt env .term s v := by
  obtain ⟨ts, h1, h2⟩ := h
  exact ⟨ts, lx_of_tokens h1 h2.last, h2⟩

theorem Txt.denotes {s : Str} {v : K} (h : Txt env .sum s v) : Denotes env s v := by
  obtain ⟨ts, h1, h2⟩ := h
  exact ⟨ts, h1.tokens, h2⟩

theorem Txt.denotesTerm {s : Str} {v : K} (h : Txt env .term s v) : DenotesTerm env s v := by
  obtain ⟨ts, h1, h2⟩ := h
  exact ⟨ts, h1.tokens, h2⟩

theorem Txt.sum {s : Str} {v : K} (h : Txt env .term s v) : Txt env .sum s v := by
  obtain ⟨ts, h1, h2⟩ := h
  exact ⟨ts, h1, .sum h2⟩

theorem Txt.term {s : Str} {v : K} (h : Txt env .atom s v) : Txt env .term s v := by
  obtain ⟨ts, h1, h2⟩ := h
  exact ⟨ts, h1, .term (.factor (.power h2))⟩

theorem Txt.paren {s : Str} {v : K} (h : Txt env .sum s v) : Txt env .atom ("(".toList ++ s ++ ")".toList) v := by
  obtain ⟨ts, h1, h2⟩ := h
  exact ⟨_, h1.paren, .paren h2⟩

theorem txt_nat (n : Nat) : Txt env .atom (natStr n) (n : K) := ⟨_, lx_natStr n, .int n⟩

theorem txt_zero : Txt env .atom "0".toList (0 : K) := by
  have := txt_nat (env := env) 0
  rwa [Nat.cast_zero] at this

theorem txt_one : Txt env .atom "1".toList (1 : K) := by
  have := txt_nat (env := env) 1
  rwa [Nat.cast_one] at this

theorem Txt.zero_eq {l : Level} {v : K} (h : Txt env l "0".toList v) : v = 0 := by
  obtain ⟨ts, h1, h2⟩ := h
  rw [h1.unique lx_zero] at h2
  rw [h2.int_eq, Nat.cast_zero]

theorem Txt.one_eq {l : Level} {v : K} (h : Txt env l "1".toList v) : v = 1 := by
  obtain ⟨ts, h1, h2⟩ := h
  rw [h1.unique lx_one] at h2
  rw [h2.int_eq, Nat.cast_one]

theorem Txt.neg {s : Str} {v : K} (h : Txt env .factor s v) : Txt env .factor ('-' :: s) (-v) := by
  obtain ⟨ts, h1, h2⟩ := h
  exact ⟨_, Lx.minus.2 ⟨ts, rfl, h1⟩, .neg h2⟩

theorem Txt.factor {s : Str} {v : K} (h : Txt env .atom s v) : Txt env .factor s v := by
  obtain ⟨ts, h1, h2⟩ := h
  exact ⟨ts, h1, .factor (.power h2)⟩

theorem Txt.termOf {s : Str} {v : K} (h : Txt env .factor s v) : Txt env .term s v := by
  obtain ⟨ts, h1, h2⟩ := h
  exact ⟨ts, h1, .term h2⟩

/-- A sign before a product. -/
theorem Parses.neg_term {l : Level} (hl : l = .term) {ts : List Tok} {v : K} (h : Parses env l ts v) : Parses env .term (.minus :: ts) (-v) := by
  induction h with
  | mul h1 h2 ih1 ih2 =>
    rw [← List.cons_append, ← neg_mul]
    exact Parses.mul (ih1 rfl) h2
  | div h1 h2 h3 ih1 ih2 =>
    rw [← List.cons_append, ← neg_div]
    exact Parses.div (ih1 rfl) h2 h3
  | term h ih => exact .term (.neg h)
  | add h1 h2 ih1 ih2 => exact absurd hl (by simp)
  | sub h1 h2 ih1 ih2 => exact absurd hl (by simp)
  | sum h ih => exact absurd hl (by simp)
  | neg h ih => exact absurd hl (by simp)
  | pos h ih => exact absurd hl (by simp)
  | factor h ih => exact absurd hl (by simp)
  | pow k h ih => exact absurd hl (by simp)
  | power h ih => exact absurd hl (by simp)
  | int k => exact absurd hl (by simp)
  | float q => exact absurd hl (by simp)
  | name h => exact absurd hl (by simp)
  | index i h1 h2 => exact absurd hl (by simp)
  | paren h ih => exact absurd hl (by simp)

theorem Txt.neg_term {s : Str} {v : K} (h : Txt env .term s v) : Txt env .term ('-' :: s) (-v) := by
  obtain ⟨ts, h1, h2⟩ := h
  exact ⟨_, Lx.minus.2 ⟨ts, rfl, h1⟩, h2.neg_term rfl⟩

theorem Txt.drop_minus {s : Str} {v : K} (h : Txt env .term s v) (hs : s.head? = some '-') : Txt env .term (s.drop 1) (-v) := by
  obtain ⟨ts, h1, h2⟩ := h
  cases s with
  | nil => exact absurd hs (by simp)
  | cons c s =>
    simp only [List.head?_cons, Option.some.injEq] at hs
    subst hs
    obtain ⟨ta, rfl, h3⟩ := Lx.minus.1 h1
    exact ⟨ta, h3, h2.term_neg (Or.inl rfl) ta rfl⟩

theorem txt_strSum {a b : Str} {u v : K} (ha : Txt env .sum a u) (hb : Txt env .sum b v) : Txt env .sum (strSum a b) (u + v) := by
  unfold strSum
  by_cases h0 : a = "0".toList
  · rw [if_pos h0]
    rw [h0] at ha
    rwa [ha.zero_eq, zero_add]
  rw [if_neg h0]
  by_cases h1 : b = "0".toList
  · rw [if_pos h1]
    rw [h1] at hb
    rwa [hb.zero_eq, add_zero]
  rw [if_neg h1]
  obtain ⟨ta, ha1, ha2⟩ := ha
  obtain ⟨tb, hb1, hb2⟩ := hb
  by_cases h2 : b.head? = some '-'
  · rw [if_pos h2]
    cases b with
    | nil => exact absurd h2 (by simp)
    | cons c b =>
      simp only [List.head?_cons, Option.some.injEq] at h2
      subst h2
      obtain ⟨tb', rfl, h3⟩ := Lx.minus.1 hb1
      have h4 := ha1.mid mid_minus h3
      refine ⟨_, h4, ?_⟩
      rw [List.append_assoc]
      exact ha2.sub_sum rfl hb2 tb' rfl
  · rw [if_neg h2]
    refine ⟨_, ha1.mid mid_plus hb1, ?_⟩
    rw [List.append_assoc]
    exact ha2.add_sum rfl hb2

theorem txt_strProductGo : ∀ (n : Nat) (a b : Str) (u v : K), a.length + b.length < n → Txt env .term a u → Txt env .term b v →
    Txt env .term (strProductGo "*".toList n a b) (u * v) := by
  intro n
  induction n with
  | zero => intro a b u v h; omega
  | succ n ih =>
    intro a b u v hn ha hb
    unfold strProductGo
    by_cases h0 : a = "0".toList ∨ b = "0".toList
    · rw [if_pos h0]
      have : u * v = 0 := by
        rcases h0 with h0 | h0
        · rw [h0] at ha; rw [ha.zero_eq, zero_mul]
        · rw [h0] at hb; rw [hb.zero_eq, mul_zero]
      rw [this]
      exact txt_zero.term
    rw [if_neg h0]
    by_cases h1 : a = "1".toList
    · rw [if_pos h1]
      rw [h1] at ha
      rwa [ha.one_eq, one_mul]
    rw [if_neg h1]
    by_cases h2 : b = "1".toList
    · rw [if_pos h2]
      rw [h2] at hb
      rwa [hb.one_eq, mul_one]
    rw [if_neg h2]
    simp only
    have hlen : ∀ s : Str, s.head? = some '-' → (s.drop 1).length + 1 = s.length := by
      intro s hs
      cases s with
      | nil => exact absurd hs (by simp)
      | cons c s => simp
    by_cases h3 : a.head? = some '-'
    · rw [if_pos h3]
      have la := hlen a h3
      by_cases h4 : b.head? = some '-'
      · rw [if_pos h4]
        have lb := hlen b h4
        have := ih (a.drop 1) (b.drop 1) (-u) (-v) (by omega) (ha.drop_minus h3) (hb.drop_minus h4)
        rwa [neg_mul_neg] at this
      · rw [if_neg h4]
        have := (ih (a.drop 1) b (-u) v (by omega) (ha.drop_minus h3) hb).neg_term
        rwa [neg_mul, neg_neg] at this
    · rw [if_neg h3]
      by_cases h4 : b.head? = some '-'
      · rw [if_pos h4]
        have lb := hlen b h4
        have := (ih a (b.drop 1) u (-v) (by omega) ha (hb.drop_minus h4)).neg_term
        rwa [mul_neg, neg_neg] at this
      · rw [if_neg h4, if_pos (by decide)]
        obtain ⟨ta, ha1, ha2⟩ := ha
        obtain ⟨tb, hb1, hb2⟩ := hb
        refine ⟨_, by simpa using ha1.mid mid_star hb1, ?_⟩
        exact ha2.mul_term rfl hb2

theorem txt_strProduct {a b : Str} {u v : K} (ha : Txt env .term a u) (hb : Txt env .term b v) :
    Txt env .term (strProduct a b "*".toList) (u * v) := txt_strProductGo _ a b u v (by omega) ha hb

theorem txt_strMultiProduct {l : List Str} {vs : List K} (h : List.Forall₂ (Txt env .term) l vs) :
    Txt env .term (strMultiProduct l "*".toList) vs.prod := by
  have key : ∀ (acc : Str) (u : K), Txt env .term acc u → Txt env .term (l.foldl (fun res v => strProduct res v "*".toList) acc) (u * vs.prod) := by
    induction h with
    | nil => intro acc u ha; simpa using ha
    | cons h1 _ ih =>
      intro acc u ha
      rw [List.foldl_cons, List.prod_cons, ← mul_assoc]
      exact ih _ _ (txt_strProduct ha h1)
  have := key _ _ txt_one.term
  rwa [one_mul] at this

theorem txt_strMultiSum {l : List Str} {vs : List K} (h : List.Forall₂ (Txt env .sum) l vs) : Txt env .sum (strMultiSum l) vs.sum := by
  have key : ∀ (acc : Str) (u : K), Txt env .sum acc u → Txt env .sum (l.foldl strSum acc) (u + vs.sum) := by
    induction h with
    | nil => intro acc u ha; simpa using ha
    | cons h1 _ ih =>
      intro acc u ha
      rw [List.foldl_cons, List.sum_cons, ← add_assoc]
      exact ih _ _ (txt_strSum ha h1)
  have := key _ _ txt_zero.term.sum
  rwa [zero_add] at this

theorem txt_strExponent {a : Str} {u : K} (ha : Txt env .atom a u) (n : Nat) : Txt env .term (strExponent a (natStr n)) (u ^ n) := by
  unfold strExponent
  have h0 : natStr n = "0".toList ↔ n = 0 := ⟨fun h => natStr_inj (h.trans (show "0".toList = natStr 0 from rfl)), fun h => by rw [h]; rfl⟩
  have h1 : natStr n = "1".toList ↔ n = 1 := ⟨fun h => natStr_inj (h.trans (show "1".toList = natStr 1 from rfl)), fun h => by rw [h]; rfl⟩
  by_cases hb : a = "0".toList
  · rw [if_pos hb]
    rw [hb] at ha
    rw [ha.zero_eq]
    by_cases hn : natStr n = "0".toList
    · rw [if_pos hn, h0.1 hn, pow_zero]
      exact txt_one.term
    · rw [if_neg hn, zero_pow (fun h => hn (h0.2 h))]
      exact txt_zero.term
  rw [if_neg hb]
  by_cases hn : natStr n = "0".toList
  · rw [if_pos hn, h0.1 hn, pow_zero]
    exact txt_one.term
  rw [if_neg hn]
  by_cases hn1 : natStr n = "1".toList
  · rw [if_pos hn1, h1.1 hn1, pow_one]
    exact ha.term
  rw [if_neg hn1]
  obtain ⟨ta, ha1, ha2⟩ := ha
  exact ⟨_, ha1.pow (lx_natStr n) (natStr_ne_nil n), .term (.factor (.pow n ha2))⟩

theorem txt_strDotProduct {a b : List Str} {us vs : List K} (ha : List.Forall₂ (Txt env .term) a us) (hb : List.Forall₂ (Txt env .term) b vs)
    (hlen : a.length = b.length) :
    ∃ s, strDotProduct a b "*".toList = .ok s ∧ Txt env .sum s (List.zipWith (· * ·) us vs).sum := by
  refine ⟨_, by unfold strDotProduct; rw [decide_eq_true hlen]; rfl, ?_⟩
  have key : ∀ (acc : Str) (w : K), Txt env .sum acc w →
      Txt env .sum ((a.zip b).foldl (fun res e => strSum res (strProduct e.1 e.2 "*".toList)) acc) (w + (List.zipWith (· * ·) us vs).sum) := by
    clear hlen
    induction ha generalizing b vs with
    | nil => intro acc w h; simpa using h
    | cons h1 _ ih =>
      cases hb with
      | nil => intro acc w h; simpa using h
      | cons h2 hb =>
        intro acc w h
        rw [List.zip_cons_cons, List.foldl_cons, List.zipWith_cons_cons, List.sum_cons, ← add_assoc]
        exact ih hb _ _ (txt_strSum h (txt_strProduct h1 h2).sum)
  have := key _ _ txt_zero.term.sum
  rwa [zero_add] at this

end Verif.PyExpr
