import Verif.Lemmas.CodeStr2
/-!
# A function given as text has at most one value
-/

namespace Verif.PyExpr
open Verif Verif.Str

variable {K : Type} [Field K]

/-! ## Brackets -/

/-- The depth of square brackets after a token. -/
def brkStep (d : Nat) : Tok → Option Nat
  | .lbrk => some (d + 1)
  | .rbrk => if 0 < d then some (d - 1) else none
  | _ => some d

/-- The depth of square brackets after tokens. -/
def brk (d : Nat) (ts : List Tok) : Option Nat := ts.foldlM brkStep d

theorem brk_append (d : Nat) (a b : List Tok) : brk d (a ++ b) = (brk d a).bind (fun d => brk d b) := by
  unfold brk
  rw [List.foldlM_append]
  rfl

theorem brk_cons (d : Nat) (t : Tok) (b : List Tok) : brk d (t :: b) = (brkStep d t).bind (fun d => brk d b) := rfl

theorem brk_nil (d : Nat) : brk d [] = some d := rfl

theorem Parses.brk {env : Env K} {l : Level} {ts : List Tok} {v : K} (h : Parses env l ts v) : ∀ d, brk d ts = some d := by
  induction h with
  | add _ _ h1 h2 => intro d; rw [brk_append, h1, Option.bind_some, brk_cons]; exact h2 d
  | sub _ _ h1 h2 => intro d; rw [brk_append, h1, Option.bind_some, brk_cons]; exact h2 d
  | mul _ _ h1 h2 => intro d; rw [brk_append, h1, Option.bind_some, brk_cons]; exact h2 d
  | div _ _ _ h1 h2 => intro d; rw [brk_append, h1, Option.bind_some, brk_cons]; exact h2 d
  | sum _ h => exact h
  | term _ h => exact h
  | factor _ h => exact h
  | power _ h => exact h
  | neg _ h => intro d; rw [brk_cons]; exact h d
  | pos _ h => intro d; rw [brk_cons]; exact h d
  | pow n _ h => intro d; rw [brk_append, h]; rfl
  | int n => intro d; rfl
  | float q => intro d; rfl
  | name h => intro d; rfl
  | index i h => intro d; simp [PyExpr.brk, brkStep]
  | paren _ h => intro d; rw [List.cons_append, brk_cons]; simp only [brkStep, Option.bind_some]; rw [brk_append, h]; rfl

theorem ParsesSeq.brk {env : Env K} {ts : List Tok} {vs : List K} (h : ParsesSeq env ts vs) : ∀ d, brk d ts = some d := by
  induction h with
  | one h => exact h.brk
  | cons h _ ih => intro d; rw [brk_append, h.brk, Option.bind_some, brk_cons]; exact ih d

theorem brk_split {a b a' b' : List Tok} (ha : ∀ d, brk d a = some d) (ha' : ∀ d, brk d a' = some d) (h : a ++ .rbrk :: b = a' ++ .rbrk :: b') :
    a = a' ∧ b = b' := by
  rcases List.append_eq_append_iff.1 h with ⟨c, h1, h2⟩ | ⟨c, h1, h2⟩
  · cases c with
    | nil => simp at h1 h2; exact ⟨h1.symm, h2⟩
    | cons t c =>
      rw [List.cons_append, List.cons.injEq] at h2
      have := ha' 0
      rw [h1, brk_append, ha, Option.bind_some, brk_cons, ← h2.1] at this
      exact absurd this (by simp [brkStep])
  · cases c with
    | nil => simp at h1 h2; exact ⟨h1, h2.symm⟩
    | cons t c =>
      rw [List.cons_append, List.cons.injEq] at h2
      have := ha 0
      rw [h1, brk_append, ha', Option.bind_some, brk_cons, ← h2.1] at this
      exact absurd this (by simp [brkStep])

theorem ParsesRows.unique {env : Env K} {ts : List Tok} {r s : List (List K)} (h : ParsesRows env ts r) (h' : ParsesRows env ts s) : r = s := by
  induction h generalizing s with
  | @one a us h1 =>
    generalize hts : Tok.lbrk :: (a ++ [Tok.rbrk]) = ts at h'
    cases h' with
    | @one a' us' h2 =>
      rw [List.cons.injEq] at hts
      obtain ⟨rfl, -⟩ := brk_split h1.brk h2.brk hts.2
      rw [h1.unique h2]
    | @cons a' b' us' rows' h2 h3 =>
      rw [List.cons.injEq] at hts
      exact absurd (brk_split h1.brk h2.brk hts.2).2 (by simp)
  | @cons a b us rows h1 _ ih =>
    generalize hts : Tok.lbrk :: (a ++ Tok.rbrk :: Tok.comma :: b) = ts at h'
    cases h' with
    | @one a' us' h2 =>
      rw [List.cons.injEq] at hts
      exact absurd (brk_split h1.brk h2.brk hts.2).2 (by simp)
    | @cons a' b' us' rows' h2 h3 =>
      rw [List.cons.injEq] at hts
      obtain ⟨rfl, h4⟩ := brk_split h1.brk h2.brk hts.2
      rw [List.cons.injEq] at h4
      obtain rfl := h4.2
      rw [h1.unique h2, ih h3]

/-! ## Expressions -/

theorem Parses.notDot {env : Env K} {l : Level} {ts : List Tok} {v : K} (h : Parses env l ts v) : Tok.dot ∉ ts := by
  induction h <;> simp_all

theorem Parses.notLbrk {env : Env K} {l : Level} {ts : List Tok} {v : K} (h : Parses env l ts v) : ∀ t, ts ≠ .lbrk :: t := by
  induction h with
  | @add a b u v h _ ih _ => intro t; obtain ⟨x, a, rfl⟩ := List.exists_cons_of_ne_nil h.ne_nil; intro e; rw [List.cons_append, List.cons.injEq] at e; exact ih a (by rw [e.1])
  | @sub a b u v h _ ih _ => intro t; obtain ⟨x, a, rfl⟩ := List.exists_cons_of_ne_nil h.ne_nil; intro e; rw [List.cons_append, List.cons.injEq] at e; exact ih a (by rw [e.1])
  | @mul a b u v h _ ih _ => intro t; obtain ⟨x, a, rfl⟩ := List.exists_cons_of_ne_nil h.ne_nil; intro e; rw [List.cons_append, List.cons.injEq] at e; exact ih a (by rw [e.1])
  | @div a b u v h _ _ ih _ => intro t; obtain ⟨x, a, rfl⟩ := List.exists_cons_of_ne_nil h.ne_nil; intro e; rw [List.cons_append, List.cons.injEq] at e; exact ih a (by rw [e.1])
  | @pow a u n h ih => intro t; obtain ⟨x, a, rfl⟩ := List.exists_cons_of_ne_nil h.ne_nil; intro e; rw [List.cons_append, List.cons.injEq] at e; exact ih a (by rw [e.1])
  | _ => simp_all

theorem ParsesSeq.notLbrk {env : Env K} {ts : List Tok} {vs : List K} (h : ParsesSeq env ts vs) : ∀ t, ts ≠ .lbrk :: t := by
  cases h with
  | one h => exact h.notLbrk
  | @cons a b u us h _ =>
    intro t
    obtain ⟨x, a, rfl⟩ := List.exists_cons_of_ne_nil h.ne_nil
    intro e
    rw [List.cons_append, List.cons.injEq] at e
    exact h.notLbrk a (by rw [e.1])

theorem ParsesSeq.ne_nil {env : Env K} {ts : List Tok} {vs : List K} (h : ParsesSeq env ts vs) : ts ≠ [] := by
  cases h with
  | one h => exact h.ne_nil
  | cons h _ => simp

theorem scan_ident (o : List Tok) (d : Nat) : ∀ (cs n : Str), (∀ c ∈ cs, c.isAlphanum ∨ c = '_') → scan ⟨o, d, .name n⟩ cs = some ⟨o, d, .name (n ++ cs)⟩
  | [], n, _ => by rw [scan_nil, List.append_nil]
  | c :: cs, n, h => by
    have hc : (c.isAlphanum || decide (c = '_')) = true := by
      have := h c (by simp)
      simpa using this
    rw [scan_cons, show step ⟨o, d, .name n⟩ c = some ⟨o, d, .name (n ++ [c])⟩ by simp only [step, advance, hc, if_true], Option.bind_some,
      scan_ident o d cs (n ++ [c]) (fun c' h' => h c' (List.mem_cons_of_mem _ h'))]
    simp

theorem alpha_not_digit {c : Char} (h : c.isAlpha = true ∨ c = '_') : c.isDigit = false := by
  rcases h with h | rfl
  · cases hd : c.isDigit with
    | false => rfl
    | true =>
      exfalso
      simp only [Char.isAlpha, Char.isUpper, Char.isLower, Char.isDigit, Bool.or_eq_true, Bool.and_eq_true, decide_eq_true_eq, ge_iff_le] at h hd
      obtain ⟨h1, h2⟩ := hd
      have h1' := UInt32.le_iff_toNat_le.1 h1
      have h2' := UInt32.le_iff_toNat_le.1 h2
      rcases h with ⟨h3, -⟩ | ⟨h3, -⟩ <;> (have h3' := UInt32.le_iff_toNat_le.1 h3; simp at h1' h2' h3'; omega)
  · rfl

theorem lx_ident {n : Str} (h : IsIdentifier n) : Lx n [.name n] := by
  obtain ⟨⟨c, cs, rfl, hc⟩, ha⟩ := h
  intro o d
  refine ⟨[], .name (c :: cs), _, ?_, rfl, trivial, rfl⟩
  have hs : step ⟨o, d, .idle⟩ c = some ⟨o, d, .name [c]⟩ := by
    have hd := alpha_not_digit hc
    have : (c.isAlpha || decide (c = '_')) = true := by simpa using hc
    simp only [step, advance, flush, start, hd, this, if_true]
    simp
  rw [scan_cons, hs, Option.bind_some, scan_ident o d cs [c] (fun c' h' => ha c' (List.mem_cons_of_mem _ h'))]
  simp

/-- The tokens of an affine expression. -/
theorem tokens_affine {a y b : Str} (ha : IsIdentifier a) (hy : IsIdentifier y) (hb : IsIdentifier b) :
    tokens ("np.dot(".toList ++ a ++ ", ".toList ++ y ++ ") + ".toList ++ b) =
      some [.name "np".toList, .dot, .name "dot".toList, .lpar, .name a, .comma, .name y, .rpar, .plus, .name b] := by
  have h1 : ∀ rest : Str, scan ⟨[], 0, .idle⟩ ("np.dot(".toList ++ rest) = scan ⟨[.name "np".toList, .dot, .name "dot".toList, .lpar], 1, .idle⟩ rest := by
    intro rest
    rw [scan_append, show scan ⟨[], 0, .idle⟩ "np.dot(".toList = some ⟨[.name "np".toList, .dot, .name "dot".toList, .lpar], 1, .idle⟩ by
      simp [scan, step, advance, flush, start]]
    rfl
  unfold tokens
  rw [List.append_assoc, List.append_assoc, List.append_assoc, List.append_assoc, h1, show ", ".toList ++ (y ++ (") + ".toList ++ b)) = ',' :: ' ' :: (y ++ (") + ".toList ++ b)) from rfl,
    (lx_ident ha).next (by decide)]
  rw [scan_cons, show ∀ o : List Tok, step ⟨o, 1, .idle⟩ ',' = some ⟨o ++ [.comma], 1, .idle⟩ by intro o; simp [step, advance, flush, start], Option.bind_some,
    scan_cons, show ∀ o : List Tok, step ⟨o, 1, .idle⟩ ' ' = some ⟨o, 1, .idle⟩ by intro o; simp [step, advance, flush, start], Option.bind_some,
    show ") + ".toList ++ b = ')' :: (" + ".toList ++ b) from rfl, (lx_ident hy).next (by decide),
    scan_cons, show ∀ o : List Tok, step ⟨o, 1, .idle⟩ ')' = some ⟨o ++ [.rpar], 0, .idle⟩ by intro o; simp [step, advance, flush, start], Option.bind_some,
    show " + ".toList ++ b = ' ' :: '+' :: ' ' :: b from rfl, scan_cons, show ∀ o : List Tok, step ⟨o, 0, .idle⟩ ' ' = some ⟨o, 0, .idle⟩ by intro o; simp [step, advance, flush, start],
    Option.bind_some, scan_cons, show ∀ o : List Tok, step ⟨o, 0, .idle⟩ '+' = some ⟨o ++ [.plus], 0, .idle⟩ by intro o; simp [step, advance, flush, start], Option.bind_some,
    scan_cons, show ∀ o : List Tok, step ⟨o, 0, .idle⟩ ' ' = some ⟨o, 0, .idle⟩ by intro o; simp [step, advance, flush, start], Option.bind_some]
  obtain ⟨o', p, t, h2, h3, -, h4⟩ := lx_ident hb ([Tok.name "np".toList, .dot, .name "dot".toList, .lpar] ++ [.name a] ++ [.comma] ++ [.name y] ++ [.rpar] ++ [.plus]) 0
  rw [h2]
  simp only [Option.bind_eq_bind, Option.bind_some, h3, if_true]
  rw [List.append_assoc, ← h4]
  rfl

theorem Evaluates.tokens {σ : Scope K} {s : Str} {v : Value K} (h : Evaluates σ s v) : ∃ ts, tokens s = some ts := by
  cases h with
  | num h => exact ⟨_, h.choose_spec.1⟩
  | array h => exact ⟨_, h.choose_spec.1⟩
  | matrix h => exact ⟨_, h.choose_spec.1⟩
  | affine h1 h2 h3 => exact ⟨_, tokens_affine h1 h2 h3⟩

theorem Evaluates.unique {σ : Scope K} {s : Str} {u v : Value K} (h : Evaluates σ s u) (h' : Evaluates σ s v) : u = v := by
  have key : ∀ ts, PyExpr.tokens s = some ts → ∀ w, Evaluates σ s w →
      (∃ x, w = .num x ∧ Parses σ.env .sum ts x) ∨
      (∃ l t, w = .array l ∧ ts = [.name "np".toList, .dot, .name "array".toList, .lpar, .lbrk] ++ t ++ [.rbrk, .rpar] ∧ ParsesSeq σ.env t l) ∨
      (∃ l t, w = .matrix l ∧ ts = [.name "np".toList, .dot, .name "array".toList, .lpar, .lbrk] ++ t ++ [.rbrk, .rpar] ∧ ParsesRows σ.env t l) ∨
      (∃ a y b rows v' w', w = .array (affineValue rows v' w') ∧
        ts = [.name "np".toList, .dot, .name "dot".toList, .lpar, .name a, .comma, .name y, .rpar, .plus, .name b] ∧
        σ a = some (.matrix rows) ∧ σ y = some (.array v') ∧ σ b = some (.array w')) := by
    intro ts hts w hw
    cases hw with
    | num h =>
      obtain ⟨t, h1, h2⟩ := h
      rw [hts] at h1
      obtain rfl := Option.some.inj h1
      exact Or.inl ⟨_, rfl, h2⟩
    | array h =>
      obtain ⟨t, h1, h2⟩ := h
      rw [hts] at h1
      exact Or.inr (Or.inl ⟨_, t, rfl, Option.some.inj h1, h2⟩)
    | matrix h =>
      obtain ⟨t, h1, h2⟩ := h
      rw [hts] at h1
      exact Or.inr (Or.inr (Or.inl ⟨_, t, rfl, Option.some.inj h1, h2⟩))
    | affine h1 h2 h3 h4 h5 h6 =>
      rw [tokens_affine h1 h2 h3] at hts
      exact Or.inr (Or.inr (Or.inr ⟨_, _, _, _, _, _, rfl, (Option.some.inj hts).symm, h4, h5, h6⟩))
  obtain ⟨ts, hts⟩ := h.tokens
  have hrows : ∀ {t : List Tok} {l : List (List K)}, ParsesRows σ.env t l → ∃ t', t = .lbrk :: t' := by
    intro t l h
    cases h with
    | one _ => exact ⟨_, rfl⟩
    | cons _ _ => exact ⟨_, rfl⟩
  rcases key ts hts u h with ⟨x, rfl, h1⟩ | ⟨l, t, rfl, h0, h1⟩ | ⟨l, t, rfl, h0, h1⟩ | ⟨a, y, b, rows, v1, w1, rfl, h0, h1, h2, h3⟩ <;>
  rcases key ts hts v h' with ⟨x', rfl, k1⟩ | ⟨l', t', rfl, k0, k1⟩ | ⟨l', t', rfl, k0, k1⟩ | ⟨a', y', b', rows', v1', w1', rfl, k0, k1, k2, k3⟩
  · rw [h1.unique k1]
  · exact absurd (by rw [k0]; simp) h1.notDot
  · exact absurd (by rw [k0]; simp) h1.notDot
  · exact absurd (by rw [k0]; simp) h1.notDot
  · exact absurd (by rw [h0]; simp) k1.notDot
  · rw [h0, List.append_cancel_right_eq, List.append_cancel_left_eq] at k0
    subst k0
    rw [h1.unique k1]
  · rw [h0, List.append_cancel_right_eq, List.append_cancel_left_eq] at k0
    subst k0
    obtain ⟨t', rfl⟩ := hrows k1
    exact absurd rfl (h1.notLbrk _)
  · rw [h0] at k0
    simp at k0
  · exact absurd (by rw [h0]; simp) k1.notDot
  · rw [h0, List.append_cancel_right_eq, List.append_cancel_left_eq] at k0
    subst k0
    obtain ⟨t', rfl⟩ := hrows h1
    exact absurd rfl (k1.notLbrk _)
  · rw [h0, List.append_cancel_right_eq, List.append_cancel_left_eq] at k0
    subst k0
    rw [h1.unique k1]
  · rw [h0] at k0
    simp at k0
  · exact absurd (by rw [h0]; simp) k1.notDot
  · rw [h0] at k0
    simp at k0
  · rw [h0] at k0
    simp at k0
  · rw [h0] at k0
    simp only [List.cons.injEq, Tok.name.injEq, and_true, true_and] at k0
    obtain ⟨rfl, rfl, rfl⟩ := k0
    rw [h1] at k1
    rw [h2] at k2
    rw [h3] at k3
    simp only [Option.some.injEq, Value.matrix.injEq, Value.array.injEq] at k1 k2 k3
    rw [k1, k2, k3]

/-! ## Statements -/

theorem tokens_line {s t u u' : Str} {ts ts' : List Tok} (hs : tokens s = some ts) (ht : tokens t = some ts') (h : s ++ '\n' :: u = t ++ '\n' :: u') :
    s = t ∧ u = u' := by
  have key : ∀ {s c : Str} {ts ts' : List Tok}, tokens s = some ts → tokens (s ++ '\n' :: c) = some ts' → False := by
    intro s c ts ts' h1 h2
    unfold tokens at h1 h2
    cases h3 : scan ⟨[], 0, .idle⟩ s with
    | none => rw [h3] at h1; exact absurd h1 (by simp)
    | some st =>
      rw [h3] at h1
      rw [scan_append_some h3, scan_cons] at h2
      cases h4 : flush st.pend with
      | none => simp [h4] at h1
      | some t =>
        simp only [h4, Option.bind_eq_bind, Option.bind_some] at h1
        split_ifs at h1 with h5
        have : step st '\n' = none := by
          unfold step
          rw [advance_newline]
          simp only [h4, h5]
          simp [start]
        rw [this] at h2
        simp at h2
  rcases List.append_eq_append_iff.1 h with ⟨c, h1, h2⟩ | ⟨c, h1, h2⟩
  · cases c with
    | nil => simp at h1 h2; exact ⟨h1.symm, h2⟩
    | cons x c =>
      rw [List.cons_append, List.cons.injEq] at h2
      rw [h1, ← h2.1] at ht
      exact (key hs ht).elim
  · cases c with
    | nil => simp at h1 h2; exact ⟨h1, h2.symm⟩
    | cons x c =>
      rw [List.cons_append, List.cons.injEq] at h2
      rw [h1, ← h2.1] at hs
      exact (key ht hs).elim

/-- An identifier is followed by a character that cannot be part of it. -/
theorem ident_split {n n' u u' : Str} {c c' : Char} (hn : IsIdentifier n) (hn' : IsIdentifier n') (hc : ¬(c.isAlphanum ∨ c = '_')) (hc' : ¬(c'.isAlphanum ∨ c' = '_'))
    (h : n ++ c :: u = n' ++ c' :: u') : n = n' ∧ c = c' ∧ u = u' := by
  rcases List.append_eq_append_iff.1 h with ⟨a, h1, h2⟩ | ⟨a, h1, h2⟩
  · cases a with
    | nil => simp at h1 h2; exact ⟨h1.symm, h2⟩
    | cons x a =>
      rw [List.cons_append, List.cons.injEq] at h2
      exact absurd (hn'.2 x (by rw [h1]; simp)) (by rw [← h2.1]; exact hc)
  · cases a with
    | nil => simp at h1 h2; exact ⟨h1, h2.1.symm, h2.2.symm⟩
    | cons x a =>
      rw [List.cons_append, List.cons.injEq] at h2
      exact absurd (hn.2 x (by rw [h1]; simp)) (by rw [← h2.1]; exact hc')

theorem tokens_eq_sign {s : Str} {ts : List Tok} : tokens ('=' :: s) ≠ some ts := by
  unfold tokens
  rw [scan_cons, show step ⟨[], 0, .idle⟩ '=' = none by simp [step, advance, flush, start]]
  simp

theorem Runs.unique {σ : Scope K} {s : Str} {u v : Value K} (h : Runs σ s u) (h' : Runs σ s v) : u = v := by
  have hid : IsIdentifier "return".toList := ⟨⟨'r', "eturn".toList, rfl, Or.inl (by decide)⟩, by decide⟩
  have clash : ∀ {n e e' rest : Str} {ts : List Tok}, IsIdentifier n → tokens e' = some ts →
      "    ".toList ++ n ++ " = ".toList ++ e ++ "\n".toList ++ rest = "    return ".toList ++ e' ++ "\n".toList → False := by
    intro n e e' rest ts hn ht h
    rw [show "    return ".toList = "    ".toList ++ ("return".toList ++ [' ']) from rfl] at h
    simp only [List.append_assoc, List.append_cancel_left_eq] at h
    rw [show " = ".toList = ' ' :: '=' :: [' '] from rfl] at h
    simp only [List.cons_append, List.nil_append] at h
    obtain ⟨-, -, h2⟩ := ident_split hn hid (by decide) (by decide) h
    cases e' with
    | nil => rw [show "\n".toList = ['\n'] from rfl] at h2; simp at h2
    | cons c e' =>
      rw [List.cons_append, List.cons.injEq] at h2
      rw [← h2.1] at ht
      exact tokens_eq_sign ht
  induction h generalizing v with
  | @ret σ e u h =>
    generalize hs : "    return ".toList ++ e ++ "\n".toList = s at h'
    cases h' with
    | @ret _ e' _ h' =>
      simp only [List.append_assoc, List.append_cancel_left_eq, List.append_cancel_right_eq] at hs
      subst hs
      exact h.unique h'
    | @assign _ n e' rest w _ hn _ _ =>
      obtain ⟨ts, hts⟩ := h.tokens
      exact (clash hn hts hs.symm).elim
  | @assign σ n e rest w u hn he _ ih =>
    generalize hs : "    ".toList ++ n ++ " = ".toList ++ e ++ "\n".toList ++ rest = s at h'
    cases h' with
    | @ret _ e' _ h' =>
      obtain ⟨ts, hts⟩ := h'.tokens
      exact (clash hn hts hs).elim
    | @assign _ n' e' rest' w' _ hn' he' hr' =>
      simp only [List.append_assoc, List.append_cancel_left_eq] at hs
      rw [show " = ".toList = ' ' :: '=' :: [' '] from rfl, show "\n".toList = ['\n'] from rfl] at hs
      simp only [List.cons_append, List.nil_append] at hs
      obtain ⟨rfl, -, h2⟩ := ident_split hn hn' (by decide) (by decide) hs
      simp only [List.cons.injEq, true_and] at h2
      obtain ⟨ts, hts⟩ := he.tokens
      obtain ⟨ts', hts'⟩ := he'.tokens
      obtain ⟨rfl, rfl⟩ := tokens_line hts hts' h2
      rw [he.unique he'] at ih
      exact ih hr'

theorem Calls.unique {code fn fn' : Str} {arg u v : Value K} (h : Calls code fn arg u) (h' : Calls code fn' arg v) : fn = fn' ∧ u = v := by
  obtain ⟨q, b, h1, h2, h3, h4⟩ := h
  obtain ⟨q', b', h1', h2', h3', h4'⟩ := h'
  rw [h3] at h3'
  simp only [List.append_assoc, List.append_cancel_left_eq] at h3'
  rw [show "(".toList = ['('] from rfl, show "):\n".toList = ')' :: ":\n".toList from rfl] at h3'
  simp only [List.cons_append, List.nil_append] at h3'
  obtain ⟨rfl, -, h5⟩ := ident_split h1 h1' (by decide) (by decide) h3'
  obtain ⟨rfl, -, h6⟩ := ident_split h2 h2' (by decide) (by decide) h5
  rw [List.append_cancel_left_eq] at h6
  subst h6
  exact ⟨rfl, h4.unique h4'⟩

end Verif.PyExpr
