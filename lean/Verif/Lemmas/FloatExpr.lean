import Mathlib.Tactic.Linarith
import Mathlib.Tactic.Positivity
import Mathlib.Tactic.GCongr
import Verif.Lemmas.FloatExprUnique
import Verif.Lemmas.CodeGeneration3
/-!
# Rounding errors of expressions
-/

namespace Verif.PyExpr
open Verif Verif.Str Verif.CodeGen Verif.Poly Verif.MI

/-! ## Trees and exact values -/

theorem rounded_zero {v c : ℝ} : Rounded 0 v c ↔ c = v := by
  unfold Rounded
  rw [zero_mul, abs_nonpos_iff, sub_eq_zero]

theorem rounded_self {ε v : ℝ} (hε : 0 ≤ ε) : Rounded ε v v := by
  unfold Rounded
  rw [sub_self, abs_zero]
  positivity

theorem Parses.reads {env : Env ℝ} {l : Level} {ts : List Tok} {v : ℝ} (h : Parses env l ts v) : ∃ e, Reads l ts e ∧ FloatVal 0 env e v := by
  induction h with
  | add _ _ iha ihb =>
    obtain ⟨e, h1, h2⟩ := iha
    obtain ⟨f, h3, h4⟩ := ihb
    exact ⟨_, .add h1 h3, .add h2 h4 (rounded_zero.2 rfl)⟩
  | sub _ _ iha ihb =>
    obtain ⟨e, h1, h2⟩ := iha
    obtain ⟨f, h3, h4⟩ := ihb
    exact ⟨_, .sub h1 h3, .sub h2 h4 (rounded_zero.2 rfl)⟩
  | sum _ ih => exact ⟨_, .sum ih.choose_spec.1, ih.choose_spec.2⟩
  | mul _ _ iha ihb =>
    obtain ⟨e, h1, h2⟩ := iha
    obtain ⟨f, h3, h4⟩ := ihb
    exact ⟨_, .mul h1 h3, .mul h2 h4 (rounded_zero.2 rfl)⟩
  | div _ _ hv iha ihb =>
    obtain ⟨e, h1, h2⟩ := iha
    obtain ⟨f, h3, h4⟩ := ihb
    exact ⟨_, .div h1 h3, .div h2 h4 hv (rounded_zero.2 rfl)⟩
  | term _ ih => exact ⟨_, .term ih.choose_spec.1, ih.choose_spec.2⟩
  | neg _ ih => exact ⟨_, .neg ih.choose_spec.1, .neg ih.choose_spec.2⟩
  | pos _ ih => exact ⟨_, .pos ih.choose_spec.1, ih.choose_spec.2⟩
  | factor _ ih => exact ⟨_, .factor ih.choose_spec.1, ih.choose_spec.2⟩
  | pow n _ ih => exact ⟨_, .pow n ih.choose_spec.1, .pow ih.choose_spec.2 (rounded_zero.2 rfl)⟩
  | power _ ih => exact ⟨_, .power ih.choose_spec.1, ih.choose_spec.2⟩
  | int n => exact ⟨_, .int n, .int (rounded_zero.2 rfl)⟩
  | float q => exact ⟨_, .float q, .float (rounded_zero.2 rfl)⟩
  | name h => exact ⟨_, .name _, .name h⟩
  | index i h h' => exact ⟨_, .index _ i, .index h h'⟩
  | paren _ ih => exact ⟨_, .paren ih.choose_spec.1, ih.choose_spec.2⟩

theorem Reads.parses {env : Env ℝ} {l : Level} {ts : List Tok} {e : Expr} (h : Reads l ts e) : ∀ {v : ℝ}, FloatVal 0 env e v → Parses env l ts v := by
  induction h with
  | add _ _ iha ihb => intro v hv; cases hv with | add h1 h2 h3 => rw [rounded_zero.1 h3]; exact .add (iha h1) (ihb h2)
  | sub _ _ iha ihb => intro v hv; cases hv with | sub h1 h2 h3 => rw [rounded_zero.1 h3]; exact .sub (iha h1) (ihb h2)
  | sum _ ih => intro v hv; exact .sum (ih hv)
  | mul _ _ iha ihb => intro v hv; cases hv with | mul h1 h2 h3 => rw [rounded_zero.1 h3]; exact .mul (iha h1) (ihb h2)
  | div _ _ iha ihb => intro v hv; cases hv with | div h1 h2 h0 h3 => rw [rounded_zero.1 h3]; exact .div (iha h1) (ihb h2) h0
  | term _ ih => intro v hv; exact .term (ih hv)
  | neg _ ih => intro v hv; cases hv with | neg h1 => exact .neg (ih h1)
  | pos _ ih => intro v hv; exact .pos (ih hv)
  | factor _ ih => intro v hv; exact .factor (ih hv)
  | pow n _ ih => intro v hv; cases hv with | pow h1 h3 => rw [rounded_zero.1 h3]; exact .pow n (ih h1)
  | power _ ih => intro v hv; exact .power (ih hv)
  | int n => intro v hv; cases hv with | int h3 => rw [rounded_zero.1 h3]; exact .int n
  | float q => intro v hv; cases hv with | float h3 => rw [rounded_zero.1 h3]; exact .float q
  | name s => intro v hv; cases hv with | name h => exact .name h
  | index s i => intro v hv; cases hv with | index h h' => exact .index i h h'
  | paren _ ih => intro v hv; exact .paren (ih hv)

/-! ## The grammar -/

theorem Reads.ne_nil {l : Level} {ts : List Tok} {e : Expr} (h : Reads l ts e) : ts ≠ [] := by
  induction h <;> simp_all

theorem Reads.last {l : Level} {ts : List Tok} {e : Expr} (h : Reads l ts e) : ts.getLast? ≠ some .star ∧ ts.getLast? ≠ some .pow := by
  induction h with
  | add h1 h2 ih1 ih2 => rw [getLast_tail _ _ h2.ne_nil]; exact ih2
  | sub h1 h2 ih1 ih2 => rw [getLast_tail _ _ h2.ne_nil]; exact ih2
  | sum h ih => exact ih
  | mul h1 h2 ih1 ih2 => rw [getLast_tail _ _ h2.ne_nil]; exact ih2
  | div h1 h2 ih1 ih2 => rw [getLast_tail _ _ h2.ne_nil]; exact ih2
  | term h ih => exact ih
  | neg h ih => rw [← List.nil_append (_ :: _), getLast_tail _ _ h.ne_nil]; exact ih
  | pos h ih => rw [← List.nil_append (_ :: _), getLast_tail _ _ h.ne_nil]; exact ih
  | factor h ih => exact ih
  | pow k h ih => simp [List.getLast?_append]
  | power h ih => exact ih
  | int k => simp
  | float q => simp
  | name h => simp
  | index i h1 => simp
  | paren h ih => rw [List.getLast?_append]; simp

theorem Reads.not_minus {ts : List Tok} {e : Expr} {l : Level} (hl : l = .power ∨ l = .atom) (h : Reads l ts e) : ts.head? ≠ some .minus := by
  induction h with
  | pow k h ih =>
    rename_i a _
    have := ih (Or.inr rfl)
    have hn := h.ne_nil
    cases a <;> simp_all
  | power h ih => exact ih (Or.inr rfl)
  | int k => simp
  | float q => simp
  | name h => simp
  | index i h1 => simp
  | paren h ih => simp
  | _ => simp at hl

/-! ## Bounds -/

/-- `Bound ε env e v M d`: `v` is the value of `e` (in exact arithmetic, for the exact coefficients), `M` bounds the sum of the absolute values of its
parts and every number in it is rounded at most `d` times on the way to the result. -/
inductive Bound (ε : ℝ) (env : Env ℝ) : Expr → ℝ → ℝ → Nat → Prop where
  | int {n : Nat} {M : ℝ} {d : Nat} : (n : ℝ) ≤ M → 1 ≤ d → Bound ε env (.int n) n M d
  | float {q : ℚ} {v M : ℝ} {d : Nat} : Rounded ε v q → |v| ≤ M → 2 ≤ d → Bound ε env (.float q) v M d
  | name {s : Str} {v M : ℝ} {d : Nat} : env s = some (.num v) → |v| ≤ M → Bound ε env (.name s) v M d
  | index {s : Str} {i : Nat} {l : List ℝ} {v M : ℝ} {d : Nat} : env s = some (.list l) → l[i]? = some v → |v| ≤ M → Bound ε env (.index s i) v M d
  | neg {e : Expr} {u v M : ℝ} {d : Nat} : Bound ε env e u M d → v = -u → Bound ε env (.neg e) v M d
  | add {e f : Expr} {u w v A B M : ℝ} {d k : Nat} : Bound ε env e u A d → Bound ε env f w B d → v = u + w → A + B ≤ M → d + 1 ≤ k →
      Bound ε env (.add e f) v M k
  | sub {e f : Expr} {u w v A B M : ℝ} {d k : Nat} : Bound ε env e u A d → Bound ε env f w B d → v = u - w → A + B ≤ M → d + 1 ≤ k →
      Bound ε env (.sub e f) v M k
  | mul {e f : Expr} {u w v A B M : ℝ} {d d' k : Nat} : Bound ε env e u A d → Bound ε env f w B d' → v = u * w → A * B ≤ M → d + d' + 1 ≤ k →
      Bound ε env (.mul e f) v M k
  | pow {e : Expr} {n : Nat} {u v A M : ℝ} {d k : Nat} : Bound ε env e u A d → v = u ^ n → A ^ n ≤ M → d * n + 1 ≤ k → Bound ε env (.pow e n) v M k

variable {ε : ℝ} {env : Env ℝ}

theorem Bound.abs_le {e : Expr} {v M : ℝ} {d : Nat} (h : Bound ε env e v M d) : |v| ≤ M := by
  induction h with
  | int h _ => rwa [abs_of_nonneg (Nat.cast_nonneg _)]
  | float _ h _ => exact h
  | name _ h => exact h
  | index _ _ h => exact h
  | neg _ h ih => rw [h, abs_neg]; exact ih
  | add _ _ h hM _ ih1 ih2 => rw [h]; exact (abs_add_le _ _).trans ((add_le_add ih1 ih2).trans hM)
  | sub _ _ h hM _ ih1 ih2 => rw [h]; exact (abs_sub _ _).trans ((add_le_add ih1 ih2).trans hM)
  | mul _ _ h hM _ ih1 ih2 => rw [h, abs_mul]; exact (mul_le_mul ih1 ih2 (abs_nonneg _) ((abs_nonneg _).trans ih1)).trans hM
  | pow _ h hM _ ih => rw [h, abs_pow]; exact (pow_le_pow_left₀ (abs_nonneg _) ih _).trans hM

theorem Bound.nonneg {e : Expr} {v M : ℝ} {d : Nat} (h : Bound ε env e v M d) : 0 ≤ M := (abs_nonneg _).trans h.abs_le

/-- Bounds can be weakened. -/
theorem Bound.mono {e : Expr} {v M : ℝ} {d : Nat} (h : Bound ε env e v M d) : ∀ {M' : ℝ} {d' : Nat}, M ≤ M' → d ≤ d' → Bound ε env e v M' d' := by
  induction h with
  | int h hd => intro M' d' hM' hd'; exact .int (h.trans hM') (hd.trans hd')
  | float h1 h hd => intro M' d' hM' hd'; exact .float h1 (h.trans hM') (hd.trans hd')
  | name h1 h => intro M' d' hM' hd'; exact .name h1 (h.trans hM')
  | index h1 h2 h => intro M' d' hM' hd'; exact .index h1 h2 (h.trans hM')
  | neg _ h ih => intro M' d' hM' hd'; exact .neg (ih hM' hd') h
  | add h1 h2 h hM hd _ _ => intro M' d' hM' hd'; exact .add h1 h2 h (hM.trans hM') (hd.trans hd')
  | sub h1 h2 h hM hd _ _ => intro M' d' hM' hd'; exact .sub h1 h2 h (hM.trans hM') (hd.trans hd')
  | mul h1 h2 h hM hd _ _ => intro M' d' hM' hd'; exact .mul h1 h2 h (hM.trans hM') (hd.trans hd')
  | pow h1 h hM hd _ => intro M' d' hM' hd'; exact .pow h1 h (hM.trans hM') (hd.trans hd')

theorem near_mul {E F a b u w A B : ℝ} (hE : 1 ≤ E) (hF : 1 ≤ F) (hu : |u| ≤ A) (hw : |w| ≤ B) (ha : |a - u| ≤ (E - 1) * A) (hb : |b - w| ≤ (F - 1) * B) :
    |a * b - u * w| ≤ (E * F - 1) * (A * B) := by
  have hA : 0 ≤ A := (abs_nonneg _).trans hu
  have hB : 0 ≤ B := (abs_nonneg _).trans hw
  have hb' : |b| ≤ F * B := by
    have : |b| ≤ |b - w| + |w| := by
      have := abs_add_le (b - w) w
      rwa [sub_add_cancel] at this
    linarith
  have h1 : a * b - u * w = (a - u) * b + u * (b - w) := by ring
  rw [h1]
  have h2 : |(a - u) * b| ≤ ((E - 1) * A) * (F * B) := by
    rw [abs_mul]
    exact mul_le_mul ha hb' (abs_nonneg _) (mul_nonneg (by linarith) hA)
  have h3 : |u * (b - w)| ≤ A * ((F - 1) * B) := by
    rw [abs_mul]
    exact mul_le_mul hu hb (abs_nonneg _) hA
  calc |(a - u) * b + u * (b - w)| ≤ ((E - 1) * A) * (F * B) + A * ((F - 1) * B) := (abs_add_le _ _).trans (add_le_add h2 h3)
    _ = (E * F - 1) * (A * B) := by ring

theorem near_pow {E a u A : ℝ} (hE : 1 ≤ E) (hu : |u| ≤ A) (ha : |a - u| ≤ (E - 1) * A) (n : Nat) : |a ^ n - u ^ n| ≤ (E ^ n - 1) * A ^ n := by
  induction n with
  | zero => simp
  | succ n ih =>
    rw [pow_succ, pow_succ, pow_succ, pow_succ]
    exact near_mul (one_le_pow₀ hE) hE (by rw [abs_pow]; exact pow_le_pow_left₀ (abs_nonneg _) hu n) hu ih ha

theorem near_round {E s v M c : ℝ} (hε : 0 ≤ ε) (hv : |v| ≤ M) (hs : |s - v| ≤ (E - 1) * M) (hc : Rounded ε s c) :
    |c - v| ≤ (E * (1 + ε) - 1) * M := by
  have h1 : |s| ≤ E * M := by
    have : |s| ≤ |s - v| + |v| := by
      have := abs_add_le (s - v) v
      rwa [sub_add_cancel] at this
    linarith
  have h2 : |c - v| ≤ |c - s| + |s - v| := by
    have := abs_add_le (c - s) (s - v)
    rwa [sub_add_sub_cancel] at this
  have h3 : ε * |s| ≤ ε * (E * M) := mul_le_mul_of_nonneg_left h1 hε
  unfold Rounded at hc
  calc |c - v| ≤ ε * (E * M) + (E - 1) * M := by linarith
    _ = (E * (1 + ε) - 1) * M := by ring

theorem one_le_base (hε : 0 ≤ ε) (d : Nat) : 1 ≤ (1 + ε) ^ d := one_le_pow₀ (by linarith)

theorem base_mono (hε : 0 ≤ ε) {d k : Nat} (h : d ≤ k) : (1 + ε) ^ d ≤ (1 + ε) ^ k := pow_le_pow_right₀ (by linarith) h

theorem weaken {t M M' : ℝ} (hε : 0 ≤ ε) {d k : Nat} (hM : M ≤ M') (h0 : 0 ≤ M) (hd : d ≤ k) (h : t ≤ ((1 + ε) ^ d - 1) * M) :
    t ≤ ((1 + ε) ^ k - 1) * M' := by
  have h1 := base_mono hε hd
  have h2 := one_le_base hε d
  exact h.trans (mul_le_mul (by linarith) hM h0 (by linarith))

/-- The error of a floating point evaluation. -/
theorem Bound.error (hε : 0 ≤ ε) {e : Expr} {v M : ℝ} {d : Nat} (h : Bound ε env e v M d) : ∀ {c : ℝ}, FloatVal ε env e c →
    |c - v| ≤ ((1 + ε) ^ d - 1) * M := by
  induction h with
  | int h hd =>
    intro c hc
    cases hc with
    | int hr => exact weaken hε h (Nat.cast_nonneg _) hd (by
        rw [pow_one]
        unfold Rounded at hr
        rw [abs_of_nonneg (Nat.cast_nonneg (α := ℝ) _)] at hr
        linarith)
  | @float q v M d h1 h hd =>
    intro c hc
    cases hc with
    | float hr =>
      refine weaken hε h (abs_nonneg _) hd ?_
      have := near_round (E := 1 + ε) hε (le_refl |v|) (by unfold Rounded at h1; linarith) hr
      rw [pow_two]
      exact this
  | @name s v M d h1 h =>
    intro c hc
    cases hc with
    | name h2 =>
      rw [h1] at h2
      simp only [Option.some.injEq, Val.num.injEq] at h2
      subst h2
      rw [sub_self, abs_zero]
      exact mul_nonneg (by have := one_le_base hε d; linarith) ((abs_nonneg _).trans h)
  | @index s i l v M d h1 h2 h =>
    intro c hc
    cases hc with
    | index h3 h4 =>
      rw [h1] at h3
      simp only [Option.some.injEq, Val.list.injEq] at h3
      subst h3
      rw [h2] at h4
      simp only [Option.some.injEq] at h4
      subst h4
      rw [sub_self, abs_zero]
      exact mul_nonneg (by have := one_le_base hε d; linarith) ((abs_nonneg _).trans h)
  | neg _ h ih =>
    intro c hc
    cases hc with
    | neg h1 =>
      rw [h, neg_sub_neg, abs_sub_comm]
      exact ih h1
  | @add e f u w v A B M d k he hf hv hM hd ih1 ih2 =>
    intro c hc
    cases hc with
    | @add _ _ a b _ h1 h2 hr =>
      refine weaken hε hM (add_nonneg he.nonneg hf.nonneg) hd ?_
      rw [pow_succ, hv]
      refine near_round hε ((abs_add_le _ _).trans (add_le_add he.abs_le hf.abs_le)) ?_ hr
      have := abs_add_le (a - u) (b - w)
      rw [show a - u + (b - w) = a + b - (u + w) by ring] at this
      have h3 := ih1 h1
      have h4 := ih2 h2
      linarith
  | @sub e f u w v A B M d k he hf hv hM hd ih1 ih2 =>
    intro c hc
    cases hc with
    | @sub _ _ a b _ h1 h2 hr =>
      refine weaken hε hM (add_nonneg he.nonneg hf.nonneg) hd ?_
      rw [pow_succ, hv]
      refine near_round hε ((abs_sub _ _).trans (add_le_add he.abs_le hf.abs_le)) ?_ hr
      have := abs_sub (a - u) (b - w)
      rw [show a - u - (b - w) = a - b - (u - w) by ring] at this
      have h3 := ih1 h1
      have h4 := ih2 h2
      linarith
  | @mul e f u w v A B M d d' k he hf hv hM hd ih1 ih2 =>
    intro c hc
    cases hc with
    | @mul _ _ a b _ h1 h2 hr =>
      refine weaken hε hM (mul_nonneg he.nonneg hf.nonneg) hd ?_
      rw [pow_succ, pow_add, hv]
      refine near_round hε ?_ (near_mul (one_le_base hε d) (one_le_base hε d') he.abs_le hf.abs_le (ih1 h1) (ih2 h2)) hr
      rw [abs_mul]
      exact mul_le_mul he.abs_le hf.abs_le (abs_nonneg _) he.nonneg
  | @pow e n u v A M d k he hv hM hd ih =>
    intro c hc
    cases hc with
    | @pow _ _ a _ h1 hr =>
      refine weaken hε hM (pow_nonneg he.nonneg n) hd ?_
      rw [pow_succ, pow_mul, hv]
      refine near_round hε ?_ (near_pow (one_le_base hε d) he.abs_le (ih h1) n) hr
      rw [abs_pow]
      exact pow_le_pow_left₀ (abs_nonneg _) he.abs_le n

/-- Evaluation succeeds. -/
theorem Bound.exists_floatVal (hε : 0 ≤ ε) {e : Expr} {v M : ℝ} {d : Nat} (h : Bound ε env e v M d) : ∃ c, FloatVal ε env e c := by
  induction h with
  | int h hd => exact ⟨_, .int (rounded_self hε)⟩
  | float h1 h hd => exact ⟨_, .float (rounded_self hε)⟩
  | name h1 h => exact ⟨_, .name h1⟩
  | index h1 h2 h => exact ⟨_, .index h1 h2⟩
  | neg _ h ih => exact ⟨_, .neg ih.choose_spec⟩
  | add _ _ _ _ _ ih1 ih2 => exact ⟨_, .add ih1.choose_spec ih2.choose_spec (rounded_self hε)⟩
  | sub _ _ _ _ _ ih1 ih2 => exact ⟨_, .sub ih1.choose_spec ih2.choose_spec (rounded_self hε)⟩
  | mul _ _ _ _ _ ih1 ih2 => exact ⟨_, .mul ih1.choose_spec ih2.choose_spec (rounded_self hε)⟩
  | pow _ _ _ _ ih => exact ⟨_, .pow ih.choose_spec (rounded_self hε)⟩

/-! ## Operations on texts -/

/-- A leading minus sign can be dropped from a product. -/
theorem Reads.term_neg {l : Level} (hl : l = .term ∨ l = .factor) {ts : List Tok} {e : Expr} (h : Reads l ts e) :
    ∀ a, ts = .minus :: a → ∀ {v M : ℝ} {d : Nat}, Bound ε env e v M d → ∃ e', Reads l a e' ∧ Bound ε env e' (-v) M d := by
  induction h with
  | mul h1 h2 ih1 ih2 =>
    intro a ea v M d hb
    rename_i ta tb u w
    obtain ⟨t, ta', rfl⟩ := List.exists_cons_of_ne_nil h1.ne_nil
    rw [List.cons_append, List.cons.injEq] at ea
    obtain ⟨rfl, rfl⟩ := ea
    cases hb with
    | mul hb1 hb2 hv hM hd =>
      obtain ⟨e', h3, h4⟩ := ih1 (Or.inl rfl) _ rfl hb1
      exact ⟨_, .mul h3 h2, .mul h4 hb2 (by rw [hv]; ring) hM hd⟩
  | div h1 h2 ih1 ih2 => intro a ea v M d hb; cases hb
  | term h ih =>
    intro a ea v M d hb
    obtain ⟨e', h3, h4⟩ := ih (Or.inr rfl) a ea hb
    exact ⟨e', .term h3, h4⟩
  | neg h ih =>
    intro a ea v M d hb
    rw [List.cons.injEq] at ea
    rw [← ea.2]
    cases hb with
    | neg hb hv => exact ⟨_, h, by rw [hv, neg_neg]; exact hb⟩
  | pos h ih => intro a ea; exact absurd ea (by simp)
  | factor h ih => intro a ea; exact absurd (by rw [ea]; rfl) (h.not_minus (Or.inl rfl))
  | _ => simp at hl

/-- Products of products. -/
theorem Reads.mul_term {ta : List Tok} {e : Expr} {u A : ℝ} {k : Nat} (ha : Reads .term ta e) (hA : Bound ε env e u A k) {l : Level} (hl : l = .term)
    {tb : List Tok} {f : Expr} (hb : Reads l tb f) : ∀ {v B : ℝ} {d : Nat}, Bound ε env f v B d →
    ∃ g, Reads .term (ta ++ .star :: tb) g ∧ Bound ε env g (u * v) (A * B) (k + d + 1) := by
  induction hb with
  | mul h1 h2 ih1 ih2 =>
    intro v B d hB
    cases hB with
    | mul hb1 hb2 hv hM hd =>
      obtain ⟨g, h3, h4⟩ := ih1 rfl hb1
      rw [← List.cons_append, ← List.append_assoc]
      refine ⟨_, .mul h3 h2, .mul h4 hb2 (by rw [hv]; ring) ?_ (by omega)⟩
      rw [mul_assoc]
      exact mul_le_mul_of_nonneg_left hM hA.nonneg
  | div h1 h2 ih1 ih2 => intro v B d hB; cases hB
  | term h ih => intro v B d hB; exact ⟨_, .mul ha h, .mul hA hB rfl le_rfl le_rfl⟩
  | _ => simp at hl

/-- A sign before a product. -/
theorem Reads.neg_term {l : Level} (hl : l = .term) {ts : List Tok} {e : Expr} (h : Reads l ts e) : ∀ {v M : ℝ} {d : Nat}, Bound ε env e v M d →
    ∃ e', Reads .term (.minus :: ts) e' ∧ Bound ε env e' (-v) M d := by
  induction h with
  | mul h1 h2 ih1 ih2 =>
    intro v M d hb
    cases hb with
    | mul hb1 hb2 hv hM hd =>
      obtain ⟨e', h3, h4⟩ := ih1 rfl hb1
      rw [← List.cons_append]
      exact ⟨_, .mul h3 h2, .mul h4 hb2 (by rw [hv]; ring) hM hd⟩
  | div h1 h2 ih1 ih2 => intro v M d hb; cases hb
  | term h ih => intro v M d hb; exact ⟨_, .term (.neg h), .neg hb rfl⟩
  | _ => simp at hl

theorem Reads.term_of_sum {ts : List Tok} {e : Expr} (h : Reads .sum ts e) (hp : Tok.plus ∉ ts) (hm : Tok.minus ∉ ts) : Reads .term ts e := by
  cases h with
  | add h1 h2 => exact absurd (by simp) hp
  | sub h1 h2 => exact absurd (by simp) hm
  | sum h => exact h

/-- The text can be read, at any place, as an expression of the level with the bounds. -/
def FTxt (ε : ℝ) (env : Env ℝ) (l : Level) (s : Str) (v M : ℝ) (d : Nat) : Prop := ∃ ts e, Lx s ts ∧ Reads l ts e ∧ Bound ε env e v M d

theorem FTxt.mono {l : Level} {s : Str} {v M M' : ℝ} {d d' : Nat} (h : FTxt ε env l s v M d) (hM : M ≤ M') (hd : d ≤ d') : FTxt ε env l s v M' d' := by
  obtain ⟨ts, e, h1, h2, h3⟩ := h
  exact ⟨ts, e, h1, h2, h3.mono hM hd⟩

theorem FTxt.nonneg {l : Level} {s : Str} {v M : ℝ} {d : Nat} (h : FTxt ε env l s v M d) : 0 ≤ M := by
  obtain ⟨ts, e, h1, h2, h3⟩ := h
  exact h3.nonneg

theorem FTxt.sum {s : Str} {v M : ℝ} {d : Nat} (h : FTxt ε env .term s v M d) : FTxt ε env .sum s v M d := by
  obtain ⟨ts, e, h1, h2, h3⟩ := h
  exact ⟨ts, e, h1, .sum h2, h3⟩

theorem FTxt.term {s : Str} {v M : ℝ} {d : Nat} (h : FTxt ε env .atom s v M d) : FTxt ε env .term s v M d := by
  obtain ⟨ts, e, h1, h2, h3⟩ := h
  exact ⟨ts, e, h1, .term (.factor (.power h2)), h3⟩

theorem FTxt.paren {s : Str} {v M : ℝ} {d : Nat} (h : FTxt ε env .sum s v M d) : FTxt ε env .atom ("(".toList ++ s ++ ")".toList) v M d := by
  obtain ⟨ts, e, h1, h2, h3⟩ := h
  exact ⟨_, e, h1.paren, .paren h2, h3⟩

theorem ftxt_zero : FTxt ε env .atom "0".toList 0 0 1 := by
  have h : Bound ε env (.int 0) ((0 : Nat) : ℝ) 0 1 := .int (by simp) le_rfl
  rw [Nat.cast_zero] at h
  exact ⟨_, _, lx_zero, .int 0, h⟩

theorem ftxt_one : FTxt ε env .atom "1".toList 1 1 1 := by
  have h : Bound ε env (.int 1) ((1 : Nat) : ℝ) 1 1 := .int (by simp) le_rfl
  rw [Nat.cast_one] at h
  exact ⟨_, _, lx_one, .int 1, h⟩

theorem FTxt.zero_eq {l : Level} {v M : ℝ} {d : Nat} (h : FTxt ε env l "0".toList v M d) : v = 0 := by
  obtain ⟨ts, e, h1, h2, h3⟩ := h
  rw [h1.unique lx_zero] at h2
  rw [h2.unique (.int 0)] at h3
  cases h3
  exact Nat.cast_zero

theorem FTxt.one_eq {l : Level} {v M : ℝ} {d : Nat} (h : FTxt ε env l "1".toList v M d) : v = 1 ∧ 1 ≤ M := by
  obtain ⟨ts, e, h1, h2, h3⟩ := h
  rw [h1.unique lx_one] at h2
  rw [h2.unique (.int 1)] at h3
  cases h3 with
  | int h _ => exact ⟨Nat.cast_one, by simpa using h⟩

theorem FTxt.neg {s : Str} {v M : ℝ} {d : Nat} (h : FTxt ε env .atom s v M d) : FTxt ε env .term ('-' :: s) (-v) M d := by
  obtain ⟨ts, e, h1, h2, h3⟩ := h
  exact ⟨_, _, Lx.minus.2 ⟨ts, rfl, h1⟩, .term (.neg (.factor (.power h2))), .neg h3 rfl⟩

theorem FTxt.neg_term {s : Str} {v M : ℝ} {d : Nat} (h : FTxt ε env .term s v M d) : FTxt ε env .term ('-' :: s) (-v) M d := by
  obtain ⟨ts, e, h1, h2, h3⟩ := h
  obtain ⟨e', h4, h5⟩ := h2.neg_term rfl h3
  exact ⟨_, _, Lx.minus.2 ⟨ts, rfl, h1⟩, h4, h5⟩

theorem FTxt.drop_minus {s : Str} {v M : ℝ} {d : Nat} (h : FTxt ε env .term s v M d) (hs : s.head? = some '-') : FTxt ε env .term (s.drop 1) (-v) M d := by
  obtain ⟨ts, e, h1, h2, h3⟩ := h
  cases s with
  | nil => exact absurd hs (by simp)
  | cons c s =>
    simp only [List.head?_cons, Option.some.injEq] at hs
    subst hs
    obtain ⟨ta, rfl, h4⟩ := Lx.minus.1 h1
    obtain ⟨e', h5, h6⟩ := h2.term_neg (Or.inl rfl) ta rfl h3
    exact ⟨ta, e', h4, h5, h6⟩

theorem ftxt_strSum {a b : Str} {u v A B : ℝ} {d : Nat} (ha : FTxt ε env .sum a u A d) (hb : FTxt ε env .term b v B d) :
    FTxt ε env .sum (strSum a b) (u + v) (A + B) (d + 1) := by
  have hA := ha.nonneg
  have hB := hb.nonneg
  unfold strSum
  by_cases h0 : a = "0".toList
  · rw [if_pos h0]
    rw [h0] at ha
    rw [ha.zero_eq, zero_add]
    exact hb.sum.mono (by linarith) (by omega)
  rw [if_neg h0]
  by_cases h1 : b = "0".toList
  · rw [if_pos h1]
    rw [h1] at hb
    rw [hb.zero_eq, add_zero]
    exact ha.mono (by linarith) (by omega)
  rw [if_neg h1]
  by_cases h2 : b.head? = some '-'
  · rw [if_pos h2]
    have hb' := hb.drop_minus h2
    obtain ⟨ta, e, ha1, ha2, ha3⟩ := ha
    obtain ⟨tb, f, hb1, hb2, hb3⟩ := hb'
    refine ⟨_, _, ha1.mid mid_minus hb1, ?_, .sub ha3 hb3 (by ring) le_rfl le_rfl⟩
    rw [List.append_assoc]
    exact .sub ha2 hb2
  · rw [if_neg h2]
    obtain ⟨ta, e, ha1, ha2, ha3⟩ := ha
    obtain ⟨tb, f, hb1, hb2, hb3⟩ := hb
    refine ⟨_, _, ha1.mid mid_plus hb1, ?_, .add ha3 hb3 rfl le_rfl le_rfl⟩
    rw [List.append_assoc]
    exact .add ha2 hb2

theorem ftxt_strProductGo : ∀ (n : Nat) (a b : Str) (u v A B : ℝ) (d d' : Nat), a.length + b.length < n → FTxt ε env .term a u A d →
    FTxt ε env .term b v B d' → FTxt ε env .term (strProductGo "*".toList n a b) (u * v) (A * B) (d + d' + 1) := by
  intro n
  induction n with
  | zero => intro a b u v A B d d' h; omega
  | succ n ih =>
    intro a b u v A B d d' hn ha hb
    have hA := ha.nonneg
    have hB := hb.nonneg
    unfold strProductGo
    by_cases h0 : a = "0".toList ∨ b = "0".toList
    · rw [if_pos h0]
      have : u * v = 0 := by
        rcases h0 with h0 | h0
        · rw [h0] at ha; rw [ha.zero_eq, zero_mul]
        · rw [h0] at hb; rw [hb.zero_eq, mul_zero]
      rw [this]
      exact ftxt_zero.term.mono (mul_nonneg hA hB) (by omega)
    rw [if_neg h0]
    by_cases h1 : a = "1".toList
    · rw [if_pos h1]
      rw [h1] at ha
      rw [ha.one_eq.1, one_mul]
      exact hb.mono (le_mul_of_one_le_left hB ha.one_eq.2) (by omega)
    rw [if_neg h1]
    by_cases h2 : b = "1".toList
    · rw [if_pos h2]
      rw [h2] at hb
      rw [hb.one_eq.1, mul_one]
      exact ha.mono (le_mul_of_one_le_right hA hb.one_eq.2) (by omega)
    rw [if_neg h2]
    simp only
    have hlen : ∀ s : Str, s.head? = some '-' → (s.drop 1).length + 1 = s.length := by
      intro s hs
      cases s with
      | nil => exact absurd hs (by simp)
      | cons c s => simp
    by_cases h3 : a.head? = some '-'
    · rw [if_pos h3]
      have la := hlen a h3
      by_cases h4 : b.head? = some '-'
      · rw [if_pos h4]
        have lb := hlen b h4
        have := ih (a.drop 1) (b.drop 1) (-u) (-v) A B d d' (by omega) (ha.drop_minus h3) (hb.drop_minus h4)
        rwa [neg_mul_neg] at this
      · rw [if_neg h4]
        have := (ih (a.drop 1) b (-u) v A B d d' (by omega) (ha.drop_minus h3) hb).neg_term
        rwa [neg_mul, neg_neg] at this
    · rw [if_neg h3]
      by_cases h4 : b.head? = some '-'
      · rw [if_pos h4]
        have lb := hlen b h4
        have := (ih a (b.drop 1) u (-v) A B d d' (by omega) ha (hb.drop_minus h4)).neg_term
        rwa [mul_neg, neg_neg] at this
      · rw [if_neg h4, if_pos (by decide)]
        obtain ⟨ta, e, ha1, ha2, ha3⟩ := ha
        obtain ⟨tb, f, hb1, hb2, hb3⟩ := hb
        obtain ⟨g, h5, h6⟩ := ha2.mul_term ha3 rfl hb2 hb3
        exact ⟨_, g, by simpa using ha1.mid mid_star hb1, h5, h6⟩

theorem ftxt_strProduct {a b : Str} {u v A B : ℝ} {d d' : Nat} (ha : FTxt ε env .term a u A d) (hb : FTxt ε env .term b v B d') :
    FTxt ε env .term (strProduct a b "*".toList) (u * v) (A * B) (d + d' + 1) := ftxt_strProductGo _ a b u v A B d d' (by omega) ha hb

/-- Values with their magnitudes. -/
abbrev VM := ℝ × ℝ

theorem ftxt_strMultiProduct {l : List Str} {vs : List VM} {D : Nat} (h : List.Forall₂ (fun s (v : VM) => FTxt ε env .term s v.1 v.2 D) l vs) :
    FTxt ε env .term (strMultiProduct l "*".toList) (vs.map Prod.fst).prod (vs.map Prod.snd).prod (l.length * (D + 1) + 1) := by
  have key : ∀ (acc : Str) (u A : ℝ) (d : Nat), FTxt ε env .term acc u A d →
      FTxt ε env .term (l.foldl (fun res v => strProduct res v "*".toList) acc) (u * (vs.map Prod.fst).prod) (A * (vs.map Prod.snd).prod)
        (l.length * (D + 1) + d) := by
    induction h with
    | nil => intro acc u A d ha; simpa using ha
    | cons h1 _ ih =>
      intro acc u A d ha
      rw [List.foldl_cons, List.map_cons, List.prod_cons, List.map_cons, List.prod_cons, ← mul_assoc, ← mul_assoc, List.length_cons]
      exact (ih _ _ _ _ (ftxt_strProduct ha h1)).mono le_rfl (by rw [Nat.add_mul]; omega)
  have := key _ _ _ _ ftxt_one.term
  rwa [one_mul, one_mul] at this

theorem ftxt_strMultiSum {l : List Str} {vs : List VM} {D : Nat} (hD : 1 ≤ D) (h : List.Forall₂ (fun s (v : VM) => FTxt ε env .term s v.1 v.2 D) l vs) :
    FTxt ε env .sum (strMultiSum l) (vs.map Prod.fst).sum (vs.map Prod.snd).sum (D + l.length) := by
  have key : ∀ (acc : Str) (u A : ℝ) (d : Nat), D ≤ d → FTxt ε env .sum acc u A d →
      FTxt ε env .sum (l.foldl strSum acc) (u + (vs.map Prod.fst).sum) (A + (vs.map Prod.snd).sum) (d + l.length) := by
    induction h with
    | nil => intro acc u A d _ ha; simpa using ha
    | cons h1 _ ih =>
      intro acc u A d hd ha
      rw [List.foldl_cons, List.map_cons, List.sum_cons, List.map_cons, List.sum_cons, ← add_assoc, ← add_assoc, List.length_cons]
      exact (ih _ _ _ (d + 1) (by omega) (ftxt_strSum ha (h1.mono le_rfl hd))).mono le_rfl (by omega)
  have := key _ _ _ D le_rfl (ftxt_zero.term.sum.mono le_rfl hD)
  rwa [zero_add, zero_add] at this

theorem ftxt_strExponent {a : Str} {u A : ℝ} {d : Nat} (ha : FTxt ε env .atom a u A d) (n : Nat) :
    FTxt ε env .term (strExponent a (natStr n)) (u ^ n) (A ^ n) (d * n + 1) := by
  have hA := ha.nonneg
  unfold strExponent
  have h0 : natStr n = "0".toList ↔ n = 0 := ⟨fun h => natStr_inj (h.trans (show "0".toList = natStr 0 from rfl)), fun h => by rw [h]; rfl⟩
  have h1 : natStr n = "1".toList ↔ n = 1 := ⟨fun h => natStr_inj (h.trans (show "1".toList = natStr 1 from rfl)), fun h => by rw [h]; rfl⟩
  by_cases hb : a = "0".toList
  · rw [if_pos hb]
    rw [hb] at ha
    rw [ha.zero_eq]
    by_cases hn : natStr n = "0".toList
    · rw [if_pos hn, h0.1 hn, pow_zero, pow_zero]
      exact ftxt_one.term.mono le_rfl (by omega)
    · rw [if_neg hn, zero_pow (fun h => hn (h0.2 h))]
      exact ftxt_zero.term.mono (pow_nonneg hA n) (by omega)
  rw [if_neg hb]
  by_cases hn : natStr n = "0".toList
  · rw [if_pos hn, h0.1 hn, pow_zero, pow_zero]
    exact ftxt_one.term.mono le_rfl (by omega)
  rw [if_neg hn]
  by_cases hn1 : natStr n = "1".toList
  · rw [if_pos hn1, h1.1 hn1, pow_one, pow_one]
    exact ha.term.mono le_rfl (by omega)
  rw [if_neg hn1]
  obtain ⟨ta, e, ha1, ha2, ha3⟩ := ha
  exact ⟨_, _, ha1.pow (lx_natStr n) (natStr_ne_nil n), .term (.factor (.pow n ha2)), .pow ha3 rfl le_rfl le_rfl⟩

theorem ftxt_strDotProduct {a b : List Str} {us vs : List VM} {d d' : Nat} (ha : List.Forall₂ (fun s (v : VM) => FTxt ε env .term s v.1 v.2 d) a us)
    (hb : List.Forall₂ (fun s (v : VM) => FTxt ε env .term s v.1 v.2 d') b vs) (hlen : a.length = b.length) :
    ∃ s, strDotProduct a b "*".toList = .ok s ∧ FTxt ε env .sum s (List.zipWith (fun (u v : VM) => u.1 * v.1) us vs).sum
      (List.zipWith (fun (u v : VM) => u.2 * v.2) us vs).sum (a.length + d + d' + 1) := by
  refine ⟨_, by unfold strDotProduct; rw [decide_eq_true hlen]; rfl, ?_⟩
  have key : ∀ (acc : Str) (w W : ℝ) (k : Nat), d + d' + 1 ≤ k → FTxt ε env .sum acc w W k →
      FTxt ε env .sum ((a.zip b).foldl (fun res e => strSum res (strProduct e.1 e.2 "*".toList)) acc)
        (w + (List.zipWith (fun (u v : VM) => u.1 * v.1) us vs).sum) (W + (List.zipWith (fun (u v : VM) => u.2 * v.2) us vs).sum) (k + a.length) := by
    clear hlen
    induction ha generalizing b vs with
    | nil => intro acc w W k _ h; simpa using h
    | cons h1 _ ih =>
      cases hb with
      | nil => intro acc w W k _ h; simpa using h.mono le_rfl (by omega)
      | cons h2 hb =>
        intro acc w W k hk h
        rw [List.zip_cons_cons, List.foldl_cons, List.zipWith_cons_cons, List.sum_cons, ← add_assoc, List.zipWith_cons_cons, List.sum_cons, ← add_assoc,
          List.length_cons]
        exact (ih hb _ _ _ (k + 1) (by omega) (ftxt_strSum h ((ftxt_strProduct h1 h2).mono le_rfl hk))).mono le_rfl (by omega)
  have := key _ _ _ _ le_rfl (ftxt_zero.term.sum.mono le_rfl (by omega))
  rw [zero_add, zero_add] at this
  exact this.mono le_rfl (by omega)

end Verif.PyExpr
