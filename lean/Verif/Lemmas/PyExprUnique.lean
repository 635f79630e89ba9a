import Verif.Lemmas.PyExpr
/-!
# The grammar is unambiguous

A left to right evaluation of the tokens gives the value of every derivation.
-/

namespace Verif.PyExpr
open Verif Verif.Str

variable {K : Type} [Field K] {env : Env K}

/-- The operand that is being read. -/
inductive Cur (K : Type) where
  | none
  | val (v : K)
  | pend (v : K)
  | done (v : K)
  | lst (l : List K)
  | idx (l : List K)
  | idx1 (v : K)

/-- The value of a complete operand. -/
def Cur.complete : Cur K → Option K
  | .val v => some v
  | .done v => some v
  | _ => Option.none

/-- The state of the evaluation between two parentheses. -/
structure Fr (K : Type) where
  sum : Option (K × Bool)
  prod : Option (K × Bool)
  neg : Bool
  cur : Cur K

/-- Apply the sign. -/
def Fr.factor (f : Fr K) (v : K) : K := if f.neg then -v else v

/-- Apply the sign and the product. -/
def Fr.term (f : Fr K) (v : K) : K :=
  match f.prod with
  | Option.none => f.factor v
  | some (p, true) => p * f.factor v
  | some (p, false) => p / f.factor v

/-- Apply the sign, the product and the sum. -/
def Fr.total (f : Fr K) (v : K) : K :=
  match f.sum with
  | Option.none => f.term v
  | some (s, true) => s + f.term v
  | some (s, false) => s - f.term v

/-- Start of an expression. -/
def Fr.init : Fr K := ⟨Option.none, Option.none, false, .none⟩

/-- Operators after a complete operand with value `v`. -/
def stepOp (f : Fr K) (st : List (Fr K)) (v : K) : Tok → Option (List (Fr K))
  | .plus => some (⟨some (f.total v, true), Option.none, false, .none⟩ :: st)
  | .minus => some (⟨some (f.total v, false), Option.none, false, .none⟩ :: st)
  | .star => some ({ f with prod := some (f.term v, true), neg := false, cur := .none } :: st)
  | .slash => some ({ f with prod := some (f.term v, false), neg := false, cur := .none } :: st)
  | .rpar =>
    match st with
    | g :: st => some ({ g with cur := .val (f.total v) } :: st)
    | [] => Option.none
  | _ => Option.none

/-- Tokens where an operand is expected. -/
def stepOperand (env : Env K) (f : Fr K) (st : List (Fr K)) : Tok → Option (List (Fr K))
  | .plus => some (f :: st)
  | .minus => some ({ f with neg := !f.neg } :: st)
  | .int n => some ({ f with cur := .val (n : K) } :: st)
  | .float q => some ({ f with cur := .val (q : K) } :: st)
  | .name s =>
    match env s with
    | some (.num v) => some ({ f with cur := .val v } :: st)
    | some (.list l) => some ({ f with cur := .lst l } :: st)
    | Option.none => Option.none
  | .lpar => some (Fr.init :: f :: st)
  | _ => Option.none

/-- Read one token. -/
def stepTok (env : Env K) : List (Fr K) → Tok → Option (List (Fr K))
  | [], _ => Option.none
  | f :: st, t =>
    match f.cur with
    | .none => stepOperand env f st t
    | .val v => if t = .pow then some ({ f with cur := .pend v } :: st) else stepOp f st v t
    | .pend v =>
      match t with
      | .int n => some ({ f with cur := .done (v ^ n) } :: st)
      | _ => Option.none
    | .done v => stepOp f st v t
    | .lst l => if t = .lbrk then some ({ f with cur := .idx l } :: st) else Option.none
    | .idx l =>
      match t with
      | .int i =>
        match l[i]? with
        | some v => some ({ f with cur := .idx1 v } :: st)
        | Option.none => Option.none
      | _ => Option.none
    | .idx1 v => if t = .rbrk then some ({ f with cur := .val v } :: st) else Option.none

/-- Read tokens. -/
def run (env : Env K) (st : List (Fr K)) (ts : List Tok) : Option (List (Fr K)) := ts.foldlM (stepTok env) st

theorem run_append (st : List (Fr K)) (a b : List Tok) : run env st (a ++ b) = (run env st a).bind (fun st => run env st b) := by
  unfold run
  rw [List.foldlM_append]
  rfl

theorem run_cons (st : List (Fr K)) (t : Tok) (b : List Tok) : run env st (t :: b) = (stepTok env st t).bind (fun st => run env st b) := rfl

theorem run_nil (st : List (Fr K)) : run env st [] = some st := rfl

theorem stepTok_complete {f : Fr K} {st : List (Fr K)} {v : K} (h : f.cur.complete = some v) {t : Tok} (ht : t ≠ .pow) :
    stepTok env (f :: st) t = stepOp f st v t := by
  obtain ⟨s, p, n, c⟩ := f
  cases c with
  | val w =>
    simp only [Cur.complete, Option.some.injEq] at h
    subst h
    simp only [stepTok, if_neg ht]
  | done w =>
    simp only [Cur.complete, Option.some.injEq] at h
    subst h
    rfl
  | none => exact absurd h (by simp [Cur.complete])
  | pend w => exact absurd h (by simp [Cur.complete])
  | lst w => exact absurd h (by simp [Cur.complete])
  | idx w => exact absurd h (by simp [Cur.complete])
  | idx1 w => exact absurd h (by simp [Cur.complete])

theorem stepTok_none {f : Fr K} {st : List (Fr K)} (h : f.cur = .none) (t : Tok) : stepTok env (f :: st) t = stepOperand env f st t := by
  obtain ⟨s, p, n, c⟩ := f
  simp only at h
  subst h
  rfl

/-- What the evaluation gives for the tokens of a derivation of the level. -/
def Inv (env : Env K) : Level → List Tok → K → Prop
  | .atom, ts, u => ∀ (f : Fr K) st, f.cur = .none → run env (f :: st) ts = some ({ f with cur := .val u } :: st)
  | .power, ts, u => ∀ (f : Fr K) st, f.cur = .none → ∃ c, run env (f :: st) ts = some ({ f with cur := c } :: st) ∧ c.complete = some u
  | .factor, ts, u => ∀ (f : Fr K) st, f.cur = .none →
      ∃ n c v, run env (f :: st) ts = some (⟨f.sum, f.prod, n, c⟩ :: st) ∧ c.complete = some v ∧ (if n then -v else v) = f.factor u
  | .term, ts, u => ∀ (f : Fr K) st, f.cur = .none → f.prod = Option.none → f.neg = false →
      ∃ p n c v, run env (f :: st) ts = some (⟨f.sum, p, n, c⟩ :: st) ∧ c.complete = some v ∧ (⟨f.sum, p, n, c⟩ : Fr K).term v = u
  | .sum, ts, u => ∀ st, ∃ g v, run env (Fr.init :: st) ts = some (g :: st) ∧ g.cur.complete = some v ∧ g.total v = u

theorem Parses.inv {l : Level} {ts : List Tok} {u : K} (h : Parses env l ts u) : Inv env l ts u := by
  induction h with
  | @add a b u v _ _ iha ihb =>
    intro st
    obtain ⟨g, w, h1, h2, h3⟩ := iha st
    obtain ⟨p, n, c, w', h4, h5, h6⟩ := ihb ⟨some (u, true), Option.none, false, .none⟩ st rfl rfl rfl
    refine ⟨⟨some (u, true), p, n, c⟩, w', ?_, h5, ?_⟩
    · rw [run_append, h1, Option.bind_some, run_cons, stepTok_complete h2 (by decide)]
      simp only [stepOp, Option.bind_some, h3]
      exact h4
    · simp only [Fr.total]
      rw [h6]
  | @sub a b u v _ _ iha ihb =>
    intro st
    obtain ⟨g, w, h1, h2, h3⟩ := iha st
    obtain ⟨p, n, c, w', h4, h5, h6⟩ := ihb ⟨some (u, false), Option.none, false, .none⟩ st rfl rfl rfl
    refine ⟨⟨some (u, false), p, n, c⟩, w', ?_, h5, ?_⟩
    · rw [run_append, h1, Option.bind_some, run_cons, stepTok_complete h2 (by decide)]
      simp only [stepOp, Option.bind_some, h3]
      exact h4
    · simp only [Fr.total]
      rw [h6]
  | @sum a u _ ih =>
    intro st
    obtain ⟨p, n, c, w, h4, h5, h6⟩ := ih Fr.init st rfl rfl rfl
    exact ⟨_, w, h4, h5, h6⟩
  | @mul a b u v _ _ iha ihb =>
    intro f st hc hp hn
    obtain ⟨p, n, c, w, h1, h2, h3⟩ := iha f st hc hp hn
    obtain ⟨n', c', w', h4, h5, h6⟩ := ihb ⟨f.sum, some (u, true), false, .none⟩ st rfl
    refine ⟨some (u, true), n', c', w', ?_, h5, ?_⟩
    · rw [run_append, h1, Option.bind_some, run_cons, stepTok_complete (v := w) h2 (by decide)]
      simp only [stepOp, Option.bind_some, h3]
      exact h4
    · simp only [Fr.term, Fr.factor] at h6 ⊢
      rw [h6]
      simp
  | @div a b u v _ _ _ iha ihb =>
    intro f st hc hp hn
    obtain ⟨p, n, c, w, h1, h2, h3⟩ := iha f st hc hp hn
    obtain ⟨n', c', w', h4, h5, h6⟩ := ihb ⟨f.sum, some (u, false), false, .none⟩ st rfl
    refine ⟨some (u, false), n', c', w', ?_, h5, ?_⟩
    · rw [run_append, h1, Option.bind_some, run_cons, stepTok_complete (v := w) h2 (by decide)]
      simp only [stepOp, Option.bind_some, h3]
      exact h4
    · simp only [Fr.term, Fr.factor] at h6 ⊢
      rw [h6]
      simp
  | @term a u _ ih =>
    intro f st hc hp hn
    obtain ⟨n', c', w', h4, h5, h6⟩ := ih f st hc
    refine ⟨f.prod, n', c', w', h4, h5, ?_⟩
    simp only [Fr.term, Fr.factor, hp] at h6 ⊢
    rw [h6, hn]
    simp
  | @neg a u _ ih =>
    intro f st hc
    obtain ⟨n', c', w', h4, h5, h6⟩ := ih { f with neg := !f.neg } st hc
    refine ⟨n', c', w', ?_, h5, ?_⟩
    · rw [run_cons, stepTok_none hc]
      exact h4
    · rw [h6]
      simp only [Fr.factor]
      cases f.neg <;> simp
  | @pos a u _ ih =>
    intro f st hc
    obtain ⟨n', c', w', h4, h5, h6⟩ := ih f st hc
    refine ⟨n', c', w', ?_, h5, h6⟩
    rw [run_cons, stepTok_none hc]
    exact h4
  | @factor a u _ ih =>
    intro f st hc
    obtain ⟨c, h1, h2⟩ := ih f st hc
    exact ⟨f.neg, c, u, h1, h2, rfl⟩
  | @pow a u n _ ih =>
    intro f st hc
    refine ⟨.done (u ^ n), ?_, rfl⟩
    rw [run_append, ih f st hc]
    rfl
  | @power a u _ ih =>
    intro f st hc
    exact ⟨.val u, ih f st hc, rfl⟩
  | int n =>
    intro f st hc
    rw [run_cons, stepTok_none hc]
    rfl
  | float q =>
    intro f st hc
    rw [run_cons, stepTok_none hc]
    rfl
  | name h =>
    intro f st hc
    rw [run_cons, stepTok_none hc]
    simp only [stepOperand, h]
    rfl
  | index i h h' =>
    intro f st hc
    rw [run_cons, stepTok_none hc]
    simp only [stepOperand, h]
    simp [run, stepTok, h']
  | @paren a u _ ih =>
    intro f st hc
    obtain ⟨g, v, h1, h2, h3⟩ := ih (f :: st)
    rw [List.cons_append, run_cons, stepTok_none hc]
    simp only [stepOperand, Option.bind_some]
    rw [run_append, h1, Option.bind_some, run_cons, stepTok_complete h2 (by decide)]
    simp only [stepOp, Option.bind_some, h3, run_nil]

/-- Every derivation is one of a sum. -/
theorem Parses.toSum {l : Level} {ts : List Tok} {u : K} (h : Parses env l ts u) : Parses env .sum ts u := by
  cases l with
  | sum => exact h
  | term => exact .sum h
  | factor => exact .sum (.term h)
  | power => exact .sum (.term (.factor h))
  | atom => exact .sum (.term (.factor (.power h)))

/-- Tokens have at most one value. -/
theorem Parses.unique {l l' : Level} {ts : List Tok} {u v : K} (h : Parses env l ts u) (h' : Parses env l' ts v) : u = v := by
  obtain ⟨g, w, h1, h2, h3⟩ := h.toSum.inv []
  obtain ⟨g', w', h1', h2', h3'⟩ := h'.toSum.inv []
  rw [h1] at h1'
  obtain rfl : g = g' := by simpa using h1'
  rw [h2] at h2'
  obtain rfl : w = w' := by simpa using h2'
  rw [← h3, ← h3']

theorem Parses.comma {l : Level} {ts : List Tok} {u : K} (h : Parses env l ts u) : Tok.comma ∉ ts := by
  induction h <;> simp_all

theorem comma_split {a b a' b' : List Tok} (ha : Tok.comma ∉ a) (ha' : Tok.comma ∉ a') (h : a ++ .comma :: b = a' ++ .comma :: b') : a = a' ∧ b = b' := by
  induction a generalizing a' with
  | nil =>
    cases a' with
    | nil => simpa using h
    | cons t a' =>
      rw [List.nil_append, List.cons_append, List.cons.injEq] at h
      exact absurd (by rw [h.1]; simp) ha'
  | cons s a ih =>
    cases a' with
    | nil =>
      rw [List.nil_append, List.cons_append, List.cons.injEq] at h
      exact absurd (by rw [h.1]; simp) ha
    | cons t a' =>
      rw [List.cons_append, List.cons_append, List.cons.injEq] at h
      obtain ⟨h1, h2⟩ := ih (fun h => ha (by simp [h])) (fun h => ha' (by simp [h])) h.2
      exact ⟨by rw [h.1, h1], h2⟩

/-- Tokens have at most one sequence of values. -/
theorem ParsesSeq.unique {ts : List Tok} {us vs : List K} (h : ParsesSeq env ts us) (h' : ParsesSeq env ts vs) : us = vs := by
  induction h generalizing vs with
  | one h1 =>
    cases h' with
    | one h2 => rw [h1.unique h2]
    | cons h2 h3 => exact absurd (by simp) h1.comma
  | @cons a b u us h1 h2 ih =>
    generalize hc : a ++ Tok.comma :: b = ts at h'
    cases h' with
    | one h3 => exact absurd (by rw [← hc]; simp) h3.comma
    | cons h3 h4 =>
      obtain ⟨rfl, rfl⟩ := comma_split h1.comma h3.comma hc
      rw [h1.unique h3, ih h4]

end Verif.PyExpr
