import Verif.Spec.FloatExpr
import Verif.Lemmas.PyExpr
/-!
# The grammar reads every text as at most one expression

A left to right evaluation of the tokens gives the tree of every derivation.
-/

namespace Verif.PyExpr
open Verif Verif.Str

namespace Tree

/-- The operand that is being read. -/
inductive Cur where
  | none
  | val (v : Expr)
  | nm (s : Str)
  | pend (v : Expr)
  | done (v : Expr)
  | idx (s : Str)
  | idx1 (v : Expr)

/-- The tree of an atom. -/
def Cur.atom : Cur → Option Expr
  | .val v => some v
  | .nm s => some (.name s)
  | _ => Option.none

/-- The tree of a complete operand. -/
def Cur.complete : Cur → Option Expr
  | .val v => some v
  | .nm s => some (.name s)
  | .done v => some v
  | _ => Option.none

/-- The state of the evaluation between two parentheses. -/
structure Fr where
  sum : Option (Expr × Bool)
  prod : Option (Expr × Bool)
  neg : Nat
  cur : Cur

/-- Apply signs. -/
def signs : Nat → Expr → Expr
  | 0, e => e
  | n + 1, e => signs n (.neg e)

/-- Apply the product. -/
def Fr.termOf (f : Fr) (w : Expr) : Expr :=
  match f.prod with
  | Option.none => w
  | some (p, true) => .mul p w
  | some (p, false) => .div p w

/-- Apply the sign and the product. -/
def Fr.term (f : Fr) (v : Expr) : Expr := f.termOf (signs f.neg v)

/-- Apply the sign, the product and the sum. -/
def Fr.total (f : Fr) (v : Expr) : Expr :=
  match f.sum with
  | Option.none => f.term v
  | some (s, true) => .add s (f.term v)
  | some (s, false) => .sub s (f.term v)

/-- Start of an expression. -/
def Fr.init : Fr := ⟨Option.none, Option.none, 0, .none⟩

/-- Operators after a complete operand with tree `v`. -/
def stepOp (f : Fr) (st : List Fr) (v : Expr) : Tok → Option (List Fr)
  | .plus => some (⟨some (f.total v, true), Option.none, 0, .none⟩ :: st)
  | .minus => some (⟨some (f.total v, false), Option.none, 0, .none⟩ :: st)
  | .star => some ({ f with prod := some (f.term v, true), neg := 0, cur := .none } :: st)
  | .slash => some ({ f with prod := some (f.term v, false), neg := 0, cur := .none } :: st)
  | .rpar =>
    match st with
    | g :: st => some ({ g with cur := .val (f.total v) } :: st)
    | [] => Option.none
  | _ => Option.none

/-- Tokens where an operand is expected. -/
def stepOperand (f : Fr) (st : List Fr) : Tok → Option (List Fr)
  | .plus => some (f :: st)
  | .minus => some ({ f with neg := f.neg + 1 } :: st)
  | .int n => some ({ f with cur := .val (.int n) } :: st)
  | .float q => some ({ f with cur := .val (.float q) } :: st)
  | .name s => some ({ f with cur := .nm s } :: st)
  | .lpar => some (Fr.init :: f :: st)
  | _ => Option.none

/-- Read one token. -/
def stepTok : List Fr → Tok → Option (List Fr)
  | [], _ => Option.none
  | f :: st, t =>
    match f.cur with
    | .none => stepOperand f st t
    | .val v => if t = .pow then some ({ f with cur := .pend v } :: st) else stepOp f st v t
    | .nm s => if t = .pow then some ({ f with cur := .pend (.name s) } :: st) else if t = .lbrk then some ({ f with cur := .idx s } :: st)
        else stepOp f st (.name s) t
    | .pend v =>
      match t with
      | .int n => some ({ f with cur := .done (.pow v n) } :: st)
      | _ => Option.none
    | .done v => stepOp f st v t
    | .idx s =>
      match t with
      | .int i => some ({ f with cur := .idx1 (.index s i) } :: st)
      | _ => Option.none
    | .idx1 v => if t = .rbrk then some ({ f with cur := .val v } :: st) else Option.none

/-- Read tokens. -/
def run (st : List Fr) (ts : List Tok) : Option (List Fr) := ts.foldlM stepTok st

theorem run_append (st : List Fr) (a b : List Tok) : run st (a ++ b) = (run st a).bind (fun st => run st b) := by
  unfold run
  rw [List.foldlM_append]
  rfl

theorem run_cons (st : List Fr) (t : Tok) (b : List Tok) : run st (t :: b) = (stepTok st t).bind (fun st => run st b) := rfl

theorem run_nil (st : List Fr) : run st [] = some st := rfl

theorem stepTok_complete {f : Fr} {st : List Fr} {v : Expr} (h : f.cur.complete = some v) {t : Tok} (ht : t ≠ .pow) (ht' : t ≠ .lbrk) :
    stepTok (f :: st) t = stepOp f st v t := by
  obtain ⟨s, p, n, c⟩ := f
  cases c with
  | val w =>
    simp only [Cur.complete, Option.some.injEq] at h
    subst h
    simp only [stepTok, if_neg ht]
  | nm w =>
    simp only [Cur.complete, Option.some.injEq] at h
    subst h
    simp only [stepTok, if_neg ht, if_neg ht']
  | done w =>
    simp only [Cur.complete, Option.some.injEq] at h
    subst h
    rfl
  | none => exact absurd h (by simp [Cur.complete])
  | pend w => exact absurd h (by simp [Cur.complete])
  | idx w => exact absurd h (by simp [Cur.complete])
  | idx1 w => exact absurd h (by simp [Cur.complete])

theorem stepTok_none {f : Fr} {st : List Fr} (h : f.cur = .none) (t : Tok) : stepTok (f :: st) t = stepOperand f st t := by
  obtain ⟨s, p, n, c⟩ := f
  simp only at h
  subst h
  rfl

theorem Cur.atom_complete {c : Cur} {u : Expr} (h : c.atom = some u) : c.complete = some u := by
  cases c <;> simp_all [Cur.atom, Cur.complete]

/-- What the evaluation gives for the tokens of a derivation of the level. -/
def Inv : Level → List Tok → Expr → Prop
  | .atom, ts, u => ∀ (f : Fr) st, f.cur = .none → ∃ c, run (f :: st) ts = some ({ f with cur := c } :: st) ∧ c.atom = some u
  | .power, ts, u => ∀ (f : Fr) st, f.cur = .none → ∃ c, run (f :: st) ts = some ({ f with cur := c } :: st) ∧ c.complete = some u
  | .factor, ts, u => ∀ (f : Fr) st, f.cur = .none →
      ∃ n c v, run (f :: st) ts = some (⟨f.sum, f.prod, n, c⟩ :: st) ∧ c.complete = some v ∧ signs n v = signs f.neg u
  | .term, ts, u => ∀ (f : Fr) st, f.cur = .none → f.prod = Option.none → f.neg = 0 →
      ∃ p n c v, run (f :: st) ts = some (⟨f.sum, p, n, c⟩ :: st) ∧ c.complete = some v ∧ (⟨f.sum, p, n, c⟩ : Fr).term v = u
  | .sum, ts, u => ∀ st, ∃ g v, run (Fr.init :: st) ts = some (g :: st) ∧ g.cur.complete = some v ∧ g.total v = u

theorem inv_of_reads {l : Level} {ts : List Tok} {u : Expr} (h : Reads l ts u) : Inv l ts u := by
  induction h with
  | @add a b u v _ _ iha ihb =>
    intro st
    obtain ⟨g, w, h1, h2, h3⟩ := iha st
    obtain ⟨p, n, c, w', h4, h5, h6⟩ := ihb ⟨some (u, true), Option.none, 0, .none⟩ st rfl rfl rfl
    refine ⟨⟨some (u, true), p, n, c⟩, w', ?_, h5, ?_⟩
    · rw [run_append, h1, Option.bind_some, run_cons, stepTok_complete h2 (by decide) (by decide)]
      simp only [stepOp, Option.bind_some, h3]
      exact h4
    · simp only [Fr.total]
      rw [h6]
  | @sub a b u v _ _ iha ihb =>
    intro st
    obtain ⟨g, w, h1, h2, h3⟩ := iha st
    obtain ⟨p, n, c, w', h4, h5, h6⟩ := ihb ⟨some (u, false), Option.none, 0, .none⟩ st rfl rfl rfl
    refine ⟨⟨some (u, false), p, n, c⟩, w', ?_, h5, ?_⟩
    · rw [run_append, h1, Option.bind_some, run_cons, stepTok_complete h2 (by decide) (by decide)]
      simp only [stepOp, Option.bind_some, h3]
      exact h4
    · simp only [Fr.total]
      rw [h6]
  | @sum a u _ ih =>
    intro st
    obtain ⟨p, n, c, w, h4, h5, h6⟩ := ih Fr.init st rfl rfl rfl
    exact ⟨_, w, h4, h5, h6⟩
  | @mul a b u v _ _ iha ihb =>
    intro f st hc hp hn
    obtain ⟨p, n, c, w, h1, h2, h3⟩ := iha f st hc hp hn
    obtain ⟨n', c', w', h4, h5, h6⟩ := ihb ⟨f.sum, some (u, true), 0, .none⟩ st rfl
    refine ⟨some (u, true), n', c', w', ?_, h5, ?_⟩
    · rw [run_append, h1, Option.bind_some, run_cons, stepTok_complete (v := w) h2 (by decide) (by decide)]
      simp only [stepOp, Option.bind_some, h3]
      exact h4
    · simp only [Fr.term, Fr.termOf] at h6 ⊢
      rw [h6]
      rfl
  | @div a b u v _ _ iha ihb =>
    intro f st hc hp hn
    obtain ⟨p, n, c, w, h1, h2, h3⟩ := iha f st hc hp hn
    obtain ⟨n', c', w', h4, h5, h6⟩ := ihb ⟨f.sum, some (u, false), 0, .none⟩ st rfl
    refine ⟨some (u, false), n', c', w', ?_, h5, ?_⟩
    · rw [run_append, h1, Option.bind_some, run_cons, stepTok_complete (v := w) h2 (by decide) (by decide)]
      simp only [stepOp, Option.bind_some, h3]
      exact h4
    · simp only [Fr.term, Fr.termOf] at h6 ⊢
      rw [h6]
      rfl
  | @term a u _ ih =>
    intro f st hc hp hn
    obtain ⟨n', c', w', h4, h5, h6⟩ := ih f st hc
    refine ⟨f.prod, n', c', w', h4, h5, ?_⟩
    simp only [Fr.term, Fr.termOf, hp] at h6 ⊢
    rw [h6, hn]
    rfl
  | @neg a u _ ih =>
    intro f st hc
    obtain ⟨n', c', w', h4, h5, h6⟩ := ih { f with neg := f.neg + 1 } st hc
    refine ⟨n', c', w', ?_, h5, ?_⟩
    · rw [run_cons, stepTok_none hc]
      exact h4
    · rw [h6]
      rfl
  | @pos a u _ ih =>
    intro f st hc
    obtain ⟨n', c', w', h4, h5, h6⟩ := ih f st hc
    refine ⟨n', c', w', ?_, h5, h6⟩
    rw [run_cons, stepTok_none hc]
    exact h4
  | @factor a u _ ih =>
    intro f st hc
    obtain ⟨c, h1, h2⟩ := ih f st hc
    exact ⟨f.neg, c, u, h1, h2, rfl⟩
  | @pow a u n _ ih =>
    intro f st hc
    refine ⟨.done (.pow u n), ?_, rfl⟩
    obtain ⟨c, h1, h2⟩ := ih f st hc
    rw [run_append, h1, Option.bind_some]
    cases c <;> simp_all [Cur.atom, run, stepTok]
  | @power a u _ ih =>
    intro f st hc
    obtain ⟨c, h1, h2⟩ := ih f st hc
    exact ⟨c, h1, Cur.atom_complete h2⟩
  | int n =>
    intro f st hc
    refine ⟨.val (.int n), ?_, rfl⟩
    rw [run_cons, stepTok_none hc]
    rfl
  | float q =>
    intro f st hc
    refine ⟨.val (.float q), ?_, rfl⟩
    rw [run_cons, stepTok_none hc]
    rfl
  | name s =>
    intro f st hc
    refine ⟨.nm s, ?_, rfl⟩
    rw [run_cons, stepTok_none hc]
    rfl
  | index s i =>
    intro f st hc
    refine ⟨.val (.index s i), ?_, rfl⟩
    rw [run_cons, stepTok_none hc]
    rfl
  | @paren a u _ ih =>
    intro f st hc
    obtain ⟨g, v, h1, h2, h3⟩ := ih (f :: st)
    refine ⟨.val u, ?_, rfl⟩
    rw [List.cons_append, run_cons, stepTok_none hc]
    simp only [stepOperand, Option.bind_some]
    rw [run_append, h1, Option.bind_some, run_cons, stepTok_complete h2 (by decide) (by decide)]
    simp only [stepOp, Option.bind_some, h3, run_nil]

end Tree

/-- Every derivation is one of a sum. -/
theorem Reads.toSum {l : Level} {ts : List Tok} {u : Expr} (h : Reads l ts u) : Reads .sum ts u := by
  cases l with
  | sum => exact h
  | term => exact .sum h
  | factor => exact .sum (.term h)
  | power => exact .sum (.term (.factor h))
  | atom => exact .sum (.term (.factor (.power h)))

/-- Tokens are read as at most one expression. -/
theorem Reads.unique {l l' : Level} {ts : List Tok} {u v : Expr} (h : Reads l ts u) (h' : Reads l' ts v) : u = v := by
  obtain ⟨g, w, h1, h2, h3⟩ := Tree.inv_of_reads h.toSum []
  obtain ⟨g', w', h1', h2', h3'⟩ := Tree.inv_of_reads h'.toSum []
  rw [h1] at h1'
  obtain rfl : g = g' := by simpa using h1'
  rw [h2] at h2'
  obtain rfl : w = w' := by simpa using h2'
  rw [← h3, ← h3']

end Verif.PyExpr
