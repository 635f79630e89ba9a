import Verif.Spec.PyExpr
/-!
# Specification: the meaning of a Python function given as text

Functions with one parameter whose body assigns variables and returns an expression (each statement in one logical line, which may continue on the next
line inside brackets). The expressions are numbers, arrays, matrices (`np.array([[..], ..])`) and `np.dot(a, y) + b` for variables.
-/

namespace Verif.PyExpr
open Verif Verif.Str

variable {K : Type} [Field K]

/-- Values of variables. -/
inductive Value (K : Type) where
  | num (v : K)
  | array (l : List K)
  | matrix (rows : List (List K))

/-- The values of the variables in scope. -/
abbrev Scope (K : Type) := Str → Option (Value K)

/-- The variables that can occur in arithmetic expressions. -/
def Scope.env (σ : Scope K) : Env K := fun s =>
  match σ s with
  | some (.num v) => some (.num v)
  | some (.array l) => some (.list l)
  | _ => none

/-- The scope after the assignment of a variable. -/
def Scope.set (σ : Scope K) (n : Str) (v : Value K) : Scope K := fun s => if s = n then some v else σ s

/-- Sequences in brackets, separated by commas. -/
inductive ParsesRows (env : Env K) : List Tok → List (List K) → Prop where
  | one {a : List Tok} {us : List K} : ParsesSeq env a us → ParsesRows env (.lbrk :: (a ++ [.rbrk])) [us]
  | cons {a b : List Tok} {us : List K} {rows : List (List K)} : ParsesSeq env a us → ParsesRows env b rows →
      ParsesRows env (.lbrk :: (a ++ .rbrk :: .comma :: b)) (us :: rows)

/-- The text is `np.array([[e, …], …])` for expressions with the values `rows`. -/
def DenotesMatrix (env : Env K) (s : Str) (rows : List (List K)) : Prop :=
  ∃ ts, tokens s = some ([.name "np".toList, .dot, .name "array".toList, .lpar, .lbrk] ++ ts ++ [.rbrk, .rpar]) ∧ ParsesRows env ts rows

/-- The product of a matrix and a vector, plus a vector. -/
def affineValue (rows : List (List K)) (y b : List K) : List K := List.zipWith (· + ·) (rows.map (fun r => (List.zipWith (· * ·) r y).sum)) b

/-- The text is an expression with the given value. -/
inductive Evaluates (σ : Scope K) : Str → Value K → Prop where
  | num {s : Str} {v : K} : Denotes σ.env s v → Evaluates σ s (.num v)
  | array {s : Str} {vs : List K} : DenotesArray σ.env s vs → Evaluates σ s (.array vs)
  | matrix {s : Str} {rows : List (List K)} : DenotesMatrix σ.env s rows → Evaluates σ s (.matrix rows)
  | affine {a y b : Str} {rows : List (List K)} {v w : List K} : IsIdentifier a → IsIdentifier y → IsIdentifier b → σ a = some (.matrix rows) →
      σ y = some (.array v) → σ b = some (.array w) → (∀ r ∈ rows, r.length = v.length) → rows.length = w.length →
      Evaluates σ ("np.dot(".toList ++ a ++ ", ".toList ++ y ++ ") + ".toList ++ b) (.array (affineValue rows v w))

/-- The body of a function returns the value. -/
inductive Runs : Scope K → Str → Value K → Prop where
  | ret {σ : Scope K} {e : Str} {v : Value K} : Evaluates σ e v → Runs σ ("    return ".toList ++ e ++ "\n".toList) v
  | assign {σ : Scope K} {n e rest : Str} {u v : Value K} : IsIdentifier n → Evaluates σ e u → Runs (σ.set n u) rest v →
      Runs σ ("    ".toList ++ n ++ " = ".toList ++ e ++ "\n".toList ++ rest) v

/-- The text is the definition of a function with the given name and one parameter, and its value for the argument is `v`. -/
def Calls (code name : Str) (arg v : Value K) : Prop :=
  ∃ param body, IsIdentifier name ∧ IsIdentifier param ∧ code = "def ".toList ++ name ++ "(".toList ++ param ++ "):\n".toList ++ body ∧
    Runs (fun s => if s = param then some arg else none) body v

/-- The text, after `np.`, is a matrix of literals with the given rows (whatever the values of the variables), like NumPy's `__repr__` of a matrix. -/
def PrintsMatrix (s : Str) (rows : List (List K)) : Prop := ∀ env : Env K, DenotesMatrix env ("np.".toList ++ s) rows

/-- The text, after `np.`, is an array of literals with the given values, like NumPy's `__repr__` of an array. -/
def PrintsArray (s : Str) (l : List K) : Prop := ∀ env : Env K, DenotesArray env ("np.".toList ++ s) l

/-- The argument of a polynomial: a number in dimension one, an array otherwise. -/
def pointValue : List K → Value K
  | [v] => .num v
  | l => .array l

end Verif.PyExpr
