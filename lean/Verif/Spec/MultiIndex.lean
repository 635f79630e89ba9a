import Mathlib.Data.List.Basic
import Mathlib.Algebra.BigOperators.Group.List.Basic
/-!
# Specification of multi-index enumerations (independent of the model)
-/

namespace Verif.Spec

/-- `a` is an `n`-tuple of natural numbers with component sum at most `r`. -/
def IsMultiIndexLE (n r : Nat) (a : List Nat) : Prop := a.length = n ∧ a.sum ≤ r

/-- `a` is an `n`-tuple of natural numbers with component sum exactly `r`. -/
def IsMultiIndexEq (n r : Nat) (a : List Nat) : Prop := a.length = n ∧ a.sum = r

/-- Compare tuples of the same length with the *last* component most significant: at the last position where `a` and `b` differ, `a` is smaller. -/
def LastMostSignificantLt (a b : List Nat) : Prop :=
  ∃ (p q s : List Nat) (x y : Nat), a = p ++ x :: s ∧ b = q ++ y :: s ∧ p.length = q.length ∧ x < y

/-- Value of a digit string in base `b`, least significant digit first: `Σ a_k b^k`. -/
def digitsValue (b : Nat) : List Nat → Nat
  | [] => 0
  | a :: as => a + b * digitsValue b as

/-- `a` is bounded entrywise by `r` (same length). -/
def IsCapped (r a : List Nat) : Prop := List.Forall₂ (fun a r => a ≤ r) a r

end Verif.Spec
