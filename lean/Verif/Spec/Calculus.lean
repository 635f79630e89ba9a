import Mathlib.Analysis.Calculus.Deriv.Basic
/-!
# Specification: iterated partial derivatives
-/

namespace Verif.Spec

variable {K V : Type} [NontriviallyNormedField K] [NormedAddCommGroup V] [NormedSpace K V] {m : ℕ}

/-- `f'` is the partial derivative of `f` with respect to the coordinate `i`. -/
def IsPartial (i : Fin m) (f f' : (Fin m → K) → V) : Prop :=
  ∀ x, HasDerivAt (fun t => f (Function.update x i t)) (f' x) (x i)

/-- `g` is obtained from `f` by taking the partial derivatives with respect to the listed coordinates, one after the other. -/
def IsIteratedPartial : List (Fin m) → ((Fin m → K) → V) → ((Fin m → K) → V) → Prop
  | [], f, g => g = f
  | i :: l, f, g => ∃ f', IsPartial i f f' ∧ IsIteratedPartial l f' g

/-- `g = ∂^α f`: taking `α i` partial derivatives with respect to each coordinate `i`, in any order, gives `g`. -/
def IsDerivative (α : Fin m → ℕ) (f g : (Fin m → K) → V) : Prop :=
  ∀ l : List (Fin m), (∀ i, l.count i = α i) → IsIteratedPartial l f g

end Verif.Spec
