import Mathlib.Probability.Independence.Basic
/-!
# Specification of random integers
-/

namespace Verif.Random
open MeasureTheory ProbabilityTheory

/-- The standard library's `random.randint(a, b)`: the integers from `a` to `b`, including `b`, are equally probable, and the results of successive calls are independent. `rnd i a b` is the
result of call number `i` with the arguments `a` and `b`. -/
structure IsRandint {Ω : Type} [MeasurableSpace Ω] (P : Measure Ω) (rnd : ℕ → ℕ → ℕ → Ω → ℕ) : Prop where
  measurable : ∀ i a b, Measurable (rnd i a b)
  uniform : ∀ i a b j, a ≤ j → j ≤ b → P.real {ω | rnd i a b ω = j} = 1 / (b - a + 1 : ℕ)
  indep : ∀ a b : ℕ → ℕ, iIndepFun (fun i => rnd i (a i) (b i)) P

/-- NumPy's `np.random.randint(a, b)`: the integers from `a` to `b`, excluding `b`, are equally probable. -/
structure IsNumpyRandint {Ω : Type} [MeasurableSpace Ω] (P : Measure Ω) (rnd : ℕ → ℕ → ℕ → Ω → ℕ) : Prop where
  measurable : ∀ i a b, Measurable (rnd i a b)
  uniform : ∀ i a b j, a ≤ j → j < b → P.real {ω | rnd i a b ω = j} = 1 / (b - a : ℕ)

end Verif.Random
