import Mathlib.Probability.Independence.Basic
import Mathlib.Probability.Independence.InfinitePi
import Mathlib.MeasureTheory.Measure.Lebesgue.Basic
import Mathlib.Probability.Distributions.Gaussian.Real
/-!
# Specification of random numbers

What C84 assumes about NumPy's random number generator, and what it means that a sampler returns something.
-/

namespace Verif.Random
open MeasureTheory ProbabilityTheory

/-- The results of the successive calls of a random number generator: independent, and each one has the distribution `μ`. -/
structure IsSource {Ω α : Type} [MeasurableSpace Ω] [MeasurableSpace α] (P : Measure Ω) (X : ℕ → Ω → α) (μ : Measure α) : Prop where
  measurable : ∀ i, Measurable (X i)
  indep : iIndepFun X P
  law : ∀ i, P.map (X i) = μ

/-- The distribution of the results of `np.random.rand()`: uniform on [0, 1). -/
noncomputable def rand : Measure ℝ := volume.restrict (Set.Ico 0 1)

/-- The distribution of the results of `np.random.rand(n)`: uniform on [0, 1)ⁿ. -/
noncomputable def randVec (n : ℕ) : Measure (Fin n → ℝ) := volume.restrict {x | ∀ i, x i ∈ Set.Ico (0 : ℝ) 1}

/-- A sampler that is given the numbers `x 0, x 1, …` one after the other returns `y`, after finitely many of them. -/
def Returns {α β : Type} (sampler : List α → Option (β × List α)) (x : ℕ → α) (y : β) : Prop :=
  ∃ N rest, sampler ((List.range N).map x) = some (y, rest)

/-- The share of the volume of `D` that belongs to `B`: the probability of `B` in the uniform distribution on `D`. -/
noncomputable def share {α : Type} [MeasureSpace α] (D B : Set α) : ℝ := volume.real (B ∩ D) / volume.real D

/-- Row `i` of the numbers `x 0, x 1, …`, if they are written in rows of length `n`. -/
def row {α : Type} (n : ℕ) (x : ℕ → α) (i : ℕ) : Fin n → α := fun j => x (n * i + j)

/-- `results k ω ys` means that for the outcome `ω` a sampler returns the array `ys` if it is asked for `k` points; `code` is the representation of points in
the array. The points are independent, and each one has the distribution `prob`: the probability that point `i` belongs to `B i`, for all `i`, is
the product of the numbers `prob (B i)`. -/
def Distributed {Ω β γ : Type} [MeasurableSpace Ω] [MeasurableSpace β] (P : Measure Ω) (prob : Set β → ℝ) (code : β → γ) (results : ℕ → Ω → List γ → Prop) : Prop :=
  ∀ B : List (Set β), (∀ C ∈ B, MeasurableSet C) →
    P.real {ω | ∃ ys, results B.length ω ys ∧ List.Forall₂ (fun y C => ∃ x ∈ C, y = code x) ys B} = (B.map prob).prod

/-- The points are independent, and each one is uniformly distributed in `E`. -/
def Uniform {Ω β γ : Type} [MeasurableSpace Ω] [MeasureSpace β] (P : Measure Ω) (E : Set β) (code : β → γ) (results : ℕ → Ω → List γ → Prop) : Prop :=
  Distributed P (share E) code results

/-- The distribution of the results of `np.random.randn()`: the standard normal distribution. -/
noncomputable def randn : Measure ℝ := gaussianReal 0 1

/-- The direction of a vector. -/
noncomputable def direction {n : ℕ} (x : Fin n → ℝ) : Fin n → ℝ := fun i => x i / √(∑ j, x j ^ 2)

/-- The uniform distribution on the unit sphere: the probability of a set of directions is the share of the volume of the unit ball in these directions. -/
noncomputable def sphereShare {n : ℕ} (B : Set (Fin n → ℝ)) : ℝ := share {x : Fin n → ℝ | ∑ i, x i ^ 2 < 1} {x | direction x ∈ B}

end Verif.Random
