import Verif.Spec.Random
import Verif.Spec.Rotation
/-!
# Specification: uniformly distributed rotations
-/

namespace Verif.Random
open MeasureTheory ProbabilityTheory Matrix Verif.Linalg

/-- Sets of matrices are measurable as sets of vectors of their entries. -/
instance {n : ℕ} : MeasurableSpace (Matrix (Fin n) (Fin n) ℝ) := inferInstanceAs (MeasurableSpace (Fin n → Fin n → ℝ))

/-- The uniform distribution (Haar measure) on the group of rotations: a probability distribution on rotation matrices that is invariant under composition with a fixed rotation. There is
only one (`C85_unique`). -/
structure IsUniformRotation {n : ℕ} (μ : Measure (Matrix (Fin n) (Fin n) ℝ)) : Prop where
  prob : IsProbabilityMeasure μ
  rotation : ∀ᵐ R ∂μ, IsRotation R
  invariant : ∀ Q, IsRotation Q → μ.map (fun R => Q * R) = μ

end Verif.Random
