import Mathlib.MeasureTheory.Integral.IntervalIntegral.Basic
/-!
# Specification: the documented meaning of the integration routines of `scipy`

Each contract is about one integrand `f` and an error bound `τ`; `τ = 0` means exact integration. `dblquad` integrates `f(y, x)` and `tplquad`
integrates `f(z, y, x)`: the innermost variable is the first argument.
-/

namespace Verif.Spec
open Set

/-- `quadrature(f, a, b)[0]` is within `τ` of `∫ₐᵇ f`, for every interval on which `f` is continuous. -/
def QuadAccurate (quad : (ℝ → ℝ) → ℝ → ℝ → ℝ) (τ : ℝ) (f : ℝ → ℝ) : Prop :=
  ∀ a b, ContinuousOn f (uIcc a b) → |quad f a b - ∫ x in a..b, f x| ≤ τ

/-- `dblquad(f, a, b, g, h)[0]` is within `τ` of `∫ₐᵇ ∫_{g(x)}^{h(x)} f(y, x) dy dx`, for every region on which `f` is continuous. -/
def DblquadAccurate (dblquad : (ℝ → ℝ → ℝ) → ℝ → ℝ → (ℝ → ℝ) → (ℝ → ℝ) → ℝ) (τ : ℝ) (f : ℝ → ℝ → ℝ) : Prop :=
  ∀ a b g h, a ≤ b → ContinuousOn g (Icc a b) → ContinuousOn h (Icc a b) → (∀ x ∈ Icc a b, g x ≤ h x) →
    ContinuousOn (fun p : ℝ × ℝ => f p.2 p.1) {p | p.1 ∈ Icc a b ∧ p.2 ∈ Icc (g p.1) (h p.1)} →
    |dblquad f a b g h - ∫ x in a..b, ∫ y in g x..h x, f y x| ≤ τ

/-- `tplquad(f, a, b, g, h, q, r)[0]` is within `τ` of `∫ₐᵇ ∫_{g(x)}^{h(x)} ∫_{q(x,y)}^{r(x,y)} f(z, y, x) dz dy dx`, for every region on which
`f` is continuous. -/
def TplquadAccurate (tplquad : (ℝ → ℝ → ℝ → ℝ) → ℝ → ℝ → (ℝ → ℝ) → (ℝ → ℝ) → (ℝ → ℝ → ℝ) → (ℝ → ℝ → ℝ) → ℝ) (τ : ℝ)
    (f : ℝ → ℝ → ℝ → ℝ) : Prop :=
  ∀ a b g h q r, a ≤ b → ContinuousOn g (Icc a b) → ContinuousOn h (Icc a b) → (∀ x ∈ Icc a b, g x ≤ h x) →
    ContinuousOn (fun p : ℝ × ℝ => q p.1 p.2) {p | p.1 ∈ Icc a b ∧ p.2 ∈ Icc (g p.1) (h p.1)} →
    ContinuousOn (fun p : ℝ × ℝ => r p.1 p.2) {p | p.1 ∈ Icc a b ∧ p.2 ∈ Icc (g p.1) (h p.1)} →
    (∀ x ∈ Icc a b, ∀ y ∈ Icc (g x) (h x), q x y ≤ r x y) →
    ContinuousOn (fun p : ℝ × ℝ × ℝ => f p.2.2 p.2.1 p.1)
      {p | p.1 ∈ Icc a b ∧ p.2.1 ∈ Icc (g p.1) (h p.1) ∧ p.2.2 ∈ Icc (q p.1 p.2.1) (r p.1 p.2.1)} →
    |tplquad f a b g h q r - ∫ x in a..b, ∫ y in g x..h x, ∫ z in q x y..r x y, f z y x| ≤ τ

end Verif.Spec
