import Verif.Lemmas.Rejection
/-!
# Rows of random numbers

If the numbers of a generator are cut into rows of length `n`, the rows are independent, with the product distribution.
-/

namespace Verif.Random
open MeasureTheory ProbabilityTheory Filter Topology

variable {α : Type} [MeasurableSpace α] {Ω : Type} [MeasurableSpace Ω] {P : Measure Ω} [IsProbabilityMeasure P] {X : ℕ → Ω → α} {μ : Measure α}

theorem IsSource.rows (h : IsSource P X μ) (n : ℕ) : IsSource P (fun i ω => row n (X · ω) i) (Measure.pi fun _ : Fin n => μ) := by
  have hμ := h.isProb
  have hinj : Function.Injective fun p : (_ : ℕ) × Fin n => n * p.1 + (p.2 : ℕ) := by
    rintro ⟨i, j⟩ ⟨i', j'⟩ hij
    have hij : n * i + (j : ℕ) = n * i' + (j' : ℕ) := hij
    have hn : 0 < n := by have := j.2; omega
    have h1 : i = i' := by
      have := congrArg (· / n) hij
      simpa [Nat.mul_add_div hn, Nat.div_eq_of_lt j.2, Nat.div_eq_of_lt j'.2] using this
    subst h1
    have h2 : j = j' := Fin.ext (by omega)
    rw [h2]
  have hZ := h.indep.precomp hinj
  have hZm : ∀ p : (_ : ℕ) × Fin n, Measurable (X (n * p.1 + (p.2 : ℕ))) := fun p => h.measurable _
  have hrow : ∀ i, Measurable fun ω => row n (X · ω) i := fun i => measurable_pi_lambda _ fun j => h.measurable _
  have hlaw : ∀ i, P.map (fun ω => row n (X · ω) i) = Measure.pi fun _ : Fin n => μ := by
    intro i
    have h1 : iIndepFun (fun j : Fin n => X (n * i + j)) P :=
      h.indep.precomp (g := fun j : Fin n => n * i + (j : ℕ)) fun a b hab => Fin.ext (by simpa using hab)
    rw [iIndepFun_iff_map_fun_eq_pi_map fun j : Fin n => (h.measurable _).aemeasurable] at h1
    unfold row
    rw [h1]
    congr 1
    funext j
    exact h.law _
  refine ⟨hrow, ?_, hlaw⟩
  have hc : (MeasurableEquiv.piCurry fun (_ : ℕ) (_ : Fin n) => α) ∘ (fun ω (p : (_ : ℕ) × Fin n) => X (n * p.1 + (p.2 : ℕ)) ω) =
      fun ω i => row n (X · ω) i := by
    funext ω i j
    simp [Sigma.curry, row]
  rw [iIndepFun_iff_map_fun_eq_infinitePi_map hrow, ← hc, ← Measure.map_map (MeasurableEquiv.measurable _) (measurable_pi_lambda _ hZm)]
  have h2 := (iIndepFun_iff_map_fun_eq_infinitePi_map (X := fun (p : (_ : ℕ) × Fin n) => X (n * p.1 + (p.2 : ℕ))) (P := P) hZm).1 hZ
  rw [h2]
  simp only [h.law, hlaw]
  rw [Measure.infinitePi_map_piCurry (fun _ _ => μ)]
  congr 1
  funext i
  exact Measure.infinitePi_eq_pi _

end Verif.Random
