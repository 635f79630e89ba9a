import Verif.Props.WeakDerivative
import Verif.Model.PiecewiseHeap
/-!
# C66: the method `weak_partial_derivative`

Which class has the method, and what it returns for each class.
-/

namespace Verif.PPHeap
open Verif Verif.Poly Verif.Simplex Verif.SPoly Verif.L2G Verif.Spec Verif.PP Verif.Props

variable {T : Type} {m : Nat}

/-- **C66** `p.weak_partial_derivative(i)` for the classes of continuous, scalar valued piecewise polynomials (the positive orientation is only needed in
the Bernstein basis); the other classes do not have the method. -/
theorem C66_method (p : PObj ℝ ℝ m (T × List Nat)) (i : Fin m) {empty : ℕ → List ℝ} (hempty : ∀ n, (empty n).length = n) :
    (p.cont = false → weakScalar p i empty = .error .attribute) ∧
    (WellFormed p → p.cont = true → p.basis ≠ .monomial → Full p → Fits p.r m →
      (p.basis = .bernstein → Fits (2 * (p.r - 1)) m ∧ ∀ j v, cell p.triangles p.vertices j = .ok v → 0 < edgeDet v) →
      ∀ F : ℕ → (Fin m → ℝ) → ℝ, Denotes p F →
      ∃ s F', weakScalar p i empty = .ok s ∧ WellFormed s ∧ s.basis = p.basis ∧ s.cont = false ∧ s.triangles = p.triangles ∧
        s.vertices = p.vertices ∧ s.boundary = p.boundary ∧ s.keepLast = p.keepLast ∧ s.r + 1 = p.r ∧ Denotes s F' ∧
        ∀ j, j < p.triangles.length → IsPartial i (F j) (F' j)) := by
  constructor
  · intro h; unfold weakScalar; rw [h]; rfl
  · intro h hc hm hfull hf hb F hF
    have e1 : p.basis = .bernstein → weakScalar p i empty = weakPartialDerivativeBernstein empty p i := by
      intro hb; unfold weakScalar; rw [hc, hb]; rfl
    have e2 : p.basis = .lagrange → weakScalar p i empty = weakPartialDerivativeLagrange empty p i := by
      intro hb; unfold weakScalar; rw [hc, hb]; rfl
    cases hbasis : p.basis with
    | monomial => exact absurd hbasis hm
    | bernstein => rw [e1 hbasis]; exact hbasis ▸ C66_weak_derivative_bernstein h hbasis hc hfull (hb hbasis).2 hF hf (hb hbasis).1 i hempty
    | lagrange => rw [e2 hbasis]; exact hbasis ▸ C66_weak_derivative_lagrange h hbasis hc hfull hF hf i hempty

/-- **C66** The method for vector valued piecewise polynomials. -/
theorem C66_method_vector {n : ℕ} (p : PObj ℝ (Fin n → ℝ) m (T × List Nat)) (i : Fin m) {empty : ℕ → List (Fin n → ℝ)}
    (hempty : ∀ n, (empty n).length = n) :
    (p.cont = false → weakVector p i empty = .error .attribute) ∧
    (WellFormed p → p.cont = true → p.basis ≠ .monomial → Full p → Fits p.r m →
      (p.basis = .bernstein → Fits (2 * (p.r - 1)) m ∧ ∀ j v, cell p.triangles p.vertices j = .ok v → 0 < edgeDet v) →
      ∀ F : ℕ → (Fin m → ℝ) → (Fin n → ℝ), Denotes p F →
      ∃ s F', weakVector p i empty = .ok s ∧ WellFormed s ∧ s.basis = p.basis ∧ s.cont = false ∧ s.triangles = p.triangles ∧
        s.vertices = p.vertices ∧ s.boundary = p.boundary ∧ s.keepLast = p.keepLast ∧ s.r + 1 = p.r ∧ Denotes s F' ∧
        ∀ j, j < p.triangles.length → IsPartial i (F j) (F' j)) := by
  constructor
  · intro h; unfold weakVector; rw [h]; rfl
  · intro h hc hm hfull hf hb F hF
    have e1 : p.basis = .bernstein → weakVector p i empty = weakPartialDerivativeBernsteinVector empty p i := by
      intro hb; unfold weakVector; rw [hc, hb]; rfl
    have e2 : p.basis = .lagrange → weakVector p i empty = weakPartialDerivativeLagrange empty p i := by
      intro hb; unfold weakVector; rw [hc, hb]; rfl
    cases hbasis : p.basis with
    | monomial => exact absurd hbasis hm
    | bernstein => rw [e1 hbasis]; exact hbasis ▸ C66_weak_derivative_bernstein_vector h hbasis hc hfull (hb hbasis).2 hF hf (hb hbasis).1 i hempty
    | lagrange => rw [e2 hbasis]; exact hbasis ▸ C66_weak_derivative_lagrange h hbasis hc hfull hF hf i hempty

/-- A continuous piecewise polynomial on two triangles. -/
example : ∃ (p s : PObj ℝ ℝ 2 (Unit × List Nat)) (F F' : ℕ → (Fin 2 → ℝ) → ℝ), p.coeff = [1, 2, 3, 4, 5, 6, 7, 8, 9] ∧ Denotes p F ∧
    weakScalar p 1 (fun n => List.replicate n 7) = .ok s ∧ s.r = 1 ∧ Denotes s F' ∧ ∀ j, j < 2 → IsPartial 1 (F j) (F' j) := by
  obtain ⟨M, hM, hn⟩ : ∃ M, genMap true squareTriangles 2 none false = .ok M ∧ M.numDofs = 9 := ⟨_, rfl, rfl⟩
  obtain ⟨p, hnew, q1, q2, q3, q4, q5, q6, q7, q8, q9, q10, q11⟩ := C48_construct (K := ℝ) (V := ℝ) (m := 2) (Tr := Unit × List Nat) (b := .bernstein) (by simp)
    (squareReal_space true 2 (by norm_num) none (by simp [AreSimplices])) (Or.inr (by norm_num)) hM (coeff := [1, 2, 3, 4, 5, 6, 7, 8, 9]) hn (by simp)
    (tau := none) (Or.inl ⟨rfl, Or.inl rfl⟩) (mkTree := fun _ => .ok ((), [])) (fun _ _ => ⟨_, rfl⟩)
  obtain ⟨F, hF⟩ := q1.denotes
  obtain ⟨s, F', h1, -, -, -, -, -, -, -, h2, h3, h4⟩ := (C66_method p 1 (empty := fun n => List.replicate n 7) (by simp)).2 q1 q3
    (by rw [q2]; simp) (Or.inr (by rw [q7]; rfl)) (Or.inr (by rw [q9]; norm_num))
    (fun _ => ⟨Or.inr (by rw [q9]; norm_num), by rw [q5, q6]; exact squareReal_pos⟩) F hF
  exact ⟨p, s, F, F', q4, hF, h1, by omega, h3, fun j hj => h4 j (by rw [q5]; exact hj)⟩

end Verif.PPHeap
