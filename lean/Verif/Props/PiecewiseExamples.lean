import Verif.Props.PiecewiseDrop
/-!
# C47, C48: examples in the plane

The square with vertices (0,0), (1,0), (0,1), (1,1) divided into the triangles 0-1-2 and 1-3-2.
-/

namespace Verif.Props
open Verif Verif.Poly Verif.Simplex Verif.SPoly Verif.L2G Verif.Spec Verif.PP

/-- The vertices of the square. -/
def squareVertices : List (Fin 2 → ℚ) := [![0, 0], ![1, 0], ![0, 1], ![1, 1]]

/-- The triangles of the square. -/
def squareTriangles : List (List ℕ) := [[0, 1, 2], [1, 3, 2]]

theorem square_space (cont : Bool) (r : ℕ) (hr : r ≠ 0) (b : Option (List (List ℕ))) (hb : AreSimplices (b.getD [])) :
    IsSpace cont squareTriangles squareVertices r b where
  mesh := ⟨by simp [squareTriangles], by simp [squareTriangles]⟩
  cells := fun j hj => by
    have : j = 0 ∨ j = 1 := by simp [squareTriangles] at hj; omega
    rcases this with rfl | rfl
    · refine ⟨fun i => [![0, 0], ![1, 0], ![0, 1]][(i : ℕ)]'(i.2), rfl, ?_⟩
      simp [edgeDet, Matrix.det_fin_two]
    · refine ⟨fun i => [![1, 0], ![1, 1], ![0, 1]][(i : ℕ)]'(i.2), rfl, ?_⟩
      simp [edgeDet, Matrix.det_fin_two]
  boundary := hb
  continuous := fun _ => ⟨by simp [NoDuplicates, squareTriangles]; exact ⟨0, by simp⟩, hr⟩

/-- The midpoint of the common edge. -/
theorem square_face : OnCommonFace squareVertices [0, 1, 2] [1, 3, 2] ![1 / 2, 1 / 2] := by
  refine ⟨fun _ => 1 / 2, ?_, ?_⟩
  · rw [show [0, 1, 2].toFinset ∩ [1, 3, 2].toFinset = {1, 2} by decide]
    norm_num
  · rw [show [0, 1, 2].toFinset ∩ [1, 3, 2].toFinset = {1, 2} by decide]
    funext i
    fin_cases i <;> simp [squareVertices]

/-- A continuous piecewise quadratic function on the square with nine different coefficients. -/
theorem square_object : ∃ p : PObj ℚ ℚ 2 Unit,
    PObj.new (fun _ => .ok ()) .bernstein true [1, 2, 3, 4, 5, 6, 7, 8, 9] squareTriangles squareVertices 2 none none false none none none = .ok p ∧
    WellFormed p ∧ p.cont = true ∧ p.triangles = squareTriangles ∧ p.vertices = squareVertices ∧ Full p ∧ p.r = 2 := by
  obtain ⟨M, hM, hn⟩ : ∃ M, genMap true squareTriangles 2 none false = .ok M ∧ M.numDofs = 9 := ⟨_, rfl, rfl⟩
  obtain ⟨p, hnew, q1, q2, q3, q4, q5, q6, q7, q8, q9, q10, q11⟩ := C48_construct (K := ℚ) (V := ℚ) (m := 2) (Tr := Unit) (b := .bernstein) (by simp)
    (square_space true 2 (by norm_num) none (by simp [AreSimplices])) (Or.inr (by norm_num)) hM (coeff := [1, 2, 3, 4, 5, 6, 7, 8, 9]) hn (by simp)
    (tau := none) (Or.inl ⟨rfl, Or.inl rfl⟩) (mkTree := fun _ => .ok ()) (fun _ _ => ⟨_, rfl⟩)
  exact ⟨p, hnew, q1, q3, q5, q6, Or.inr (by rw [q7]; rfl), q9⟩

/-- C47 applies to this function: on both triangles it has the same value at the midpoint of the common edge. -/
example : ∃ p : PObj ℚ ℚ 2 Unit,
    PObj.new (fun _ => .ok ()) .bernstein true [1, 2, 3, 4, 5, 6, 7, 8, 9] squareTriangles squareVertices 2 none none false none none none = .ok p ∧
    ∃ y, p.evaluateOnSimplex 0 ![1 / 2, 1 / 2] = .ok y ∧ p.evaluateOnSimplex 1 ![1 / 2, 1 / 2] = .ok y := by
  obtain ⟨p, h1, h2, h3, h4, h5, -⟩ := square_object
  refine ⟨p, h1, C47_continuous h2 h3 (by rw [h4]; simp [squareTriangles]) (by rw [h4]; simp [squareTriangles]) ?_⟩
  simp only [h4, h5]
  exact square_face

/-- C48 applies to this function: its square and its sum with itself are the square and the sum of the values. -/
example : ∃ p : PObj ℚ ℚ 2 Unit, ∃ F, WellFormed p ∧ Denotes p F ∧ (∃ s, p.mul p = .ok s ∧ s.r = 4 ∧ Denotes s (fun j x => F j x * F j x)) ∧
    (∃ s, p.degreeElevate 5 = .ok s ∧ Denotes s F) ∧ (∃ s, p.powNat 3 = .ok s ∧ Denotes s (fun j x => F j x ^ 3)) := by
  obtain ⟨p, h1, h2, h3, h4, h5, h6, h7⟩ := square_object
  obtain ⟨F, hF⟩ := h2.denotes
  obtain ⟨s, e1, -, -, e4, e5⟩ := (C48_mul h2 h2 h6 ⟨rfl, rfl, rfl, rfl, fun h => h, Or.inr rfl⟩ hF hF).1 (Or.inr (by rw [h7]; exact Or.inr (by norm_num)))
  obtain ⟨s', f1, -, -, -, -, f5⟩ := (C48_elevate h2 h6 hF 5).1 (by rw [h7]; norm_num) (Or.inr (Or.inr (by norm_num)))
  obtain ⟨s'', g1, -, -, -, g5⟩ := (C48_pow h2 h6 hF 3 (by norm_num)).1 (Or.inr (Or.inr (by rw [h7]; exact Or.inr (by norm_num))))
  exact ⟨p, F, h2, hF, ⟨s, e1, by rw [e4, h7], e5⟩, ⟨s', f1, f5⟩, ⟨s'', g1, g5⟩⟩

/-- The unit function on the square. -/
example : ∃ p : PObj ℚ ℚ 2 Unit, unitPiecewise (fun _ => .ok ()) .lagrange true squareTriangles squareVertices none (some [[0, 1]]) true none = .ok p ∧
    WellFormed p ∧ Denotes p (fun _ _ => 1) :=
  (C48_unit_zero (V := ℚ) (by simp) (square_space true 1 (by norm_num) (some [[0, 1]]) (by simp [AreSimplices])) (Or.inl rfl)
    (fun _ v hv => by
      have hv : v < 4 := hv
      have : v = 0 ∨ v = 1 ∨ v = 2 ∨ v = 3 := by omega
      rcases this with rfl | rfl | rfl | rfl
      · exact ⟨[0, 1, 2], by simp [squareTriangles], by simp⟩
      · exact ⟨[0, 1, 2], by simp [squareTriangles], by simp⟩
      · exact ⟨[0, 1, 2], by simp [squareTriangles], by simp⟩
      · exact ⟨[1, 3, 2], by simp [squareTriangles], by simp⟩)
    (Or.inl rfl) (fun _ _ => ⟨_, rfl⟩)).1

end Verif.Props
