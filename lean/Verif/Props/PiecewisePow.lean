import Verif.Lemmas.PiecewisePow
import Verif.Props.PiecewiseExamples
/-!
# C91: powers of vector valued piecewise polynomials with multi-index exponents

`p ** a` for a vector valued piecewise polynomial `p` with components `p₁, …, pₙ` and a multi-index `a` should be the scalar valued function
`p₁ ^ a₁ ⋯ pₙ ^ aₙ` on each simplex. `Denotes p F` says that evaluating `p` on simplex `j` at the point `x` returns `F j x`.
-/

namespace Verif.Props
open Verif Verif.Poly Verif.Simplex Verif.SPoly Verif.L2G Verif.Spec Verif.PP

variable {K : Type} [Field K] [DecidableEq K] [CharZero K] {m n : Nat} {Tr : Type}

/-- **C91** Lagrange basis: powers of a function of degree `r ≥ 1` with an exponent that is not zero are computed, and they are the product of the powers of
the components on each simplex. The degree is `r · |a|`; exponents are rejected if this degree is not supported (and the function is not zero). -/
theorem C91_lagrange {p : PObj K (Fin n → K) m Tr} (h : WellFormed p) (hfull : Full p) {F : ℕ → (Fin m → K) → Fin n → K} (hF : Denotes p F)
    (hb : p.basis = .lagrange) (hr : p.r ≠ 0) (a : Fin n → ℕ) (ha : ∑ i, a i ≠ 0) :
    (p.support = [] ∨ Fits (p.r * ∑ i, a i) m →
      ∃ s, p.powMulti (List.ofFn a) = .ok s ∧ WellFormed s ∧ SameKind s p ∧ s.r = p.r * ∑ i, a i ∧ s.support = p.support ∧ s.tree = p.tree ∧
        Denotes s (fun j x => ∏ i, F j x i ^ a i)) ∧
    (¬ (p.support = [] ∨ Fits (p.r * ∑ i, a i) m) → ∃ e, p.powMulti (List.ofFn a) = .error e) := by
  unfold PObj.powMulti
  simp only [hb]
  simpa only [hb] using powMultiLagrange_spec h hfull hF hb a (Nat.mul_ne_zero hr ha)

/-- **C91** Bernstein basis: powers of a function of any degree. The recursion of the method ends with the unit function, which is of degree one for continuous
functions, so that the degree of the result is `r · |a| + 1` instead of `r · |a|` for continuous functions (the function is still of degree `r · |a|`). The unit
function must exist: every vertex is used by a simplex (continuous functions), or the boundary degrees of freedom are not numbered last (others). -/
theorem C91_bernstein {p : PObj K (Fin n → K) m Tr} (h : WellFormed p) (hfull : Full p) {F : ℕ → (Fin m → K) → Fin n → K} (hF : Denotes p F)
    (hb : p.basis = .bernstein) (hall : p.cont = true → ∀ v, v < p.vertices.length → ∃ T ∈ p.triangles, v ∈ T)
    (hkeep : p.cont = true ∨ p.keepLast = false) (a : Fin n → ℕ) (ha : ∑ i, a i ≠ 0) :
    (p.support = [] ∨ Fits (p.r * (∑ i, a i) + (if p.cont then 1 else 0)) m →
      ∃ s, p.powMulti (List.ofFn a) = .ok s ∧ WellFormed s ∧ SameKind s p ∧ s.r = p.r * (∑ i, a i) + (if p.cont then 1 else 0) ∧ s.support = p.support ∧
        s.tree = p.tree ∧ Denotes s (fun j x => ∏ i, F j x i ^ a i)) ∧
    (¬ (p.support = [] ∨ Fits (p.r * (∑ i, a i) + (if p.cont then 1 else 0)) m) → ∃ e, p.powMulti (List.ofFn a) = .error e) := by
  unfold PObj.powMulti
  simp only [hb]
  have hnorm : MI.norm (List.ofFn a) = ∑ i, a i := by rw [show MI.norm (List.ofFn a) = (List.ofFn a).sum from rfl, List.sum_ofFn]
  obtain ⟨h1, h2⟩ := powMultiBernsteinAux_spec h hfull hF hb hall hkeep (MI.norm (List.ofFn a) + 1) a (by omega)
  rw [if_neg ha] at h1
  unfold unitDegree at h1 h2
  exact ⟨fun hc => h1 (hc.imp id Or.inr), fun hc => h2 (fun h3 => hc (h3.imp id (fun h4 => h4.resolve_left ha)))⟩

/-- **C91** Both bases: the power with the exponent zero is the constant function one on each simplex. -/
theorem C91_zero {p : PObj K (Fin n → K) m Tr} (h : WellFormed p) (hfull : Full p)
    (hall : p.cont = true → ∀ v, v < p.vertices.length → ∃ T ∈ p.triangles, v ∈ T) (hkeep : p.cont = true ∨ p.keepLast = false) :
    ∃ s, p.powMulti (List.replicate n 0) = .ok s ∧ WellFormed s ∧ SameKind s p ∧ s.tree = p.tree ∧ Denotes s (fun _ _ => 1) := by
  obtain ⟨s, e1, e2, e3, e4, e5, e6, e7⟩ := unitPower_spec h hfull hall hkeep
  refine ⟨s, ?_, e2, e3, e6, e7⟩
  have hn : MI.norm (List.replicate n 0) = 0 := by rw [show MI.norm (List.replicate n 0) = (List.replicate n 0).sum from rfl]; simp
  unfold PObj.powMulti
  rw [hn]
  cases hb : p.basis with
  | lagrange =>
    unfold PObj.powMultiLagrange
    simp only [List.length_replicate, decide_true, pyAssert_true, Py.bind_ok, hn, Nat.mul_zero, if_true]
    exact e1
  | bernstein =>
    simp only [PObj.powMultiBernsteinAux, List.length_replicate, decide_true, pyAssert_true, Py.bind_ok, hn, if_true]
    exact e1
  | monomial => exact absurd hb h.basis

omit [CharZero K] in
/-- **C91** Exponents of the wrong length are rejected. -/
theorem C91_length (p : PObj K (Fin n → K) m Tr) (a : List ℕ) (ha : a.length ≠ n) : p.powMulti a = .error .assertion := by
  unfold PObj.powMulti
  cases p.basis with
  | lagrange => simp only [PObj.powMultiLagrange, decide_eq_false ha]; rfl
  | bernstein => simp only [PObj.powMultiBernsteinAux, decide_eq_false ha]; rfl
  | monomial => simp only [PObj.powMultiBernsteinAux, decide_eq_false ha]; rfl

/-- **C91** A fault of the code: the Lagrange version returns the unit function whenever the degree of the result is zero. For a function that is constant on
each simplex this is the case for all exponents, so that the result is the constant one whatever the values of `p` are. -/
theorem C91_lagrange_constant {p : PObj K (Fin n → K) m Tr} (h : WellFormed p) (hfull : Full p) (hb : p.basis = .lagrange) (hr : p.r = 0)
    (hkeep : p.keepLast = false) (a : Fin n → ℕ) :
    ∃ s, p.powMulti (List.ofFn a) = .ok s ∧ SameKind s p ∧ Denotes s (fun _ _ => 1) := by
  have hc : p.cont = false := by
    cases hc : p.cont with
    | false => rfl
    | true => exact absurd hr (h.space.continuous hc).2
  obtain ⟨s, e1, e2, e3, e4, e5, e6, e7⟩ := unitPower_spec h hfull (fun h1 => by rw [hc] at h1; cases h1) (Or.inr hkeep)
  refine ⟨s, ?_, e3, e7⟩
  unfold PObj.powMulti
  simp only [hb]
  unfold PObj.powMultiLagrange
  simp only [List.length_ofFn, decide_true, pyAssert_true, Py.bind_ok, hr, Nat.zero_mul, if_true]
  exact e1

/-- **C91** A fault of the code: if the boundary degrees of freedom of a discontinuous function are numbered last, powers in the Bernstein basis fail for every
exponent, since the unit function, with which the recursion ends, cannot be constructed. -/
theorem C91_bernstein_keep {p : PObj K (Fin n → K) m Tr} (h : WellFormed p) (hb : p.basis = .bernstein) (hc : p.cont = false) (hk : p.keepLast = true)
    (a : Fin n → ℕ) : p.powMulti (List.ofFn a) = .error .value := by
  obtain ⟨F, hF⟩ := h.denotes
  unfold PObj.powMulti
  simp only [hb]
  have key : ∀ (fuel : ℕ) (ε : Fin n → ℕ), ∑ i, ε i < fuel → p.powMultiBernsteinAux fuel (List.ofFn ε) = .error .value := by
    intro fuel
    induction fuel with
    | zero => intro ε h; omega
    | succ fuel ih =>
      intro ε hfuel
      simp only [PObj.powMultiBernsteinAux, List.length_ofFn, decide_true, pyAssert_true, Py.bind_ok]
      have hnorm : MI.norm (List.ofFn ε) = ∑ i, ε i := by rw [show MI.norm (List.ofFn ε) = (List.ofFn ε).sum from rfl, List.sum_ofFn]
      by_cases h0 : ∑ i, ε i = 0
      · rw [if_pos (hnorm.trans h0)]
        exact unitPower_value h hc hk
      · rw [if_neg (fun h => h0 (hnorm.symm.trans h))]
        obtain ⟨i, hi, hne⟩ := find_ofFn ε h0
        rw [hi]
        obtain ⟨pi, c1, -⟩ := component_support h hF i
        have hle : (Pi.single i 1 : Fin n → ℕ) ≤ ε := single_le hne
        simp only
        rw [unit_ok n i i.2]
        simp only [Py.bind_ok]
        rw [c1, zero_set, sub_ofFn hle]
        simp only [Py.bind_ok]
        rw [ih _ (by rw [sum_sub hle]; simp; omega)]
        rfl
  refine key _ a ?_
  rw [show MI.norm (List.ofFn a) = (List.ofFn a).sum from rfl, List.sum_ofFn]
  omega


/-! ## Examples -/

/-- A space of functions that are constant on each triangle of the square. -/
theorem square_space_zero (b : Option (List (List ℕ))) (hb : AreSimplices (b.getD [])) : IsSpace false squareTriangles squareVertices 0 b :=
  ⟨(square_space false 1 one_ne_zero b hb).mesh, (square_space false 1 one_ne_zero b hb).cells, hb, fun h => by cases h⟩

/-- A continuous piecewise linear vector valued function on the square. -/
theorem square_vector (b : Basis) (hb : b ≠ .monomial) : ∃ p : PObj ℚ (Fin 2 → ℚ) 2 Unit,
    PObj.new (fun _ => .ok ()) b true [![1, 2], ![3, 4], ![5, 6], ![7, 8]] squareTriangles squareVertices 1 none none false none none none = .ok p ∧
    WellFormed p ∧ p.basis = b ∧ p.cont = true ∧ p.triangles = squareTriangles ∧ p.vertices = squareVertices ∧ Full p ∧ p.r = 1 := by
  obtain ⟨M, hM, hn⟩ : ∃ M, genMap true squareTriangles 1 none false = .ok M ∧ M.numDofs = 4 := ⟨_, rfl, rfl⟩
  obtain ⟨p, hnew, q1, q2, q3, q4, q5, q6, q7, q8, q9, q10, q11⟩ := C48_construct (K := ℚ) (V := Fin 2 → ℚ) (m := 2) (Tr := Unit) (b := b) hb
    (square_space true 1 (by norm_num) none (by simp [AreSimplices])) (Or.inr (by norm_num)) hM (coeff := [![1, 2], ![3, 4], ![5, 6], ![7, 8]]) hn (by simp)
    (tau := none) (Or.inl ⟨rfl, Or.inl rfl⟩) (mkTree := fun _ => .ok ()) (fun _ _ => ⟨_, rfl⟩)
  exact ⟨p, hnew, q1, q2, q3, q5, q6, Or.inr (by rw [q7]; rfl), q9⟩

/-- `C91_lagrange` and `C91_bernstein` apply to this function: the power with exponent (2, 3) has degree 5 or 6. -/
example : (∃ p : PObj ℚ (Fin 2 → ℚ) 2 Unit, ∃ F, WellFormed p ∧ Denotes p F ∧ p.basis = .lagrange ∧
      ∃ s, p.powMulti [2, 3] = .ok s ∧ s.r = 5 ∧ Denotes s (fun j x => F j x 0 ^ 2 * F j x 1 ^ 3)) ∧
    (∃ p : PObj ℚ (Fin 2 → ℚ) 2 Unit, ∃ F, WellFormed p ∧ Denotes p F ∧ p.basis = .bernstein ∧
      ∃ s, p.powMulti [2, 3] = .ok s ∧ s.r = 6 ∧ Denotes s (fun j x => F j x 0 ^ 2 * F j x 1 ^ 3)) := by
  constructor
  · obtain ⟨p, -, h2, h3, h4, h5, h6, h7, h8⟩ := square_vector .lagrange (by simp)
    obtain ⟨F, hF⟩ := h2.denotes
    obtain ⟨s, e1, -, -, e4, -, -, e7⟩ := (C91_lagrange h2 h7 hF h3 (by rw [h8]; norm_num) ![2, 3] (by simp)).1
      (Or.inr (by rw [h8]; exact Or.inr (by simp)))
    refine ⟨p, F, h2, hF, h3, s, by simpa using e1, by rw [e4, h8]; simp, ?_⟩
    simpa [Fin.prod_univ_two] using e7
  · obtain ⟨p, -, h2, h3, h4, h5, h6, h7, h8⟩ := square_vector .bernstein (by simp)
    obtain ⟨F, hF⟩ := h2.denotes
    obtain ⟨s, e1, -, -, e4, -, -, e7⟩ := (C91_bernstein h2 h7 hF h3 (fun _ v hv => by
        rw [h6] at hv
        rw [h5]
        have hv : v < 4 := hv
        have : v = 0 ∨ v = 1 ∨ v = 2 ∨ v = 3 := by omega
        rcases this with rfl | rfl | rfl | rfl
        · exact ⟨[0, 1, 2], by simp [squareTriangles], by simp⟩
        · exact ⟨[0, 1, 2], by simp [squareTriangles], by simp⟩
        · exact ⟨[0, 1, 2], by simp [squareTriangles], by simp⟩
        · exact ⟨[1, 3, 2], by simp [squareTriangles], by simp⟩) (Or.inl h4) ![2, 3] (by simp)).1
      (Or.inr (by rw [h8]; exact Or.inr (by simp [h4])))
    refine ⟨p, F, h2, hF, h3, s, by simpa using e1, by rw [e4, h8]; simp [h4], ?_⟩
    simpa [Fin.prod_univ_two] using e7

/-- The function with the values (2, 3) and (5, 7) on the two triangles of the square: the power with the exponent (1, 1) should have the value 6 on the first
triangle, but has the value 1. -/
example : ∃ p : PObj ℚ (Fin 2 → ℚ) 2 Unit,
    PObj.new (fun _ => .ok ()) .lagrange false [![2, 3], ![5, 7]] squareTriangles squareVertices 0 none none false none none none = .ok p ∧
    p.evaluateOnSimplex 0 ![0, 0] = .ok ![2, 3] ∧ ∃ s, p.powMulti [1, 1] = .ok s ∧ s.evaluateOnSimplex 0 ![0, 0] = .ok 1 := by
  obtain ⟨M, hM, hn, hM0⟩ : ∃ M, genMap false squareTriangles 0 none false = .ok M ∧ M.numDofs = 2 ∧ M.tau 0 [0, 0] = .ok 0 := ⟨_, rfl, rfl, rfl⟩
  obtain ⟨p, hnew, q1, q2, q3, q4, q5, q6, q7, q8, q9, q10, q11⟩ := C48_construct (K := ℚ) (V := Fin 2 → ℚ) (m := 2) (Tr := Unit) (b := .lagrange) (by simp)
    (square_space_zero none (by simp [AreSimplices])) (Or.inr (by norm_num)) hM (coeff := [![2, 3], ![5, 7]]) hn (by simp)
    (tau := none) (Or.inl ⟨rfl, Or.inr rfl⟩) (mkTree := fun _ => .ok ()) (fun _ _ => ⟨_, rfl⟩)
  obtain ⟨s, e1, e3, e2⟩ := C91_lagrange_constant q1 (Or.inr (by rw [q7]; rfl)) q2 q9 q8 ![1, 1]
  refine ⟨p, hnew, ?_, s, by simpa using e1, ?_⟩
  · rw [q11 0 (by simp [squareTriangles]) (fun i => [![0, 0], ![1, 0], ![0, 1]][(i : ℕ)]'(i.2)) rfl ![0, 0] ![1, 0, 0]
      ⟨by simp [Fin.sum_univ_three], by funext i; fin_cases i <;> simp [Fin.sum_univ_three]⟩]
    congr 1
    unfold combination
    rw [show (Fintype.piFinset fun _ : Fin 2 => Finset.range (0 + 1)).filter (fun ν => ∑ i, ν i ≤ 0) = {0} by decide, Finset.sum_singleton]
    have h1 : coeffAt M.tau [![(2 : ℚ), 3], ![5, 7]] 0 (List.ofFn (0 : Fin 2 → ℕ)) = ![2, 3] := by
      unfold coeffAt
      rw [show List.ofFn (0 : Fin 2 → ℕ) = [0, 0] by simp]
      rw [show ((0 : ℕ) : ℤ) = 0 by rfl, hM0]
      rfl
    rw [h1]
    simp [Poly.basisFn, Spec.lagrange, Spec.fallingBinomial]
  · have ht : s.triangles = squareTriangles := e3.triangles.trans q5
    exact e2 0 (by rw [ht]; simp [squareTriangles]) _

end Verif.Props
