import Verif.Props.PiecewiseExamples
/-!
# Property C48: when the unit and the zero function of a space can be created
-/

namespace Verif.Props
open Verif Verif.Poly Verif.Simplex Verif.SPoly Verif.L2G Verif.Spec Verif.PP

variable {K V : Type} [Field K] [DecidableEq K] [CharZero K] [AddCommGroup V] [Module K V] [DecidableEq V] {m : ℕ} {Tr : Type}

/-- The functions `unit_*` and `zero_*` use one coefficient for each vertex of the vertex list (continuous functions, degree one) or for each simplex
(discontinuous functions, degree zero). These are the degrees of freedom of the space if, for continuous functions, every vertex belongs to a
simplex of the mesh and is not part of a boundary simplex (unless the boundary is numbered last), and, for discontinuous functions, no
simplex of the mesh is part of a boundary simplex. For discontinuous functions the boundary must not be numbered last. -/
def CountsMatch (cont : Bool) (triangles : List (List ℕ)) (numVertices : ℕ) (boundary : Option (List (List ℕ))) (keepLast : Bool) : Prop :=
  if cont then ∀ v, v < numVertices → (∃ T ∈ triangles, v ∈ T) ∧ (keepLast = true ∨ ∀ b ∈ boundary.getD [], v ∉ b)
  else ∀ T ∈ triangles, ∀ b ∈ boundary.getD [], ∃ v ∈ T, v ∉ b

theorem noDrop_of_counts {cont : Bool} {triangles : List (List ℕ)} {vertices : List (Fin m → K)} {boundary : Option (List (List ℕ))} {keepLast : Bool}
    (hsp : IsSpace cont triangles vertices (if cont then 1 else 0) boundary) (h : CountsMatch cont triangles vertices.length boundary keepLast) :
    NoDrop m (if cont then 1 else 0) triangles boundary keepLast := by
  cases cont with
  | false =>
    refine Or.inr fun T hT ν hν ho => ?_
    obtain ⟨b, hb, ho⟩ := ho
    obtain ⟨v, hv, hvb⟩ := h T hT b hb
    exact hvb (ho v hv (Or.inl rfl))
  | true =>
    by_cases hk : keepLast = true
    · exact Or.inl hk
    · refine Or.inr fun T hT ν hν ho => ?_
      obtain ⟨b, hb, ho⟩ := ho
      obtain ⟨j, hj, rfl⟩ := List.getElem_of_mem hT
      obtain ⟨w, hw, hl⟩ := lattice_single hsp.mesh j hj ν hν
      rw [getD_triangles hj] at hl
      rcases (h w (hsp.vertex_lt hj hw)).2 with h1 | h1
      · exact hk h1
      · refine h1 b hb (ho w hw (Or.inr ?_))
        simp only [if_true]
        rw [hl, Pi.single_eq_same]; omega

theorem count_lt {cont : Bool} {triangles : List (List ℕ)} {vertices : List (Fin m → K)} {boundary : Option (List (List ℕ))} {keepLast : Bool}
    (hsp : IsSpace cont triangles vertices (if cont then 1 else 0) boundary) (hk : cont = true ∨ keepLast = false)
    (h : ¬ CountsMatch cont triangles vertices.length boundary keepLast) {M : L2G.Map} {N : ℕ} {t : ℕ → List ℕ → ℤ}
    (ht : TauSpec cont m (if cont then 1 else 0) triangles boundary keepLast M N t) :
    N < if cont then vertices.length else triangles.length := by
  choose g μ hg1 hg2 hg3 using fun i : Fin N => ht.surj i i.2
  cases cont with
  | false =>
    obtain hk | hk := hk
    · cases hk
    unfold CountsMatch at h
    simp only [Bool.false_eq_true, if_false] at h ⊢
    push Not at h
    obtain ⟨T, hT, b, hb, hTb⟩ := h
    obtain ⟨j0, hj0, rfl⟩ := List.getElem_of_mem hT
    have hz : ∀ ν, IsIndex m 0 ν → ν = List.replicate m 0 := by
      intro ν hν
      rw [List.eq_replicate_iff]
      refine ⟨hν.1, fun a ha => ?_⟩
      have := List.le_sum_of_mem ha
      have := hν.2
      omega
    have hinj : Function.Injective (fun i : Fin N => (⟨g i, hg1 i⟩ : Fin triangles.length)) := by
      intro i i' h
      simp only [Fin.mk.injEq] at h
      have h1 := hg3 i
      rw [hz _ (hg2 i), h] at h1
      have h2 := hg3 i'
      rw [hz _ (hg2 i'), h1] at h2
      exact Fin.ext (by omega)
    have := Fintype.card_lt_of_injective_of_notMem _ hinj (b := ⟨j0, hj0⟩) (by
      rintro ⟨i, hi⟩
      simp only [Fin.mk.injEq] at hi
      have h1 := (ht.drop (g i) (hg1 i) (μ i) (hg2 i)).2 ⟨hk, b, hb, fun v hv _ => hTb v (by rw [hi, getD_triangles hj0] at hv; exact hv)⟩
      rw [hg3 i] at h1; omega)
    simpa using this
  | true =>
    unfold CountsMatch at h
    simp only [if_true] at h ⊢
    push Not at h
    obtain ⟨v, hv, hbad⟩ := h
    choose w hw1 hw2 using fun i : Fin N => lattice_single hsp.mesh (g i) (hg1 i) (μ i) (hg2 i)
    have hinj : Function.Injective (fun i : Fin N => (⟨w i, hsp.vertex_lt (hg1 i) (hw1 i)⟩ : Fin vertices.length)) := by
      intro i i' h
      simp only [Fin.mk.injEq] at h
      have := ht.same _ (hg1 i) _ (hg2 i) _ (hg1 i') _ (hg2 i') (by
        unfold SameDof
        simp only [if_true]
        rw [hw2, hw2, h])
      rw [hg3, hg3] at this
      exact Fin.ext (by omega)
    have := Fintype.card_lt_of_injective_of_notMem _ hinj (b := ⟨v, hv⟩) (by
      rintro ⟨i, hi⟩
      simp only [Fin.mk.injEq] at hi
      obtain ⟨hkl, b, hb, hvb⟩ := hbad ⟨_, List.getElem_mem (hg1 i), hi ▸ hw1 i⟩
      have h1 := (ht.drop (g i) (hg1 i) (μ i) (hg2 i)).2 ⟨by simpa using hkl, b, hb, fun u hu hor => by
        rcases hor with h0 | h0
        · simp at h0
        · simp only [if_true] at h0
          rw [hw2 i] at h0
          by_cases huw : u = w i
          · rw [huw, hi]; exact hvb
          · rw [Pi.single_eq_of_ne huw] at h0; exact absurd rfl h0⟩
      rw [hg3 i] at h1; omega)
    simpa using this

/-- **C48** `unit_*_piecewise_polynomial_*` and `zero_*_piecewise_polynomial_*` without a given local-to-global map return the function that is one or
zero on each simplex exactly when the number of vertices or simplices is the number of degrees of freedom (`CountsMatch`). Otherwise both raise
AssertionError: in particular for continuous functions that vanish on a part of the mesh, and for vertex lists with unused vertices. -/
theorem C48_unit_zero_exact {b : Basis} (hb : b ≠ .monomial) {cont : Bool} {triangles : List (List ℕ)} {vertices : List (Fin m → K)}
    {boundary : Option (List (List ℕ))} {keepLast : Bool} (hsp : IsSpace cont triangles vertices (if cont then 1 else 0) boundary)
    (hkeep : cont = true ∨ keepLast = false) {mkTree : List ℕ → Py Tr} (htree : ∀ S : List ℕ, (∀ j ∈ S, j < triangles.length) → ∃ T, mkTree S = .ok T) :
    (CountsMatch cont triangles vertices.length boundary keepLast →
      (∃ p : PObj K K m Tr, unitPiecewise mkTree b cont triangles vertices none boundary keepLast none = .ok p ∧ WellFormed p ∧ Denotes p (fun _ _ => 1)) ∧
      (∃ p : PObj K V m Tr, zeroPiecewise V mkTree b cont triangles vertices none boundary keepLast none = .ok p ∧ WellFormed p ∧
        Denotes p (fun _ _ => 0))) ∧
    (¬ CountsMatch cont triangles vertices.length boundary keepLast →
      (unitPiecewise mkTree b cont triangles vertices none boundary keepLast none : Py (PObj K K m Tr)) = .error .assertion ∧
      (zeroPiecewise V mkTree b cont triangles vertices none boundary keepLast none : Py (PObj K V m Tr)) = .error .assertion) := by
  obtain ⟨M, N, t, hM, ht⟩ := genMap_spec hsp keepLast
  constructor
  · intro hc
    have hnd := noDrop_of_counts hsp hc
    have hall : cont = true → ∀ v, v < vertices.length → ∃ T ∈ triangles, v ∈ T := by
      rintro rfl v hv
      exact (hc v hv).1
    obtain ⟨T, hT⟩ := htree (List.range triangles.length) (by simp)
    obtain ⟨T', hT'⟩ := htree [] (by simp)
    obtain ⟨p, e1, e2, -, -, -, -, -, -, -, -, e3⟩ := unit_spec (Tr := Tr) hb hsp hM hnd hall (tauO := none) (Or.inl ⟨rfl, hkeep⟩)
      (mkTree := mkTree) (treeO := none) (tree := T) hT
    obtain ⟨q, f1, f2, -, -, -, -, -, -, -, -, f3⟩ := zero_spec (V := V) (Tr := Tr) hb hsp hM hnd hall (tauO := none) (Or.inl ⟨rfl, hkeep⟩)
      (mkTree := mkTree) (treeO := none) (tree := T') hT'
    exact ⟨⟨p, e1, e2, e3⟩, ⟨q, f1, f2, f3⟩⟩
  · intro hc
    have hN := count_lt hsp hkeep hc ht
    have key : ∀ n, n = (if cont then vertices.length else triangles.length) →
        tauArg cont n triangles (if cont then 1 else 0) none boundary keepLast = .error .assertion := by
      rintro n rfl
      unfold tauArg
      simp only
      rw [hM, Py.bind_ok, if_neg (by rcases hkeep with h | h <;> simp [h])]
      rw [decide_eq_false (by rw [ht.num]; exact_mod_cast hN.ne)]
      rfl
    constructor
    · unfold unitPiecewise PObj.new
      rw [key _ (by simp)]; rfl
    · unfold zeroPiecewise PObj.new
      rw [key _ (by simp [zeros])]; rfl

/-- **C48** For discontinuous functions with the boundary numbered last, `unit_*` and `zero_*` raise ValueError (as the constructor always does there
without a given local-to-global map). -/
theorem C48_unit_zero_last {b : Basis} {triangles : List (List ℕ)} {vertices : List (Fin m → K)} {boundary : Option (List (List ℕ))}
    (hsp : IsSpace false triangles vertices 0 boundary) {mkTree : List ℕ → Py Tr} :
    (unitPiecewise mkTree b false triangles vertices none boundary true none : Py (PObj K K m Tr)) = .error .value ∧
    (zeroPiecewise V mkTree b false triangles vertices none boundary true none : Py (PObj K V m Tr)) = .error .value := by
  obtain ⟨M, N, t, hM, -⟩ := genMap_spec hsp true
  constructor
  · unfold unitPiecewise PObj.new tauArg
    simp only [Bool.false_eq_true, if_false]
    rw [hM]; rfl
  · unfold zeroPiecewise PObj.new tauArg
    simp only [Bool.false_eq_true, if_false]
    rw [hM]; rfl

/-- **C48** The power zero of a piecewise polynomial is the constant function one on each simplex exactly when the numbers of vertices (continuous) or
simplices (discontinuous) are the numbers of degrees of freedom of degree one or zero; otherwise `p ** 0` raises AssertionError, in particular
always for a continuous function that vanishes on a part of the boundary. For discontinuous functions with the boundary numbered last it raises
ValueError. -/
theorem C48_pow_zero_exact {p : PObj K K m Tr} (h : WellFormed p) :
    (p.cont = true ∨ p.keepLast = false →
      (CountsMatch p.cont p.triangles p.vertices.length p.boundary p.keepLast →
        ∃ s, p.powNat 0 = .ok s ∧ WellFormed s ∧ SameKind s p ∧ Denotes s (fun _ _ => 1)) ∧
      (¬ CountsMatch p.cont p.triangles p.vertices.length p.boundary p.keepLast → p.powNat 0 = .error .assertion)) ∧
    (p.cont = false → p.keepLast = true → p.powNat 0 = .error .value) := by
  have hsp : IsSpace p.cont p.triangles p.vertices (if p.cont then 1 else 0) p.boundary :=
    ⟨h.space.mesh, h.space.cells, h.space.boundary, fun hc => ⟨(h.space.continuous hc).1, by rw [hc]; simp⟩⟩
  obtain ⟨M, N, t, hM, ht⟩ := genMap_spec hsp p.keepLast
  refine ⟨fun hk => ⟨fun hc => ?_, fun hc => ?_⟩, fun hc hk => ?_⟩
  · obtain ⟨s, e1, e2, e3, e4, e5, e6, e7, e8, -, -, e10⟩ := unit_spec (Tr := Tr) h.basis hsp hM (noDrop_of_counts hsp hc)
      (fun hct v hv => by
        unfold CountsMatch at hc
        rw [if_pos hct] at hc
        exact (hc v hv).1) (tauO := none) (Or.inl ⟨rfl, hk⟩)
      (mkTree := fun _ => .ok p.tree) (treeO := some p.tree) (tree := p.tree) rfl
    exact ⟨s, e1, e2, ⟨e3, e4, e5, e6, e7, e8⟩, e10⟩
  · have hN := count_lt hsp hk hc ht
    show unitPiecewise (fun _ => .ok p.tree) p.basis p.cont p.triangles p.vertices none p.boundary p.keepLast (some p.tree) = _
    unfold unitPiecewise PObj.new tauArg
    simp only
    rw [hM, Py.bind_ok, if_neg (by rcases hk with h | h <;> simp [h])]
    rw [decide_eq_false (by rw [ht.num, List.length_replicate]; exact_mod_cast hN.ne)]
    rfl
  · show unitPiecewise (fun _ => .ok p.tree) p.basis p.cont p.triangles p.vertices none p.boundary p.keepLast (some p.tree) = _
    unfold unitPiecewise PObj.new tauArg
    simp only
    rw [hM, Py.bind_ok, if_pos (by simp [hc, hk])]
    rfl

/-! ## Examples -/

/-- The unit function on the square in the space of continuous functions that vanish at the vertex 0. -/
example : (unitPiecewise (fun _ => .ok ()) .lagrange true squareTriangles squareVertices none (some [[0]]) false none : Py (PObj ℚ ℚ 2 Unit)) =
    .error .assertion :=
  ((C48_unit_zero_exact (V := ℚ) (by simp) (square_space true 1 (by norm_num) (some [[0]]) (by simp [AreSimplices])) (Or.inl rfl)
    (fun _ _ => ⟨(), rfl⟩)).2 (fun h => by
      rcases (h 0 (by simp [squareVertices])).2 with h1 | h1
      · cases h1
      · exact h1 [0] (by simp) (by simp))).1

/-- A vertex that is not used: the unit function on the square with a fifth vertex in the vertex list. -/
example : ¬ CountsMatch true squareTriangles 5 none false := fun h => by
  obtain ⟨T, hT, h4⟩ := (h 4 (by norm_num)).1
  simp [squareTriangles] at hT
  rcases hT with rfl | rfl <;> simp at h4

/-- Functions that are constant on each triangle and "vanish" on an edge: the space contains all of them, also the unit function. -/
example : ∃ p : PObj ℚ ℚ 2 Unit, unitPiecewise (fun _ => .ok ()) .bernstein false squareTriangles squareVertices none (some [[0, 1]]) false none = .ok p ∧
    WellFormed p ∧ Denotes p (fun _ _ => 1) :=
  ((C48_unit_zero_exact (V := ℚ) (b := .bernstein) (by simp) (cont := false) (m := 2) (K := ℚ)
    ⟨(square_space false 1 one_ne_zero (some [[0, 1]]) (by simp [AreSimplices])).mesh,
      (square_space false 1 one_ne_zero (some [[0, 1]]) (by simp [AreSimplices])).cells, by simp [AreSimplices], fun h => by cases h⟩ (Or.inr rfl)
    (fun _ _ => ⟨(), rfl⟩)).1 (by
      intro T hT b hb
      simp only [Option.getD_some, List.mem_singleton] at hb
      subst hb
      refine ⟨2, ?_, by simp⟩
      simp [squareTriangles] at hT
      rcases hT with rfl | rfl <;> simp)).1

end Verif.Props
