import Verif.Lemmas.DualBases
/-!
# C29 and C30: dual bases and conversion between bases

The multi-indices of norm at most `r` are listed by `MI.generateAll m r`, in the order described by C02 and C03. `basisFn b r x ν` is the
basis function (monomial, Bernstein or Lagrange) for the multi-index `ν` at the point `x`.
-/

namespace Verif.Props
open Verif Verif.Poly Verif.Spec Verif.MI

/-! ## C29 -/

/-- C29: applied to a polynomial whose function is `Σ aᵢ bᵢ`, where `bᵢ` are the basis functions of degree `r` of one of the three bases,
the functions of the dual basis return the coefficients `a₀, a₁, …`. The polynomial may be given in another basis and, except for the
Bernstein basis, with another degree. The Bernstein dual functions multiply with a polynomial of degree `r`, which needs `2 r ≤ 19`. -/
theorem C29_dual_basis {m r : Nat} (b : Basis) {p : Obj ℝ} {f : (Fin m → ℝ) → ℝ} (hp : Represents p m f) (a : List ℝ)
    (ha : a.length = getDimension r m) (hf : ∀ x, f x = linComb (basisFn b r (List.ofFn x)) (MI.generateAll m r) a)
    (hb : b = .bernstein → p.r = r ∧ Fits (2 * r) m) :
    ∃ duals, dualPolynomialBasis ℝ r m b.identifier = .ok duals ∧ duals.mapM (fun q => q p) = .ok a := by
  obtain ⟨c, rfl⟩ := exists_tab m r a ha
  have e : f = val b m r c := by funext x; rw [hf, linComb_val]
  subst e
  obtain ⟨qs, h1, h2⟩ := dualBasis_spec b r m (fun h => (hb h).2.mono (by omega))
  exact ⟨_, h1, tab_mapM m r qs _ c (fun ν hν => (h2 ν hν).2 p c hp hb)⟩

/-- C29: applied to a polynomial, the functions of the dual basis for its own basis and degree return its coefficients. -/
theorem C29_own_coefficients {m : Nat} {p : Obj ℝ} {f : (Fin m → ℝ) → ℝ} (hp : Represents p m f)
    (hb : p.basis = .bernstein → Fits (2 * p.r) m) :
    ∃ duals, dualPolynomialBasis ℝ p.r m p.basis.identifier = .ok duals ∧ duals.mapM (fun q => q p) = .ok p.coeff := by
  obtain ⟨c, hc, hfc, _⟩ := hp.exists_mk
  have hcoeff : p.coeff = tab m p.r c := by rw [hc]; rfl
  refine C29_dual_basis p.basis hp p.coeff (by rw [hcoeff, length_tab]) (fun x => ?_) (fun h => ⟨rfl, hb h⟩)
  rw [hcoeff, linComb_val, hfc]

/-- C29: the single dual function for the multi-index `μ`. -/
theorem C29_dual_function {m r : Nat} (b : Basis) {p : Obj ℝ} {f : (Fin m → ℝ) → ℝ} (hp : Represents p m f) (a : List ℝ)
    (ha : a.length = getDimension r m) (hf : ∀ x, f x = linComb (basisFn b r (List.ofFn x)) (MI.generateAll m r) a)
    (hb : b = .bernstein → p.r = r ∧ Fits (2 * r) m) (i : Nat) (hi : i < a.length) (μ : List Nat)
    (hμ : (MI.generateAll m r)[i]? = some μ) :
    ∃ q, dualPolynomialBasisFn ℝ μ r b.identifier = .ok q ∧ q p = .ok a[i] := by
  obtain ⟨c, rfl⟩ := exists_tab m r a ha
  have e : f = val b m r c := by funext x; rw [hf, linComb_val]
  subst e
  rw [MI.generateAll_eq_mis] at hμ
  obtain ⟨qs, h1, h2⟩ := dualBasis_spec b r m (fun h => (hb h).2.mono (by omega))
  have hm := List.mem_of_getElem? hμ
  refine ⟨_, (h2 μ hm).1, ?_⟩
  rw [(h2 μ hm).2 p c hp hb]
  congr 1
  have := (List.getElem?_eq_some_iff.1 hμ).2
  simp [tab, this]

theorem basisFn_rep (b : Basis) (m r : Nat) (ν : List Nat) (hν : ν ∈ mis m r) (hf : Fits r m) :
    ∃ s, polynomialBasisFn ℝ ν r b.identifier = .ok s ∧ Represents s m (fun x => basisFn b r (List.ofFn x) ν) ∧ s.basis = b ∧
      (b ≠ .monomial → s.r = r) := by
  obtain ⟨hl, hs⟩ := mem_mis.1 hν
  unfold polynomialBasisFn
  rw [basisOf_identifier, Py.bind_ok]
  cases b with
  | monomial =>
    obtain ⟨s, h1, h2, h3, _⟩ := monomialBasisFn_rep (K := ℝ) ν m hl (hf.mono hs)
    exact ⟨s, h1, h2, h3, fun h => absurd rfl h⟩
  | bernstein => exact ⟨_, bernsteinBasisFn_eq ν r m hl hs hf, single_rep .bernstein m r ν hl hs hf, rfl, fun _ => rfl⟩
  | lagrange => exact ⟨_, lagrangeBasisFn_eq ν r m hl hs hf, single_rep .lagrange m r ν hl hs hf, rfl, fun _ => rfl⟩

theorem basis_rep (b : Basis) (m r : Nat) (hf : Fits r m) :
    ∃ ss : List Nat → Obj ℝ, polynomialBasis ℝ r m b.identifier = .ok (tab m r ss) ∧ ∀ ν ∈ mis m r,
      polynomialBasisFn ℝ ν r b.identifier = .ok (ss ν) ∧
      Represents (ss ν) m (fun x : Fin m → ℝ => basisFn b r (List.ofFn x) ν) ∧ (ss ν).basis = b ∧ (b ≠ .monomial → (ss ν).r = r) := by
  classical
  let ss : List Nat → Obj ℝ := fun ν => if h : ν ∈ mis m r then (basisFn_rep b m r ν h hf).choose else ⟨b, [], 0, 0⟩
  have hss : ∀ ν ∈ mis m r, polynomialBasisFn ℝ ν r b.identifier = .ok (ss ν) ∧
      Represents (ss ν) m (fun x : Fin m → ℝ => basisFn b r (List.ofFn x) ν) ∧ (ss ν).basis = b ∧ (b ≠ .monomial → (ss ν).r = r) := by
    intro ν hν
    simp only [ss, dif_pos hν]
    exact (basisFn_rep b m r ν hν hf).choose_spec
  refine ⟨ss, ?_, hss⟩
  unfold polynomialBasis
  rw [basisOf_identifier, Py.bind_ok]
  have : (MI.generateAll m r).mapM (fun ν => polynomialBasisFn ℝ ν r b.identifier) = .ok (tab m r ss) := by
    rw [MI.generateAll_eq_mis]
    exact mapM_eq_ok _ _ (fun ν hν => (hss ν hν).1)
  rw [← this]
  unfold polynomialBasisFn
  rw [basisOf_identifier]
  cases b <;> rfl

/-- C29: Applying the `i`:th dual function to the `j`:th basis function gives 1 if `i = j`, otherwise 0. -/
theorem C29_kronecker (b : Basis) (m r : Nat) (hf : Fits r m) (hb : b = .bernstein → Fits (2 * r) m) :
    ∃ ps duals, polynomialBasis ℝ r m b.identifier = .ok ps ∧ dualPolynomialBasis ℝ r m b.identifier = .ok duals ∧
      ps.length = getDimension r m ∧ duals.length = getDimension r m ∧
      ∀ (i j : Nat) (q : Obj ℝ → Py ℝ) (p : Obj ℝ), duals[i]? = some q → ps[j]? = some p → q p = .ok (if i = j then 1 else 0) := by
  obtain ⟨ss, h1, h2⟩ := basis_rep b m r hf
  obtain ⟨qs, h3, h4⟩ := dualBasis_spec b r m (fun _ => hf)
  refine ⟨_, _, h1, h3, length_tab _ _ _, length_tab _ _ _, ?_⟩
  intro i j q p hq hp
  simp only [tab, List.getElem?_map, Option.map_eq_some_iff] at hq hp
  obtain ⟨μ, hμ, rfl⟩ := hq
  obtain ⟨ν, hν, rfl⟩ := hp
  have m1 := List.mem_of_getElem? hμ
  have m2 := List.mem_of_getElem? hν
  obtain ⟨_, a2, a3, a4⟩ := h2 ν m2
  obtain ⟨hl, hs⟩ := mem_mis.1 m2
  have e : (fun x : Fin m → ℝ => basisFn b r (List.ofFn x) ν) = val b m r (fun τ => if τ = ν then (1 : ℝ) else 0) :=
    (funext (val_single (K := ℝ) b m r ν hl hs)).symm
  rw [e] at a2
  rw [(h4 μ m1).2 _ _ a2 (fun h => ⟨a4 (by rw [h]; simp), hb h⟩)]
  congr 1
  by_cases hij : i = j
  · subst hij
    rw [hμ] at hν
    rw [Option.some.inj hν]; simp
  · rw [if_neg hij, if_neg]
    rintro rfl
    obtain ⟨g1, g2⟩ := List.getElem?_eq_some_iff.1 hμ
    obtain ⟨g3, g4⟩ := List.getElem?_eq_some_iff.1 hν
    exact hij ((nodup_mis m r).getElem_inj_iff.1 (g2.trans g4.symm))

/-- C29: The function returned for the Bernstein basis fails for polynomials of another degree. -/
theorem C29_bernstein_other_degree {m r : Nat} (hm : 0 < m) (hf : Fits r m) {p : Obj ℝ} {f : (Fin m → ℝ) → ℝ} (hp : Represents p m f)
    (hr : p.r ≠ r) (μ : List Nat) (hμ : μ ∈ MI.generateAll m r) :
    ∃ q, dualPolynomialBasisFn ℝ μ r "Bernstein" = .ok q ∧ q p = .error .assertion := by
  rw [MI.generateAll_eq_mis] at hμ
  obtain ⟨h1, h2⟩ := mem_mis.1 hμ
  obtain ⟨μ', rfl⟩ := eq_ofFn h1
  have hμ' : μ' ∈ S m r := mem_S.2 (by rwa [List.sum_ofFn] at h2)
  obtain ⟨e, d1, _⟩ := dualPolynomial_spec r m hf μ' hμ'
  refine ⟨dualBernsteinApply (mkObj .bernstein m r e) m r, ?_, ?_⟩
  · show dualBernsteinFn ℝ (List.ofFn μ') r = _
    unfold dualBernsteinFn
    rw [d1, List.length_ofFn]; rfl
  · exact dualApply_assertion e hf hp (Or.inl ⟨hm, hr⟩)

/-- C29: For degrees from 10 on the functions of the dual Bernstein basis fail for every polynomial in at least one variable: the product has
degree at least 20 (see C11). -/
theorem C29_bernstein_degree_ten {m r : Nat} (hm : 0 < m) (hf : Fits r m) (hr : 10 ≤ r) {p : Obj ℝ} {f : (Fin m → ℝ) → ℝ}
    (hp : Represents p m f) (μ : List Nat) (hμ : μ ∈ MI.generateAll m r) :
    ∃ q, dualPolynomialBasisFn ℝ μ r "Bernstein" = .ok q ∧ q p = .error .assertion := by
  by_cases h : p.r = r
  · rw [MI.generateAll_eq_mis] at hμ
    obtain ⟨h1, h2⟩ := mem_mis.1 hμ
    obtain ⟨μ', rfl⟩ := eq_ofFn h1
    have hμ' : μ' ∈ S m r := mem_S.2 (by rwa [List.sum_ofFn] at h2)
    obtain ⟨e, d1, _⟩ := dualPolynomial_spec r m hf μ' hμ'
    refine ⟨dualBernsteinApply (mkObj .bernstein m r e) m r, ?_, ?_⟩
    · show dualBernsteinFn ℝ (List.ofFn μ') r = _
      unfold dualBernsteinFn
      rw [d1, List.length_ofFn]; rfl
    · exact dualApply_assertion e hf hp (Or.inr (by rw [h]; unfold Fits; omega))
  · exact C29_bernstein_other_degree hm hf hp h μ hμ

/-- C29: the dual Bernstein polynomials: `∫ Dᵢ Bⱼ` over the unit simplex is 1 if `i = j`, otherwise 0. -/
theorem C29_dual_bernstein_polynomials (m r : Nat) (hf : Fits r m) :
    ∃ ds, dualBernsteinPolynomialBasis ℝ r m = .ok ds ∧ ds.length = getDimension r m ∧
      ∀ (i j : Nat) (d : Obj ℝ) (ν : List Nat), ds[i]? = some d → (MI.generateAll m r)[j]? = some ν →
        ∃ f : (Fin m → ℝ) → ℝ, Represents d m f ∧ d.basis = .bernstein ∧ d.r = r ∧
          ∫ x in unitSimplex m, f x * bernstein r (List.ofFn x) ν = if i = j then 1 else 0 := by
  have key : ∀ μ ∈ mis m r, ∃ e, dualBernsteinPolynomial ℝ μ r = .ok (mkObj .bernstein m r e) ∧
      ∀ ν ∈ mis m r, ∫ x in unitSimplex m, val .bernstein m r e x * bernstein r (List.ofFn x) ν = if ν = μ then 1 else 0 := by
    intro μ hμ
    obtain ⟨h1, h2⟩ := mem_mis.1 hμ
    obtain ⟨μ', rfl⟩ := eq_ofFn h1
    obtain ⟨e, d1, d2⟩ := dualPolynomial_spec r m hf μ' (mem_S.2 (by rwa [List.sum_ofFn] at h2))
    refine ⟨e, d1, fun ν hν => ?_⟩
    obtain ⟨h3, h4⟩ := mem_mis.1 hν
    obtain ⟨ν', rfl⟩ := eq_ofFn h3
    have hν' : ν' ∈ S m r := mem_S.2 (by rwa [List.sum_ofFn] at h4)
    rw [integral_val_mul e hν', d2 ν' hν']
    by_cases h : ν' = μ'
    · rw [if_pos h, if_pos (by rw [h])]
    · rw [if_neg h, if_neg (fun h' => h (List.ofFn_injective h'))]
  classical
  let es : List Nat → List Nat → ℝ := fun μ => if h : μ ∈ mis m r then (key μ h).choose else fun _ => 0
  have hes : ∀ μ ∈ mis m r, dualBernsteinPolynomial ℝ μ r = .ok (mkObj .bernstein m r (es μ)) ∧
      ∀ ν ∈ mis m r, ∫ x in unitSimplex m, val .bernstein m r (es μ) x * bernstein r (List.ofFn x) ν = if ν = μ then 1 else 0 := by
    intro μ hμ
    simp only [es, dif_pos hμ]
    exact (key μ hμ).choose_spec
  refine ⟨tab m r (fun μ => mkObj .bernstein m r (es μ)), ?_, length_tab _ _ _, ?_⟩
  · unfold dualBernsteinPolynomialBasis
    rw [MI.generateAll_eq_mis]
    exact mapM_eq_ok _ _ (fun ν hν => (hes ν hν).1)
  · intro i j d ν hd hν
    rw [MI.generateAll_eq_mis] at hν
    simp only [tab, List.getElem?_map, Option.map_eq_some_iff] at hd
    obtain ⟨μ, hμ, rfl⟩ := hd
    refine ⟨_, rep_mk _ _ _ _ hf, rfl, rfl, ?_⟩
    rw [(hes μ (List.mem_of_getElem? hμ)).2 ν (List.mem_of_getElem? hν)]
    by_cases hij : i = j
    · subst hij; rw [hμ] at hν; rw [Option.some.inj hν]; simp
    · rw [if_neg hij, if_neg]
      rintro rfl
      obtain ⟨g1, g2⟩ := List.getElem?_eq_some_iff.1 hμ
      obtain ⟨g3, g4⟩ := List.getElem?_eq_some_iff.1 hν
      exact hij ((nodup_mis m r).getElem_inj_iff.1 (g2.trans g4.symm))

/-- C29: a vector valued polynomial with function `Σ aₖ bₖ` (`aₖ` vectors of length `n ≠ 1`): the vector valued dual basis returns all
components of `a₀`, then those of `a₁`, … with interleaved ordering, and otherwise the first components of all `aₖ`, then the second, …. -/
theorem C29_vector_dual_basis {m r n : Nat} (hn : n ≠ 1) (b : Basis) {p : Obj (Fin n → ℝ)} {f : (Fin m → ℝ) → (Fin n → ℝ)}
    (hp : Represents p m f) (a : List (Fin n → ℝ)) (ha : a.length = getDimension r m)
    (hf : ∀ x, f x = linComb (basisFn b r (List.ofFn x)) (MI.generateAll m r) a)
    (hb : b = .bernstein → p.r = r ∧ Fits (2 * r) m) (ordering : String) :
    ∃ duals, dualVectorPolynomialBasis ℝ r m n b.identifier ordering = .ok duals ∧
      duals.mapM (fun q => q (.vector n p)) = .ok (if ordering = "interleaved" then a.flatMap (fun v => List.ofFn v)
        else (List.finRange n).flatMap (fun i => a.map (fun v => v i))) := by
  obtain ⟨c, rfl⟩ := exists_tab m r a ha
  have e : f = val b m r c := by funext x; rw [hf, linComb_val]
  subst e
  obtain ⟨qs, h1, h2⟩ := dualBasis_spec b r m (fun h => (hb h).2.mono (by omega))
  have hpairs : ∀ e ∈ vectorPairs r m n ordering, e.1 ∈ mis m r ∧ e.2 < n := by
    intro e he
    unfold vectorPairs at he
    rw [MI.generateAll_eq_mis] at he
    split at he <;> simp only [List.mem_flatMap, List.mem_map, List.mem_range] at he
    · obtain ⟨ν, h3, i, h4, rfl⟩ := he; exact ⟨h3, h4⟩
    · obtain ⟨i, h4, ν, h3, rfl⟩ := he; exact ⟨h3, h4⟩
  refine ⟨(vectorPairs r m n ordering).map (fun e => vectorDualApply (qs e.1) e.2 n), ?_, ?_⟩
  · unfold dualVectorPolynomialBasis
    rw [basisOf_identifier, Py.bind_ok]
    refine mapM_eq_ok _ _ (fun e he => ?_)
    obtain ⟨h3, h4⟩ := hpairs e he
    unfold dualVectorPolynomialBasisFn
    rw [basisOf_identifier, Py.bind_ok, decide_eq_true h4, pyAssert_true, Py.bind_ok, (h2 e.1 h3).1]
    rfl
  · have hone : ∀ e ∈ vectorPairs r m n ordering, vectorDualApply (qs e.1) e.2 n (.vector n p) =
        .ok (if h : e.2 < n then c e.1 ⟨e.2, h⟩ else 0) := by
      intro e he
      obtain ⟨h3, h4⟩ := hpairs e he
      obtain ⟨s, s1, s2, s3, s4⟩ := component_rep hp ⟨e.2, h4⟩
      unfold vectorDualApply
      simp only
      rw [dif_pos ⟨h4, trivial, hn⟩, s1, Py.bind_ok, dif_pos h4]
      have e2 : (fun x : Fin m → ℝ => val b m r c x ⟨e.2, h4⟩) = val b m r (fun ν => c ν ⟨e.2, h4⟩) := by
        funext x; rw [val_component]
      rw [e2] at s2
      exact (h2 e.1 h3).2 s _ s2 (fun hbb => ⟨s4.trans (hb hbb).1, (hb hbb).2⟩)
    rw [List.mapM_map]
    refine (mapM_eq_ok _ _ hone).trans ?_
    congr 1
    unfold vectorPairs
    rw [MI.generateAll_eq_mis]
    by_cases ho : ordering = "interleaved"
    · rw [if_pos ho, if_pos ho, List.map_flatMap]
      unfold tab
      rw [List.flatMap_map]
      refine List.flatMap_congr (fun ν _ => ?_)
      apply List.ext_getElem
      · simp
      · intro k k1 k2
        have : k < n := by simpa using k2
        simp [this]
    · rw [if_neg ho, if_neg ho, List.map_flatMap, ← List.map_coe_finRange_eq_range, List.flatMap_map]
      refine List.flatMap_congr (fun i _ => ?_)
      unfold tab
      rw [List.map_map, List.map_map]
      refine List.map_congr_left (fun ν _ => ?_)
      simp

/-- C29: with one component the vector valued dual basis is the scalar valued one. -/
theorem C29_vector_dual_basis_one {m r : Nat} (b : Basis) {p : Obj ℝ} {f : (Fin m → ℝ) → ℝ} (hp : Represents p m f) (a : List ℝ)
    (ha : a.length = getDimension r m) (hf : ∀ x, f x = linComb (basisFn b r (List.ofFn x)) (MI.generateAll m r) a)
    (hb : b = .bernstein → p.r = r ∧ Fits (2 * r) m) (ordering : String) :
    ∃ duals, dualVectorPolynomialBasis ℝ r m 1 b.identifier ordering = .ok duals ∧
      duals.mapM (fun q => q (.scalar p)) = .ok a := by
  obtain ⟨c, rfl⟩ := exists_tab m r a ha
  have e : f = val b m r c := by funext x; rw [hf, linComb_val]
  subst e
  obtain ⟨qs, h1, h2⟩ := dualBasis_spec b r m (fun h => (hb h).2.mono (by omega))
  have hpairs : vectorPairs r m 1 ordering = (mis m r).map (fun ν => (ν, 0)) := by
    unfold vectorPairs
    rw [MI.generateAll_eq_mis]
    split
    · rw [List.map_eq_flatMap]; rfl
    · simp
  refine ⟨tab m r (fun ν => vectorDualApply (qs ν) 0 1), ?_, tab_mapM m r _ _ c (fun ν hν => ?_)⟩
  · unfold dualVectorPolynomialBasis
    rw [basisOf_identifier, Py.bind_ok, hpairs, List.mapM_map]
    refine mapM_eq_ok _ _ (fun ν hν => ?_)
    simp only [Function.comp]
    unfold dualVectorPolynomialBasisFn
    rw [basisOf_identifier, Py.bind_ok, decide_eq_true (by norm_num : 0 < 1), pyAssert_true, Py.bind_ok, (h2 ν hν).1]
    rfl
  · exact (h2 ν hν).2 p c hp hb

/-- C29: the vector valued bases. The basis polynomial for the `k`:th multi-index `ν` and the `i`:th component is `b_ν` in component `i` and
zero in the others. It is found at position `k n + i` with interleaved ordering, and at position `i d + k` otherwise, where `d` is the
dimension of the scalar space. -/
theorem C29_vector_basis {m r n : Nat} (hn : n ≠ 1) (hf : Fits r m) (b : Basis) (ordering : String) :
    ∃ ps, vectorPolynomialBasis ℝ r m n b.identifier ordering = .ok ps ∧ ps.length = n * getDimension r m ∧
      ∀ (k i : Nat) (ν : List Nat), (MI.generateAll m r)[k]? = some ν → i < n →
        ∃ q : Obj (Fin n → ℝ), ps[if ordering = "interleaved" then k * n + i else i * getDimension r m + k]? = some (.vector n q) ∧
          q.basis = b ∧ Represents q m (fun (x : Fin m → ℝ) (l : Fin n) => if (l : Nat) = i then basisFn b r (List.ofFn x) ν else 0) := by
  have key : ∀ ν ∈ mis m r, ∀ i < n, ∃ q : Obj (Fin n → ℝ), vectorBasisFn ℝ b ν r i n = .ok (.vector n q) ∧ q.basis = b ∧
      Represents q m (fun (x : Fin m → ℝ) (l : Fin n) => if (l : Nat) = i then basisFn b r (List.ofFn x) ν else 0) :=
    fun ν hν i hi => vectorBasisFn_rep b ν r i n m hn hi hν hf
  classical
  let qs : List Nat × Nat → AnyObj ℝ := fun e => if h : e.1 ∈ mis m r ∧ e.2 < n then .vector n (key e.1 h.1 e.2 h.2).choose else .vector n ⟨b, [], 0, 0⟩
  have hq : ∀ e : List Nat × Nat, (h1 : e.1 ∈ mis m r) → (h2 : e.2 < n) → vectorBasisFn ℝ b e.1 r e.2 n = .ok (qs e) ∧
      ∃ q : Obj (Fin n → ℝ), qs e = .vector n q ∧ q.basis = b ∧
      Represents q m (fun (x : Fin m → ℝ) (l : Fin n) => if (l : Nat) = e.2 then basisFn b r (List.ofFn x) e.1 else 0) := by
    intro e h1 h2
    have hs := (key e.1 h1 e.2 h2).choose_spec
    have hqe : qs e = .vector n (key e.1 h1 e.2 h2).choose := by simp only [qs]; rw [dif_pos ⟨h1, h2⟩]
    exact ⟨by rw [hqe]; exact hs.1, _, hqe, hs.2⟩
  have hpairs : ∀ e ∈ vectorPairs r m n ordering, e.1 ∈ mis m r ∧ e.2 < n := by
    intro e he
    unfold vectorPairs at he
    rw [MI.generateAll_eq_mis] at he
    split at he <;> simp only [List.mem_flatMap, List.mem_map, List.mem_range] at he
    · obtain ⟨ν, h3, i, h4, rfl⟩ := he; exact ⟨h3, h4⟩
    · obtain ⟨i, h4, ν, h3, rfl⟩ := he; exact ⟨h3, h4⟩
  refine ⟨(vectorPairs r m n ordering).map qs, ?_, ?_, ?_⟩
  · unfold vectorPolynomialBasis
    rw [if_neg hn, basisOf_identifier, Py.bind_ok]
    unfold vectorBasis
    exact mapM_eq_ok _ _ (fun e he => (hq e (hpairs e he).1 (hpairs e he).2).1)
  · rw [List.length_map, length_vectorPairs]
  · intro k i ν hk hi
    rw [MI.generateAll_eq_mis] at hk
    obtain ⟨_, q, e1, e2, e3⟩ := hq (ν, i) (List.mem_of_getElem? hk) hi
    refine ⟨q, ?_, e2, e3⟩
    rw [List.getElem?_map, get_vectorPairs r m n ordering hk hi, Option.map_some, e1]

/-- C29, C30: `vector_valued_polynomial_basis` with `n = 1` exchanges the degree and the dimension: it returns the scalar basis of degree `m`
in `r` variables. -/
theorem C29_vector_basis_swapped {m r : Nat} (hf : Fits m r) (b : Basis) (ordering : String) :
    ∃ ps, vectorPolynomialBasis ℝ r m 1 b.identifier ordering = .ok (ps.map .scalar) ∧ polynomialBasis ℝ m r b.identifier = .ok ps ∧
      ps.length = getDimension m r ∧ ∀ p ∈ ps, p.m = r := by
  obtain ⟨ss, h1, h2⟩ := basis_rep b r m hf
  refine ⟨_, ?_, h1, length_tab _ _ _, ?_⟩
  · unfold vectorPolynomialBasis
    rw [if_pos rfl, h1]; rfl
  · intro p hp
    obtain ⟨ν, hν, rfl⟩ := List.mem_map.1 hp
    exact (h2 ν hν).2.1.dim

/-- C29: so a basis for the polynomials of degree at most 1 in two variables (`r = 1`, `m = 2`) comes back as three polynomials in one
variable of degree 2. -/
theorem C29_vector_basis_swapped_example : ∃ ps : List (AnyObj ℝ), vectorPolynomialBasis ℝ 1 2 1 "Bernstein" "interleaved" = .ok ps ∧
    ∀ p ∈ ps, ∃ q, p = .scalar q ∧ q.m = 1 := by
  obtain ⟨ps, h1, _, _, h2⟩ := C29_vector_basis_swapped (m := 2) (r := 1) (Or.inr (by norm_num)) .bernstein "interleaved"
  refine ⟨_, h1, fun p hp => ?_⟩
  obtain ⟨q, hq, rfl⟩ := List.mem_map.1 hp
  exact ⟨q, rfl, h2 q hq⟩

/-- C29: an unknown name of a basis is rejected by all functions. -/
theorem C29_unknown_basis {name : String} (h : ∀ b : Basis, name ≠ b.identifier) (μ : List Nat) (r m n i : Nat) (ordering : String) (hn : n ≠ 1) :
    polynomialBasisFn ℝ μ r name = .error .value ∧ polynomialBasis ℝ r m name = .error .value ∧
    vectorPolynomialBasisFn ℝ μ r i n name = .error .value ∧ vectorPolynomialBasis ℝ r m n name ordering = .error .value ∧
    (∀ q, dualPolynomialBasisFn ℝ μ r name ≠ .ok q) ∧ (∀ q, dualPolynomialBasis ℝ r m name ≠ .ok q) ∧
    (∀ q, dualVectorPolynomialBasisFn ℝ μ r i n name ≠ .ok q) ∧ (∀ q, dualVectorPolynomialBasis ℝ r m n name ordering ≠ .ok q) := by
  have hb := basisOf_unknown h
  refine ⟨?_, ?_, ?_, ?_, ?_, ?_, ?_, ?_⟩
  · unfold polynomialBasisFn; rw [hb]; rfl
  · unfold polynomialBasis; rw [hb]; rfl
  · unfold vectorPolynomialBasisFn; rw [hb]; rfl
  · unfold vectorPolynomialBasis; rw [if_neg hn, hb]; rfl
  · intro q; unfold dualPolynomialBasisFn; rw [hb]; simp [Py.bind_error]
  · intro q; unfold dualPolynomialBasis; rw [hb]; simp [Py.bind_error]
  · intro q; unfold dualVectorPolynomialBasisFn; rw [hb]; simp [Py.bind_error]
  · intro q; unfold dualVectorPolynomialBasis; rw [hb]; simp [Py.bind_error]

/-! ## C30 -/

/-- C30: conversion of a scalar valued polynomial to one of the three bases succeeds, gives a polynomial with the same function and the same
degree in the target basis. Conversion to the Bernstein basis from another basis needs `2 r ≤ 19`. -/
theorem C30_convert {m : Nat} {p : Obj ℝ} {f : (Fin m → ℝ) → ℝ} (hp : Represents p m f) (b : Basis)
    (hb : b = .bernstein → p.basis ≠ .bernstein → Fits (2 * p.r) m) :
    ∃ q, convertPolynomial (.scalar p) b.identifier = .ok (.scalar q) ∧ Represents q m f ∧ q.basis = b ∧ q.r = p.r := by
  obtain ⟨q, h1, h2⟩ := convertScalar_rep hp b hb
  refine ⟨q, ?_, h2⟩
  simp only [convertPolynomial, h1]; rfl

/-- C30: the same for a vector valued polynomial. -/
theorem C30_convert_vector {m n : Nat} {p : Obj (Fin n → ℝ)} {f : (Fin m → ℝ) → (Fin n → ℝ)} (hp : Represents p m f) (b : Basis)
    (hb : b = .bernstein → p.basis ≠ .bernstein → Fits (2 * p.r) m) :
    ∃ q, convertPolynomial (.vector n p) b.identifier = .ok (.vector n q) ∧ Represents q m f ∧ q.basis = b ∧ q.r = p.r := by
  obtain ⟨q, h1, h2⟩ := convertVector_rep hp b hb
  refine ⟨q, ?_, h2⟩
  simp only [convertPolynomial, h1]; rfl

/-- C30: converting to another basis and back returns the polynomial one started with. -/
theorem C30_there_and_back {m : Nat} {p : Obj ℝ} {f : (Fin m → ℝ) → ℝ} (hp : Represents p m f) (b : Basis) (hb : Fits (2 * p.r) m) :
    (do convertPolynomial (← convertPolynomial (.scalar p) b.identifier) p.basis.identifier) = .ok (.scalar p) := by
  obtain ⟨q, h1, h2, h3, h4⟩ := C30_convert hp b (fun _ _ => hb)
  rw [h1, Py.bind_ok]
  obtain ⟨s, g1, g2, g3, g4⟩ := C30_convert h2 p.basis (fun _ _ => by rw [h4]; exact hb)
  rw [g1, rep_unique g2 hp g3 (g4.trans h4)]

theorem C30_there_and_back_vector {m n : Nat} {p : Obj (Fin n → ℝ)} {f : (Fin m → ℝ) → (Fin n → ℝ)} (hp : Represents p m f) (b : Basis)
    (hb : Fits (2 * p.r) m) :
    (do convertPolynomial (← convertPolynomial (.vector n p) b.identifier) p.basis.identifier) = .ok (.vector n p) := by
  obtain ⟨q, h1, h2, h3, h4⟩ := C30_convert_vector hp b (fun _ _ => hb)
  rw [h1, Py.bind_ok]
  obtain ⟨s, g1, g2, g3, g4⟩ := C30_convert_vector h2 p.basis (fun _ _ => by rw [h4]; exact hb)
  rw [g1, rep_unique g2 hp g3 (g4.trans h4)]

/-- C30: conversion to the Bernstein basis fails from degree 10 on. -/
theorem C30_bernstein_degree_ten {m : Nat} (hm : 0 < m) {p : Obj ℝ} {f : (Fin m → ℝ) → ℝ} (hp : Represents p m f) (hr : 10 ≤ p.r)
    (hb : p.basis ≠ .bernstein) : convertPolynomial (.scalar p) "Bernstein" = .error .assertion := by
  simp only [convertPolynomial, convertScalar_error hm hp hr hb]; rfl

/-- C30: an unknown target basis is rejected. -/
theorem C30_unknown_basis {name : String} (h : ∀ b : Basis, name ≠ b.identifier) (p : AnyObj ℝ) :
    ∀ q, convertPolynomial p name ≠ .ok q := by
  intro q
  have hb := basisOf_unknown h
  cases p with
  | scalar p =>
    simp only [convertPolynomial, convertScalar, dualPolynomialBasis]
    rw [if_neg (fun e => h _ e.symm), if_neg (h .monomial), hb]
    simp [Py.bind_error]
  | vector n p =>
    simp only [convertPolynomial, convertVector, dualPolynomialBasis]
    rw [if_neg (fun e => h _ e.symm), if_neg (h .monomial), hb]
    simp [Py.bind_error]

/-- A valid quadratic Lagrange polynomial in two variables. -/
example : ∃ f, Represents (⟨.lagrange, [1, 2, 3, 4, 5, 6], 2, 2⟩ : Obj ℝ) 2 (f : (Fin 2 → ℝ) → ℝ) ∧ Fits (2 * 2) 2 :=
  (Obj.Valid.rep (p := (⟨.lagrange, [1, 2, 3, 4, 5, 6], 2, 2⟩ : Obj ℝ)) (by rfl)).imp (fun _ h => ⟨h, Or.inr (by norm_num)⟩)

/-- A name that is not a basis. -/
example : ∀ b : Basis, "bernstein" ≠ b.identifier := by intro b; cases b <;> decide

end Verif.Props
