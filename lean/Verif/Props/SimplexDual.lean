import Verif.Lemmas.SimplexDual
import Verif.Props.SimplexPolynomial
/-!
# C64: monomial form of polynomials on a simplex, and dual bases on a simplex

`RepresentsOn p v f`: `p` is a polynomial in the Bernstein or Lagrange basis of the simplex with vertices `v`, with function `f`. `edgeDet v` is the
determinant of the edge vectors; it is positive for positively oriented simplices. `basisFn b r (w₁, …, wₘ) ν` is the basis polynomial for the multi-index `ν`
in barycentric coordinates.
-/

namespace Verif.Props
open Verif Verif.MI Verif.Poly Verif.Simplex Verif.Spec Verif.SPoly Verif.Integration

section
variable {K V : Type} [NontriviallyNormedField K] [DecidableEq K] [CharZero K] [NormedAddCommGroup V] [NormedSpace K V] {m : ℕ}

/-- **C64** `to_monomial_basis` returns the polynomial of the same degree in the monomial basis with the same function. -/
theorem C64_to_monomial {p : SObj K V m} {v : Vertices K m m} {f : (Fin m → K) → V} (hp : RepresentsOn p v f) :
    ∃ q, p.toMonomialBasis = .ok q ∧ Represents q m f ∧ q.basis = .monomial ∧ q.r = p.poly.r := toMonomialBasis_repOn hp

/-- **C64** The monomial forms of the basis polynomials on a simplex, in the order of the multi-indices. -/
theorem C64_basis_monomial (b : Basis) (v : Vertices K m m) (hd : edgeDet v ≠ 0) (r : ℕ) (hf : Fits r m) :
    ∃ l, basisSimplexMonomial b r v = .ok l ∧ l.length = getDimension r m ∧
      ∀ (i : ℕ) ν, (MI.generateAll m r)[i]? = some ν → ∃ q f, l[i]? = some q ∧ basisFnSimplexMonomial b ν r v = .ok q ∧ Represents q m f ∧
        q.basis = .monomial ∧ q.r = r ∧ ∀ x w, IsBarycentric v x w → f x = basisFn b r (List.ofFn (fun i : Fin m => w i.succ)) ν := by
  have h : ∀ ν ∈ MI.generateAll m r, ∃ s, basisFnSimplexMonomial b ν r v = .ok s ∧
      Represents s m (fun x => basisFn b r (List.ofFn (createAffineMap (down v) x)) ν) ∧ s.basis = .monomial ∧ s.r = r := fun ν hν => by
    rw [MI.generateAll_eq_mis] at hν
    exact basisFnMonomial_rep b v hd ν r (mem_mis.1 hν).1 (mem_mis.1 hν).2 hf
  haveI : Nonempty (Obj K) := ⟨⟨b, [], 0, 0⟩⟩
  choose! F hF using h
  refine ⟨(MI.generateAll m r).map F, mapM_eq_ok _ _ (fun ν hν => (hF ν hν).1), ?_, fun i ν hi => ⟨F ν, _, ?_, (hF ν (List.mem_of_getElem? hi)).1,
    (hF ν (List.mem_of_getElem? hi)).2.1, (hF ν (List.mem_of_getElem? hi)).2.2.1, (hF ν (List.mem_of_getElem? hi)).2.2.2, fun x w hw => ?_⟩⟩
  · rw [List.length_map, MI.generateAll_eq_mis, length_mis_eq]
  · rw [List.getElem?_map, hi]; rfl
  · rw [down_bary v hd hw]

/-! ## Dual Lagrange basis -/

/-- **C64** Applied to a polynomial on a simplex, the functions of the dual Lagrange basis return its values at the points with barycentric coordinates `μ / r`,
in the order of the multi-indices `μ`. -/
theorem C64_dual_lagrange (v w : Vertices K m m) (r : ℕ) {p : SObj K V m} {f : (Fin m → K) → V} (hp : RepresentsOn p w f) :
    ∃ duals vals, dualLagrangeBasisSimplex r v = .ok duals ∧ duals.mapM (fun q => q p) = .ok vals ∧ vals.length = getDimension r m ∧
      ∀ (i : ℕ) (μ : Fin m → ℕ), (MI.generateAll m r)[i]? = some (List.ofFn μ) → ∃ x c, IsBarycentric v x c ∧ (∀ k, c k.succ = (μ k : K) / (r : K)) ∧
        vals[i]? = some (f x) := by
  have hx : ∀ μ ∈ mis m r, lagrangePointSimplex v r μ = .ok (createAffineMap (up v) (fun i => ((μ.getD i 0 : ℕ) : K) / (r : K))) := fun μ hμ =>
    lagrangePointSimplex_eq v r μ (mem_mis.1 hμ).1 (mem_mis.1 hμ).2
  refine ⟨tab m r (fun μ p => p.call (createAffineMap (up v) (fun i => ((μ.getD i 0 : ℕ) : K) / (r : K)))),
    tab m r (fun μ => f (createAffineMap (up v) (fun i => ((μ.getD i 0 : ℕ) : K) / (r : K)))), ?_, ?_, length_tab _ _ _, ?_⟩
  · unfold dualLagrangeBasisSimplex
    rw [MI.generateAll_eq_mis]
    refine mapM_eq_ok _ _ (fun μ hμ => ?_)
    rw [hx μ hμ]; rfl
  · exact tab_mapM m r _ _ _ (fun μ _ => hp.2 _)
  · intro i μ hi
    rw [MI.generateAll_eq_mis] at hi
    refine ⟨_, _, up_bary v (fun i => (μ i : K) / (r : K)), fun i => by simp, ?_⟩
    unfold tab
    rw [List.getElem?_map, hi]
    simp

/-- **C64** The dual Lagrange basis of degree `r` returns the coefficients of a polynomial of degree `r` given in the Lagrange basis of the simplex. -/
theorem C64_dual_lagrange_coefficients {v : Vertices K m m} {p : SObj K V m} {f : (Fin m → K) → V} (hp : RepresentsOn p v f) (hb : p.poly.basis = .lagrange) :
    ∃ duals, dualLagrangeBasisSimplex p.poly.r v = .ok duals ∧ duals.mapM (fun q => q p) = .ok p.poly.coeff := by
  have hd := repOn_det hp
  obtain ⟨duals, vals, h1, h2, h3, h4⟩ := C64_dual_lagrange v v p.poly.r hp
  refine ⟨duals, h1, ?_⟩
  rw [h2]
  congr 1
  have h5 := ((repOn_iff hd).1 hp).2.2
  obtain ⟨c, hc, hfc, -⟩ := h5.exists_mk
  have hcoeff : p.poly.coeff = tab m p.poly.r c := by rw [hc]; rfl
  rw [hcoeff]
  apply List.ext_getElem?
  intro i
  by_cases hi : i < getDimension p.poly.r m
  · have hi' : i < (mis m p.poly.r).length := by rw [length_mis_eq]; exact hi
    obtain ⟨μ, hμ⟩ := eq_ofFn (mem_mis.1 (List.getElem_mem hi')).1
    have hg : (mis m p.poly.r)[i]? = some (List.ofFn μ) := by rw [List.getElem?_eq_getElem hi', hμ]
    obtain ⟨x, w, b1, b2, b3⟩ := h4 i μ (by rw [MI.generateAll_eq_mis]; exact hg)
    have hs : ∑ i, μ i ≤ p.poly.r := by
      have := (mem_mis.1 (List.mem_of_getElem? hg)).2
      rwa [List.sum_ofFn] at this
    rw [b3]
    unfold tab
    rw [List.getElem?_map, hg, Option.map_some]
    congr 1
    have e1 : x = createAffineMap (up v) (fun i => w i.succ) := by
      rw [← down_bary v hd b1, up_down v hd]
    rw [e1]
    have e2 : f (createAffineMap (up v) (fun i => w i.succ)) = _ := congrFun hfc (fun i => w i.succ)
    rw [e2, hb]
    have e3 : (fun i : Fin m => w i.succ) = lpt K p.poly.r μ := by
      funext i; rw [b2]; rfl
    rw [e3]
    unfold val
    rw [Finset.sum_eq_single μ]
    · have := lagrange_delta (K := K) p.poly.r μ μ (mem_S.2 hs) (mem_S.2 hs)
      show Spec.lagrange p.poly.r _ _ • _ = _
      rw [this, if_pos rfl, one_smul]
    · intro ν hν hne
      have := lagrange_delta (K := K) p.poly.r ν μ hν (mem_S.2 hs)
      show Spec.lagrange p.poly.r _ _ • _ = _
      rw [this, if_neg hne, zero_smul]
    · intro h; exact absurd (mem_S.2 hs) h
  · rw [List.getElem?_eq_none (by omega), List.getElem?_eq_none (by rw [length_tab]; omega)]

end

section
variable {K : Type} [NontriviallyNormedField K] [DecidableEq K] [CharZero K] {m : ℕ}

/-- **C64** The vector valued dual Lagrange basis returns the components of the values, all components at the first point, then those at the second point, …
with interleaved ordering, and otherwise the first components at all points, then the second components, …. -/
theorem C64_dual_vector_lagrange {n : ℕ} {v : Vertices K m m} {p : SObj K (Fin n → K) m} {f : (Fin m → K) → (Fin n → K)} (hp : RepresentsOn p v f)
    (hb : p.poly.basis = .lagrange) (ordering : String) :
    ∃ duals, dualVectorLagrangeBasisSimplex p.poly.r v n ordering = .ok duals ∧
      duals.mapM (fun q => q p) = .ok (if ordering = "interleaved" then p.poly.coeff.flatMap (fun c => List.ofFn c)
        else (List.finRange n).flatMap (fun i => p.poly.coeff.map (fun c => c i))) := by
  have hd := repOn_det hp
  have hcoeff : ∃ c, p.poly.coeff = tab m p.poly.r c := by
    obtain ⟨c, hc, -, -⟩ := (((repOn_iff hd).1 hp).2.2).exists_mk
    exact ⟨c, by rw [hc]; rfl⟩
  obtain ⟨c, hc⟩ := hcoeff
  let X : List ℕ → (Fin m → K) := fun μ => createAffineMap (up v) (fun i => ((μ.getD i 0 : ℕ) : K) / (p.poly.r : K))
  have hx : ∀ μ ∈ mis m p.poly.r, lagrangePointSimplex v p.poly.r μ = .ok (X μ) := fun μ hμ =>
    lagrangePointSimplex_eq v p.poly.r μ (mem_mis.1 hμ).1 (mem_mis.1 hμ).2
  have hval : ∀ μ ∈ mis m p.poly.r, f (X μ) = c μ := by
    obtain ⟨duals, h1, h2⟩ := C64_dual_lagrange_coefficients hp hb
    have h3 : dualLagrangeBasisSimplex (V := Fin n → K) p.poly.r v = .ok (tab m p.poly.r (fun μ p => p.call (X μ))) := by
      unfold dualLagrangeBasisSimplex
      rw [MI.generateAll_eq_mis]
      refine mapM_eq_ok _ _ (fun μ hμ => ?_)
      rw [hx μ hμ]; rfl
    obtain rfl := Except.ok.inj (h3.symm.trans h1)
    have h5 := tab_mapM m p.poly.r (fun μ (p : SObj K (Fin n → K) m) => p.call (X μ)) (fun q => q p) (fun μ => f (X μ)) (fun μ _ => hp.2 _)
    have h4 := Except.ok.inj (h5.symm.trans h2)
    rw [hc] at h4
    unfold tab at h4
    exact fun μ hμ => List.map_inj_left.1 h4 μ hμ
  have hcomp := fun i => component_repOn hp i
  refine ⟨(vectorPairs p.poly.r m n ordering).map (fun e q => if h : e.2 < n then (q.component ⟨e.2, h⟩).bind (fun c => c.call (X e.1)) else .error .assertion),
    ?_, ?_⟩
  · unfold dualVectorLagrangeBasisSimplex
    refine mapM_eq_ok _ _ (fun e he => ?_)
    obtain ⟨h3, h4⟩ := vectorPairs_mem he
    simp only [dif_pos h4, hx e.1 h3, Py.bind_ok]
    rfl
  · rw [List.mapM_map, hc, ← vectorPairs_map]
    refine mapM_eq_ok _ _ (fun e he => ?_)
    obtain ⟨h3, h4⟩ := vectorPairs_mem he
    obtain ⟨s, s1, s2, -⟩ := hcomp ⟨e.2, h4⟩
    simp only [Function.comp, dif_pos h4, s1]
    show s.call (X e.1) = _
    rw [s2.2, hval e.1 h3]

end

/-! ## Dual Bernstein basis -/

section
variable {m : ℕ}

/-- **C64** The dual Bernstein polynomials on a positively oriented simplex: `∫ Dᵢ Bⱼ` over the simplex is 1 if `i = j`, otherwise 0. -/
theorem C64_dual_bernstein_polynomials (v : Vertices ℝ m m) (hd : 0 < edgeDet v) (r : ℕ) (hf : Fits r m) :
    ∃ ds, dualBernsteinPolynomialBasisSimplex r v = .ok ds ∧ ds.length = getDimension r m ∧
      ∀ (i j : ℕ) (d : SObj ℝ ℝ m) (ν : List ℕ), ds[i]? = some d → (MI.generateAll m r)[j]? = some ν →
        ∃ D, RepresentsOn d v D ∧ d.poly.basis = .bernstein ∧ d.poly.r = r ∧
          ∀ B : (Fin m → ℝ) → ℝ, (∀ x w, IsBarycentric v x w → B x = bernstein r (List.ofFn (fun i : Fin m => w i.succ)) ν) →
            ∫ x in Spec.simplex v, D x * B x = if i = j then 1 else 0 := by
  obtain ⟨e, h1, h2, -⟩ := dualBasis_list v hd r hf
  refine ⟨tab m r (fun μ => ⟨mkObj .bernstein m r (fun ν => 1 / edgeDet v * e μ ν), v, down v⟩), ?_, length_tab _ _ _, ?_⟩
  · unfold dualBernsteinPolynomialBasisSimplex
    rw [MI.generateAll_eq_mis]
    exact mapM_eq_ok _ _ h2
  · intro i j d ν hdi hν
    rw [MI.generateAll_eq_mis] at hν
    simp only [tab, List.getElem?_map, Option.map_eq_some_iff] at hdi
    obtain ⟨μ, hμ, rfl⟩ := hdi
    obtain ⟨μ', rfl⟩ := eq_ofFn (mem_mis.1 (List.mem_of_getElem? hμ)).1
    have hμ' : μ' ∈ S m r := mem_S.2 (by
      have := (mem_mis.1 (List.mem_of_getElem? hμ)).2
      rwa [List.sum_ofFn] at this)
    obtain ⟨ν', rfl⟩ := eq_ofFn (mem_mis.1 (List.mem_of_getElem? hν)).1
    have hν' : ν' ∈ S m r := mem_S.2 (by
      have := (mem_mis.1 (List.mem_of_getElem? hν)).2
      rwa [List.sum_ofFn] at this)
    refine ⟨_, dual_repOn v hd r hf _, rfl, rfl, fun B hB => ?_⟩
    rw [integral_dualFun v hd r (h1 μ' hμ') hμ' (fun τ => if τ = List.ofFn ν' then 1 else 0) B]
    · by_cases hij : i = j
      · subst hij
        rw [hμ] at hν
        rw [if_pos rfl, if_pos (Option.some.inj hν)]
      · rw [if_neg hij, if_neg]
        intro he
        rw [he] at hμ
        obtain ⟨g1, g2⟩ := List.getElem?_eq_some_iff.1 hμ
        obtain ⟨g3, g4⟩ := List.getElem?_eq_some_iff.1 hν
        exact hij ((nodup_mis m r).getElem_inj_iff.1 (g2.trans g4.symm))
    · intro u
      rw [hB _ _ (up_bary v u)]
      unfold val
      rw [Finset.sum_eq_single ν']
      · simp [basisFn]
      · intro τ _ hne
        simp only [if_neg (fun h => hne (List.ofFn_injective h)), smul_zero]
      · intro h; exact absurd hν' h

/-- **C64** The functions of the dual Bernstein basis return the coefficients of a polynomial in the Bernstein basis of the simplex. -/
theorem C64_dual_bernstein_coefficients {v : Vertices ℝ m m} (hd : 0 < edgeDet v) {p : SObj ℝ ℝ m} {f : (Fin m → ℝ) → ℝ} (hp : RepresentsOn p v f)
    (hb : p.poly.basis = .bernstein) (hf : Fits (2 * p.poly.r) m) :
    ∃ duals, dualBernsteinBasisSimplex p.poly.r v = .ok duals ∧ duals.mapM (fun q => q (.simplex p)) = .ok p.poly.coeff := by
  obtain ⟨e, h1, -, h3⟩ := dualBasis_list v hd p.poly.r (hf.mono (by omega))
  obtain ⟨c, hc, hfc, -⟩ := (((repOn_iff hd.ne').1 hp).2.2).exists_mk
  have hcoeff : p.poly.coeff = tab m p.poly.r c := by rw [hc]; rfl
  refine ⟨tab m p.poly.r (fun μ => dualBernsteinApplySimplex ⟨mkObj .bernstein m p.poly.r (fun ν => 1 / edgeDet v * e μ ν), v, down v⟩ p.poly.r v), ?_, ?_⟩
  · unfold dualBernsteinBasisSimplex
    rw [MI.generateAll_eq_mis]
    exact mapM_eq_ok _ _ h3
  · rw [hcoeff]
    refine tab_mapM m p.poly.r _ _ c (fun μ hμ => ?_)
    obtain ⟨μ', rfl⟩ := eq_ofFn (mem_mis.1 hμ).1
    have hμ' : μ' ∈ S m p.poly.r := mem_S.2 (by
      have := (mem_mis.1 hμ).2
      rwa [List.sum_ofFn] at this)
    rw [apply_bernstein v hd p.poly.r hf _ hp hb rfl, integral_dualFun v hd p.poly.r (h1 μ' hμ') hμ' c f]
    intro u
    have := congrFun hfc u
    rw [hb] at this
    exact this

/-- **C64** Applied to a polynomial of degree `r` in the monomial basis, they return the coefficients of its function in the Bernstein basis of the simplex. -/
theorem C64_dual_bernstein_monomial {v : Vertices ℝ m m} (hd : 0 < edgeDet v) {p : Obj ℝ} {f : (Fin m → ℝ) → ℝ} (hp : Represents p m f)
    (hb : p.basis = .monomial) (hf : Fits (2 * p.r) m) (a : List ℝ) (ha : a.length = getDimension p.r m)
    (hfa : ∀ x w, IsBarycentric v x w → f x = linComb (bernstein p.r (List.ofFn (fun i : Fin m => w i.succ))) (MI.generateAll m p.r) a) :
    ∃ duals, dualBernsteinBasisSimplex p.r v = .ok duals ∧ duals.mapM (fun q => q (.plain p)) = .ok a := by
  obtain ⟨e, h1, -, h3⟩ := dualBasis_list v hd p.r (hf.mono (by omega))
  obtain ⟨c, rfl⟩ := exists_tab m p.r a ha
  refine ⟨tab m p.r (fun μ => dualBernsteinApplySimplex ⟨mkObj .bernstein m p.r (fun ν => 1 / edgeDet v * e μ ν), v, down v⟩ p.r v), ?_, ?_⟩
  · unfold dualBernsteinBasisSimplex
    rw [MI.generateAll_eq_mis]
    exact mapM_eq_ok _ _ h3
  · refine tab_mapM m p.r _ _ c (fun μ hμ => ?_)
    obtain ⟨μ', rfl⟩ := eq_ofFn (mem_mis.1 hμ).1
    have hμ' : μ' ∈ S m p.r := mem_S.2 (by
      have := (mem_mis.1 hμ).2
      rwa [List.sum_ofFn] at this)
    rw [apply_monomial v hd p.r hf _ hp hb rfl, integral_dualFun v hd p.r (h1 μ' hμ') hμ' c f]
    intro u
    rw [hfa _ _ (up_bary v u)]
    have := linComb_val (K := ℝ) .bernstein m p.r c u
    simp only [Fin.cons_succ]
    exact this

/-- **C64** The vector valued dual Bernstein basis returns the components of the coefficients, in the same order as the other vector valued bases. -/
theorem C64_dual_vector_bernstein {n : ℕ} {v : Vertices ℝ m m} (hd : 0 < edgeDet v) {p : SObj ℝ (Fin n → ℝ) m} {f : (Fin m → ℝ) → (Fin n → ℝ)}
    (hp : RepresentsOn p v f) (hb : p.poly.basis = .bernstein) (hf : Fits (2 * p.poly.r) m) (ordering : String) :
    ∃ duals, dualVectorBernsteinBasisSimplex p.poly.r v n ordering = .ok duals ∧
      duals.mapM (fun q => q p) = .ok (if ordering = "interleaved" then p.poly.coeff.flatMap (fun c => List.ofFn c)
        else (List.finRange n).flatMap (fun i => p.poly.coeff.map (fun c => c i))) := by
  obtain ⟨e, h1, -, h3⟩ := dualBasis_list v hd p.poly.r (hf.mono (by omega))
  obtain ⟨c, hc, hfc, -⟩ := (((repOn_iff hd.ne').1 hp).2.2).exists_mk
  have hcoeff : p.poly.coeff = tab m p.poly.r c := by rw [hc]; rfl
  let Q : List ℕ → DualArg ℝ m → Py ℝ := fun μ =>
    dualBernsteinApplySimplex ⟨mkObj .bernstein m p.poly.r (fun ν => 1 / edgeDet v * e μ ν), v, down v⟩ p.poly.r v
  refine ⟨(vectorPairs p.poly.r m n ordering).map (fun e q => if h : e.2 < n then (q.component ⟨e.2, h⟩).bind (fun c => Q e.1 (.simplex c)) else .error .assertion),
    ?_, ?_⟩
  · unfold dualVectorBernsteinBasisSimplex
    refine mapM_eq_ok _ _ (fun e he => ?_)
    obtain ⟨h4, h5⟩ := vectorPairs_mem he
    unfold dualVectorBernsteinFnSimplex
    simp only [dif_pos h5, h3 e.1 h4, Py.bind_ok]
    rfl
  · rw [List.mapM_map, hcoeff, ← vectorPairs_map]
    refine mapM_eq_ok _ _ (fun e he => ?_)
    obtain ⟨h4, h5⟩ := vectorPairs_mem he
    obtain ⟨s, s1, s2, s3, s4⟩ := component_repOn hp ⟨e.2, h5⟩
    simp only [Function.comp, dif_pos h5, s1]
    show Q e.1 (.simplex s) = _
    obtain ⟨μ', hμ⟩ := eq_ofFn (mem_mis.1 h4).1
    have hμ' : μ' ∈ S m p.poly.r := mem_S.2 (by
      have := (mem_mis.1 h4).2
      rwa [hμ, List.sum_ofFn] at this)
    simp only [Q]
    rw [apply_bernstein v hd p.poly.r hf _ s2 (s3.trans hb) s4, hμ, integral_dualFun v hd p.poly.r (h1 μ' hμ') hμ' (fun ν => c ν ⟨e.2, h5⟩)]
    intro u
    have : f (createAffineMap (up v) u) = _ := congrFun hfc u
    rw [hb] at this
    simp only [this, val_component]

/-- **C64** The dual Bernstein bases of a degenerate or negatively oriented simplex cannot be made. -/
theorem C64_dual_bernstein_orientation (v : Vertices ℝ m m) (hd : edgeDet v ≤ 0) (r : ℕ) (hf : Fits r m) (μ : List ℕ) (hμ : μ ∈ MI.generateAll m r) :
    dualBernsteinPolynomialSimplex μ r v = .error .assertion ∧ dualBernsteinFnSimplex μ r v = .error .assertion := by
  rw [MI.generateAll_eq_mis] at hμ
  obtain ⟨μ', e, -, -, -, h⟩ := dualPoly_eq v r hf μ hμ
  rw [if_neg (not_lt.2 hd)] at h
  refine ⟨h, ?_⟩
  unfold dualBernsteinFnSimplex
  rw [h]; rfl

/-- **C64** The functions of the dual Bernstein basis reject polynomials in the Lagrange basis of a simplex, in a basis of the unit simplex, and Bernstein
polynomials on another simplex. -/
theorem C64_dual_bernstein_rejects (v : Vertices ℝ m m) (hd : 0 < edgeDet v) (r : ℕ) (hf : Fits r m) (μ : List ℕ) (hμ : μ ∈ MI.generateAll m r) :
    ∃ q, dualBernsteinFnSimplex μ r v = .ok q ∧ (∀ p : SObj ℝ ℝ m, p.poly.basis ≠ .bernstein ∨ p.vertices ≠ v → q (.simplex p) = .error .assertion) ∧
      ∀ p : Obj ℝ, p.basis ≠ .monomial → q (.plain p) = .error .assertion := by
  rw [MI.generateAll_eq_mis] at hμ
  obtain ⟨e, -, -, h3⟩ := dualBasis_list v hd r hf
  refine ⟨_, h3 μ hμ, fun p hp => ?_, fun p hp => ?_⟩
  · simp only [dualBernsteinApplySimplex]
    by_cases hb : p.poly.basis = .bernstein
    · rw [if_pos hb, C62_mul_mismatch _ p rfl (Or.inr (fun h => (hp.resolve_left (by simp [hb])) h.symm))]; rfl
    · rw [if_neg hb]
  · simp only [dualBernsteinApplySimplex]
    rw [decide_eq_false hp]; rfl

/-- **C64** A polynomial of another degree: in the Bernstein basis it is rejected; a polynomial of smaller degree in the monomial basis leads to an
IndexError. -/
theorem C64_dual_bernstein_degree {v : Vertices ℝ m m} (hm : 0 < m) (hd : 0 < edgeDet v) (r : ℕ) (hf : Fits (2 * r) m) (μ : List ℕ)
    (hμ : μ ∈ MI.generateAll m r) :
    ∃ q, dualBernsteinFnSimplex μ r v = .ok q ∧
      (∀ (p : SObj ℝ ℝ m) f, RepresentsOn p v f → p.poly.basis = .bernstein → p.poly.r ≠ r → q (.simplex p) = .error .assertion) ∧
      ∀ (p : Obj ℝ) (f : (Fin m → ℝ) → ℝ), Represents p m f → p.basis = .monomial → p.r < r → q (.plain p) = .error .index := by
  rw [MI.generateAll_eq_mis] at hμ
  have hfr : Fits r m := hf.mono (by omega)
  obtain ⟨e, -, -, h3⟩ := dualBasis_list v hd r hfr
  refine ⟨_, h3 μ hμ, fun p f hp hb hr => ?_, fun p f hp hb hr => ?_⟩
  · have h1 := dual_repOn v hd r hfr (e μ)
    simp only [dualBernsteinApplySimplex]
    rw [if_pos hb]
    obtain ⟨m1, m2⟩ := mul_repOn h1 hp (Or.inr ⟨rfl, hb, rfl⟩)
    by_cases hfit : Fits (r + p.poly.r) m
    · obtain ⟨s, a1, a2, a3, a4⟩ := m1 hfit
      have a4' : s.poly.r = r + p.poly.r := a4
      rw [a1, Py.bind_ok]
      unfold integrateBernsteinSimplex
      obtain ⟨c, hc, -, -⟩ := (((repOn_iff hd.ne').1 a2).2.2).exists_mk
      have hlen : s.poly.coeff.length = getDimension (r + p.poly.r) m := by rw [hc, ← a4']; exact length_tab _ _ _
      rw [hlen, decide_eq_false]
      · rfl
      · intro h
        rcases Nat.lt_or_ge p.poly.r r with hlt | hge
        · exact absurd h (getDimension_strictMono m hm (by omega)).ne
        · exact absurd h (getDimension_strictMono m hm (by omega)).ne'
    · rw [m2 hfit]; rfl
  · have h1 := dual_repOn v hd r hfr (e μ)
    obtain ⟨dm, a1, a2, a3, a4⟩ := toMonomialBasis_repOn h1
    obtain ⟨pm, b1, b2, b3, b4⟩ := toMonomialBasis_rep hp
    have h4 : dm.r + pm.r = r + p.r := by rw [a4, b4]; rfl
    obtain ⟨s, c1, c2, c3, c4⟩ := mul_rep a2 b2 (Or.inr (by rw [a3, b3])) (by rw [h4]; exact hf.mono (by omega))
    simp only [dualBernsteinApplySimplex]
    rw [decide_eq_true hb, pyAssert_true, Py.bind_ok, a1, Py.bind_ok, b1, Py.bind_ok, c1, Py.bind_ok]
    obtain ⟨c, hc, -, -⟩ := c2.exists_mk
    apply integrateMonomialPolynomialSimplex_short
    have hlen : s.coeff.length = getDimension (r + p.r) m := by rw [hc, ← h4, ← c4]; exact length_tab _ _ _
    rw [hlen]
    exact getDimension_strictMono m hm (by omega)

/-- **C64** A polynomial of larger degree in the monomial basis is not rejected: the first coefficients of its product with the dual polynomial, in the
order of the multi-indices of the degree of the product, are taken for the coefficients of a polynomial of degree `2 r`. -/
theorem C64_dual_bernstein_higher_degree {v : Vertices ℝ m m} (hd : 0 < edgeDet v) (r : ℕ) (hf : Fits r m) (μ : List ℕ) (hμ : μ ∈ MI.generateAll m r) :
    ∃ q d D, dualBernsteinFnSimplex μ r v = .ok q ∧ dualBernsteinPolynomialSimplex μ r v = .ok d ∧ RepresentsOn d v D ∧
      ∀ (p : Obj ℝ) (f : (Fin m → ℝ) → ℝ), Represents p m f → p.basis = .monomial → r < p.r → Fits (r + p.r) m →
        ∃ c : List ℝ, c.length = getDimension (r + p.r) m ∧
          (∀ x, D x * f x = linComb (monomial (List.ofFn x)) (MI.generateAll m (r + p.r)) c) ∧
          q (.plain p) = .ok (∫ x in Spec.simplex v, linComb (monomial (List.ofFn x)) (MI.generateAll m (2 * r)) (c.take (getDimension (2 * r) m))) := by
  rw [MI.generateAll_eq_mis] at hμ
  obtain ⟨e, -, h2, h3⟩ := dualBasis_list v hd r hf
  refine ⟨_, _, _, h3 μ hμ, h2 μ hμ, dual_repOn v hd r hf (e μ), fun p f hp hb hr hfit => ?_⟩
  simp only [MI.generateAll_eq_mis]
  exact apply_monomial_long v hd r (e μ) hp hb hr.le hfit

/-- The unit triangle. -/
def C64_unitTriangle : Vertices ℝ 2 2 := ![![0, 0], ![1, 0], ![0, 1]]

theorem unitTriangle_det : edgeDet C64_unitTriangle = 1 := by simp [edgeDet, Matrix.det_fin_two, C64_unitTriangle]

/-- Integrals of quadratic polynomials over the unit triangle. -/
theorem unitTriangle_integral (a b c d e f : ℝ) (g : (Fin 2 → ℝ) → ℝ)
    (hg : ∀ x, g x = a + b * x 0 + c * x 0 ^ 2 + d * x 1 + e * (x 0 * x 1) + f * x 1 ^ 2) :
    ∫ x in Spec.simplex C64_unitTriangle, g x = a / 2 + b / 6 + c / 12 + d / 6 + e / 24 + f / 12 := by
  have h1 : ∫ x in Spec.simplex C64_unitTriangle, g x = ∫ x in Spec.unitSimplex 2, g x := by
    have hdet : (Integration.edges C64_unitTriangle).det = 1 := unitTriangle_det
    rw [Integration.integral_simplex C64_unitTriangle (by rw [hdet]; norm_num), hdet]
    simp only [abs_one, one_smul]
    congr 1
    funext u
    congr 1
    funext i
    fin_cases i <;> simp [Spec.fromUnit, C64_unitTriangle, Fin.sum_univ_two]
  have h2 := C50_integrate_monomial 2 2 [a, b, c, d, e, f] (by simp [show getDimension 2 2 = 6 by decide])
  unfold Integration.integrateMonomialPolynomialUnit at h2
  rw [show Integration.monomialIntegralsCache.lookup (2, 2) = some [2, 6, 12, 6, 24, 12] by decide] at h2
  rw [show ([a, b, c, d, e, f] : List ℝ).length = getDimension 2 2 by simp [show getDimension 2 2 = 6 by decide]] at h2
  simp only [decide_true, pyAssert_true, Py.bind_ok, Py.pure_eq, Except.ok.injEq] at h2
  have h3 : ∀ x : Fin 2 → ℝ, g x = linComb (monomial (List.ofFn x)) (MI.generateAll 2 2) [a, b, c, d, e, f] := by
    intro x
    rw [hg, show MI.generateAll 2 2 = [[0, 0], [1, 0], [2, 0], [0, 1], [1, 1], [0, 2]] by decide]
    simp [linComb, monomial]
    ring
  rw [h1]
  simp only [h3]
  rw [← h2]
  simp [Integration.pySum]
  ring

/-- **C64** This gives wrong coefficients even for polynomials of degree at most `r`: on the unit triangle, the dual function of degree 1 for the first
Bernstein polynomial gives 1 for the constant polynomial 1 if this is an object of degree 1, and 4 if it is an object of degree 2. -/
theorem C64_dual_bernstein_higher_degree_wrong :
    ∃ q p p', dualBernsteinFnSimplex [0, 0] 1 C64_unitTriangle = .ok q ∧
      Represents p 2 (fun _ : Fin 2 → ℝ => (1 : ℝ)) ∧ p.basis = .monomial ∧ p.r = 1 ∧ q (.plain p) = .ok 1 ∧
      Represents p' 2 (fun _ : Fin 2 → ℝ => (1 : ℝ)) ∧ p'.basis = .monomial ∧ p'.r = 2 ∧ q (.plain p') = .ok 4 := by
  have hd : 0 < edgeDet C64_unitTriangle := by rw [unitTriangle_det]; norm_num
  have hf : ∀ r, r < 20 → Fits r 2 := fun r hr => Or.inr (by omega)
  have hmem : ([0, 0] : List ℕ) ∈ mis 2 1 := by decide
  obtain ⟨e, h1, h2, h3⟩ := dualBasis_list C64_unitTriangle hd 1 (hf 1 (by norm_num))
  have hone : ∀ r, r < 20 → Represents (mkObj .monomial 2 r (fun ν => if ν = [0, 0] then 1 else 0)) 2 (fun _ : Fin 2 → ℝ => (1 : ℝ)) := by
    intro r hr
    have := rep_mk (K := ℝ) .monomial 2 r (fun ν => if ν = [0, 0] then (1 : ℝ) else 0) (hf r hr)
    convert this using 1
    funext x
    unfold val
    rw [Finset.sum_eq_single (0 : Fin 2 → ℕ)]
    · simp [basisFn, monomial]
    · intro ν _ hν
      simp only
      rw [if_neg, smul_zero]
      intro h
      apply hν
      have : List.ofFn ν = List.ofFn (0 : Fin 2 → ℕ) := by rw [h]; rfl
      exact List.ofFn_injective this
    · intro h
      exact absurd (mem_S.2 (by simp)) h
  have hdual := h1 (0 : Fin 2 → ℕ) (mem_S.2 (by simp))
  rw [show List.ofFn (0 : Fin 2 → ℕ) = [0, 0] from rfl] at hdual
  -- the integrals of the dual polynomial with 1, x and y
  have hi : ∀ (c : List ℕ → ℝ) (f : (Fin 2 → ℝ) → ℝ), (∀ u, f u = val .bernstein 2 1 c u) →
      ∫ x in Spec.simplex C64_unitTriangle, dualFun C64_unitTriangle 1 (e [0, 0]) x * f x = c [0, 0] := by
    intro c f hcf
    have := integral_dualFun C64_unitTriangle hd 1 hdual (mem_S.2 (by simp)) c f (fun u => by
      rw [← fromUnit_up, show Spec.fromUnit C64_unitTriangle u = u by
        funext i
        fin_cases i <;> simp [Spec.fromUnit, C64_unitTriangle, Fin.sum_univ_two]]
      exact hcf u)
    exact this
  -- the dual polynomial
  obtain ⟨dm, a1, a2, a3, a4⟩ := toMonomialBasis_repOn (dual_repOn C64_unitTriangle hd 1 (hf 1 (by norm_num)) (e [0, 0]))
  obtain ⟨w, -, hw, -⟩ := a2.exists_mk
  rw [a3, a4] at hw
  have hm1 : mis 2 1 = [[0, 0], [1, 0], [0, 1]] := by decide
  have hm3 : mis 2 3 = [[0, 0], [1, 0], [2, 0], [3, 0], [0, 1], [1, 1], [2, 1], [0, 2], [1, 2], [0, 3]] := by decide
  have hm2 : mis 2 2 = [[0, 0], [1, 0], [2, 0], [0, 1], [1, 1], [0, 2]] := by decide
  have hD : ∀ x, dualFun C64_unitTriangle 1 (e [0, 0]) x = w [0, 0] + w [1, 0] * x 0 + w [0, 1] * x 1 := by
    intro x
    rw [congrFun hw x]
    have := linComb_val (K := ℝ) .monomial 2 1 w x
    rw [show (mkObj Basis.bernstein 2 1 (fun ν => 1 / edgeDet C64_unitTriangle * e [0, 0] ν) : Obj ℝ).r = 1 from rfl, ← this]
    simp [MI.generateAll_eq_mis, hm1, tab, linComb, basisFn, monomial]
    ring
  have hb : ∀ (c : List ℕ → ℝ) u, val .bernstein 2 1 c u = c [0, 0] * (1 - u 0 - u 1) + c [1, 0] * u 0 + c [0, 1] * u 1 := by
    intro c u
    rw [← linComb_val (K := ℝ) .bernstein 2 1 c u]
    simp [MI.generateAll_eq_mis, hm1, tab, linComb, basisFn, bernstein, monomial, show multinomial 1 [0, 0] = 1 by decide, show multinomial 1 [1, 0] = 1 by decide,
      show multinomial 1 [0, 1] = 1 by decide]
    ring
  have i0 := hi (fun _ => 1) (fun _ => 1) (fun u => by rw [hb]; ring)
  have i1 := hi (fun ν => if ν = [1, 0] then 1 else 0) (fun u => u 0) (fun u => by rw [hb]; simp)
  have i2 := hi (fun ν => if ν = [0, 1] then 1 else 0) (fun u => u 1) (fun u => by rw [hb]; simp)
  rw [unitTriangle_integral (w [0, 0]) (w [1, 0]) 0 (w [0, 1]) 0 0 _ (fun x => by rw [hD]; ring)] at i0
  rw [unitTriangle_integral 0 (w [0, 0]) (w [1, 0]) 0 (w [0, 1]) 0 _ (fun x => by rw [hD]; ring)] at i1
  rw [unitTriangle_integral 0 0 0 (w [0, 0]) (w [1, 0]) (w [0, 1]) _ (fun x => by rw [hD]; ring)] at i2
  norm_num at i0 i1 i2
  have w0 : w [0, 0] = 18 := by linarith
  have w1 : w [1, 0] = -24 := by linarith
  have w2 : w [0, 1] = -24 := by linarith
  refine ⟨_, _, _, h3 _ hmem, hone 1 (by norm_num), rfl, rfl, ?_, hone 2 (by norm_num), rfl, rfl, ?_⟩
  · rw [apply_monomial C64_unitTriangle hd 1 (hf 2 (by norm_num)) _ (hone 1 (by norm_num)) rfl rfl]
    have := hi (fun _ => 1) (fun _ => 1) (fun u => by rw [hb]; ring)
    rw [this]
  · obtain ⟨c, c1, c2, c3⟩ := apply_monomial_long C64_unitTriangle hd 1 (e [0, 0]) (hone 2 (by norm_num)) rfl (by decide) (hf 3 (by norm_num))
    rw [c3]
    change c.length = getDimension 3 2 at c1
    obtain ⟨g, rfl⟩ := exists_tab 2 3 c c1
    have hg : tab 2 3 g = tab 2 3 (fun ν => if ν = [0, 0] then 18 else if ν = [1, 0] then -24 else if ν = [0, 1] then -24 else 0) := by
      refine tab_unique (K := ℝ) .monomial 2 3 _ _ (fun x => ?_)
      rw [← linComb_val (K := ℝ) .monomial 2 3 g x, ← linComb_val (K := ℝ) .monomial 2 3 _ x]
      have := c2 x
      rw [hD, w0, w1, w2] at this
      rw [MI.generateAll_eq_mis]
      refine this.symm.trans ?_
      simp [MI.generateAll_eq_mis, hm3, tab, linComb, basisFn, monomial]
      ring
    rw [hg]
    congr 1
    rw [unitTriangle_integral 18 (-24) 0 0 (-24) 0]
    · norm_num
    · intro x
      simp [hm3, hm2, tab, linComb, monomial, show getDimension 2 2 = 6 by decide]
      ring

/-- The triangle of the examples of C62 is positively oriented, and quadratic polynomials satisfy the hypotheses. -/
example : 0 < edgeDet C62_triangle ∧ Fits (2 * 2) 2 :=
  ⟨by simp [edgeDet, Matrix.det_fin_two, C62_triangle], Or.inr (by norm_num)⟩

/-- The dual Bernstein functions recover the coefficients of a quadratic polynomial on the triangle. -/
example : ∃ p f, SObj.new .bernstein [(1 : ℝ), 2, 3, 4, 5, 6] C62_triangle (some 2) = .ok p ∧ RepresentsOn p C62_triangle f ∧
    ∃ duals, dualBernsteinBasisSimplex 2 C62_triangle = .ok duals ∧ duals.mapM (fun q => q (.simplex p)) = .ok [1, 2, 3, 4, 5, 6] := by
  have hd : 0 < edgeDet C62_triangle := by simp [edgeDet, Matrix.det_fin_two, C62_triangle]
  obtain ⟨p, f, h1, h2, h3, h4, h5, -⟩ := C62_construct .bernstein [(1 : ℝ), 2, 3, 4, 5, 6] C62_triangle 2 (by rfl) (Or.inr (by norm_num)) hd.ne'
  obtain ⟨duals, h6, h7⟩ := C64_dual_bernstein_coefficients hd h5 h2 (by rw [h4]; exact Or.inr (by norm_num))
  rw [h4] at h6
  rw [h3] at h7
  exact ⟨p, f, h1, h5, duals, h6, h7⟩

end

end Verif.Props
