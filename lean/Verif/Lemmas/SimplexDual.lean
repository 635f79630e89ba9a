import Verif.Lemmas.Calculus
import Verif.Lemmas.DualBases
import Verif.Lemmas.BaldoniModel
import Verif.Model.SimplexDual
import Verif.Props.Integration
/-!
# Monomial form and dual bases of polynomials on a simplex
-/

namespace Verif.SPoly
open Verif Verif.MI Verif.Poly Verif.Simplex Verif.Spec Verif.Calculus Verif.Integration

section
variable {K V : Type} [NontriviallyNormedField K] [DecidableEq K] [CharZero K] [NormedAddCommGroup V] [NormedSpace K V] {m : ℕ}

theorem goodSimplex (v : Vertices K m m) :
    Good (K := K) (V := V) (m := m) SObj.partialDerivative (fun p f => RepresentsOn p v f) (fun p => p.poly.basis) (fun p => p.poly.r) where
  poly _ _ h := repOn_isPoly h
  pd _ _ h i := partialDerivative_repOn h i

theorem dualMonomialSimplex_mono {p : SObj K V m} {v : Vertices K m m} {R : ℕ} {c : (Fin m → ℕ) → V} (hp : RepresentsOn p v (mono (K := K) R c))
    (hs : Supp R c) (α : Fin m → ℕ) : dualMonomialSimplex (List.ofFn α) p = .ok (c α) := by
  obtain ⟨s, d, h1, h2, h3, -, -⟩ := derivative_mono' (goodSimplex v) hp hs α
  have hv := h2.2 (fun _ => 0)
  unfold dualMonomialSimplex
  rw [h1, Py.bind_ok, hv, Py.bind_ok, mono_zero]
  have h4 := h3 0
  rw [zero_add, show factF (0 : Fin m → ℕ) = 1 by simp [factF], one_smul] at h4
  have hne : ((factF α : ℕ) : K) ≠ 0 := by
    rw [Nat.cast_ne_zero]; exact Finset.prod_ne_zero_iff.2 (fun i _ => Nat.factorial_ne_zero _)
  rw [factorial_ofFn, h4, ← Nat.cast_smul_eq_nsmul K, smul_smul, inv_mul_cancel₀ hne, one_smul]
  rfl

theorem toMonomialBasis_repOn {p : SObj K V m} {v : Vertices K m m} {f : (Fin m → K) → V} (hp : RepresentsOn p v f) :
    ∃ q, p.toMonomialBasis = .ok q ∧ Represents q m f ∧ q.basis = .monomial ∧ q.r = p.poly.r := by
  obtain ⟨c, hs, rfl⟩ := exists_mono (repOn_isPoly hp)
  have hfit := repOn_fits hp
  refine ⟨mkObj .monomial m p.poly.r (fun ν => c (fun i => ν.getD i 0)), ?_, ?_, rfl, rfl⟩
  · unfold SObj.toMonomialBasis
    rw [generateAll_eq_mis, mapM_eq_ok (fun ν => c (fun i => ν.getD i 0)) _ (fun ν hν => ?_), Py.bind_ok]
    · exact new_mk _ _ _ _ hfit
    · obtain ⟨ν', rfl⟩ := eq_ofFn (mem_mis.1 hν).1
      rw [dualMonomialSimplex_mono hp hs]
      congr 2
      funext i; simp
  · have := rep_mk (K := K) .monomial m p.poly.r (fun ν => c (fun i => ν.getD i 0)) hfit
    have e : val (K := K) .monomial m p.poly.r (fun ν => c (fun i => ν.getD i 0)) = mono p.poly.r c := by
      funext x
      unfold val mono
      refine Finset.sum_congr rfl (fun ν _ => ?_)
      simp only [basisFn, monomial_ofFn]
      congr 2
      funext i; simp
    rw [e] at this
    exact this

theorem basisFnMonomial_rep (b : Basis) (v : Vertices K m m) (hd : edgeDet v ≠ 0) (ν : List Nat) (r : Nat) (hl : ν.length = m) (hs : ν.sum ≤ r)
    (hf : Fits r m) :
    ∃ s, basisFnSimplexMonomial b ν r v = .ok s ∧ Represents s m (fun x => basisFn b r (List.ofFn (createAffineMap (down v) x)) ν) ∧
      s.basis = .monomial ∧ s.r = r := by
  obtain ⟨s, a1, a2, a3, a4⟩ := basisFn_repOn b v hd ν r hl hs hf
  obtain ⟨q, b1, b2, b3, b4⟩ := toMonomialBasis_repOn a2
  refine ⟨q, ?_, b2, b3, b4.trans a4⟩
  unfold basisFnSimplexMonomial
  rw [a1, Py.bind_ok, b1]

end

section Dual
variable {m : ℕ}

theorem dualPoly_eq (v : Vertices ℝ m m) (r : ℕ) (hf : Fits r m) (μ : List ℕ) (hμ : μ ∈ mis m r) :
    ∃ μ' e, μ = List.ofFn μ' ∧ μ' ∈ S m r ∧ IsDual r μ' e ∧ dualBernsteinPolynomialSimplex μ r v =
      if 0 < edgeDet v then .ok ⟨mkObj .bernstein m r (fun ν => 1 / edgeDet v * e ν), v, down v⟩ else .error .assertion := by
  obtain ⟨h1, h2⟩ := mem_mis.1 hμ
  obtain ⟨μ', rfl⟩ := eq_ofFn h1
  have hμ' : μ' ∈ S m r := mem_S.2 (by rwa [List.sum_ofFn] at h2)
  obtain ⟨e, d1, d2⟩ := dualPolynomial_spec r m hf μ' hμ'
  refine ⟨μ', e, rfl, hμ', d2, ?_⟩
  unfold dualBernsteinPolynomialSimplex
  rw [d1, Py.bind_ok, positiveDet_eq]
  by_cases hd : 0 < edgeDet v
  · have hd' : 0 < (edges v).det := hd
    rw [if_pos hd', if_pos hd, Py.bind_ok]
    have : (mkObj .bernstein m r e).coeff.map (fun c => 1 / (edges v).det * c) = tab m r (fun ν => 1 / edgeDet v * e ν) := by
      simp only [mkObj, tab, List.map_map]; rfl
    rw [this]
    exact snew_ok hd.ne' (new_mk _ _ _ _ hf)
  · have hd' : ¬ 0 < (edges v).det := hd
    rw [if_neg hd', if_neg hd]
    rfl

/-- The dual polynomial as a function. -/
noncomputable def dualFun (v : Vertices ℝ m m) (r : ℕ) (e : List ℕ → ℝ) (x : Fin m → ℝ) : ℝ :=
  val .bernstein m r (fun ν => 1 / edgeDet v * e ν) (createAffineMap (down v) x)

theorem dual_repOn (v : Vertices ℝ m m) (hd : 0 < edgeDet v) (r : ℕ) (hf : Fits r m) (e : List ℕ → ℝ) :
    RepresentsOn (⟨mkObj .bernstein m r (fun ν => 1 / edgeDet v * e ν), v, down v⟩ : SObj ℝ ℝ m) v (dualFun v r e) :=
  repOn_mk hd.ne' (rep_mk .bernstein m r (fun ν => 1 / edgeDet v * e ν) hf)

theorem fromUnit_up (v : Vertices ℝ m m) (u : Fin m → ℝ) : Spec.fromUnit v u = createAffineMap (up v) u := by
  rw [Integration.fromUnit_eq]; rfl

theorem integral_dualFun (v : Vertices ℝ m m) (hd : 0 < edgeDet v) (r : ℕ) {μ : Fin m → ℕ} {e : List ℕ → ℝ} (h : IsDual r μ e) (hμ : μ ∈ S m r)
    (c : List ℕ → ℝ) (f : (Fin m → ℝ) → ℝ) (hf : ∀ u, f (createAffineMap (up v) u) = val .bernstein m r c u) :
    ∫ x in Spec.simplex v, dualFun v r e x * f x = c (List.ofFn μ) := by
  have hd' : 0 < (edges v).det := hd
  rw [integral_simplex v hd'.ne', abs_of_pos hd']
  have : ∀ u, dualFun v r e (Spec.fromUnit v u) * f (Spec.fromUnit v u) = 1 / (edges v).det * (val .bernstein m r e u * val .bernstein m r c u) := by
    intro u
    rw [fromUnit_up, hf]
    unfold dualFun
    rw [down_up v hd.ne', ← mul_assoc]
    congr 1
    simp only [val, Finset.mul_sum, smul_eq_mul]
    refine Finset.sum_congr rfl (fun ν _ => ?_)
    show _ * (1 / (edges v).det * _) = _
    ring
  simp only [this]
  rw [MeasureTheory.integral_const_mul, integral_dual h hμ, smul_eq_mul, ← mul_assoc, mul_one_div_cancel hd'.ne', one_mul]

theorem apply_bernstein (v : Vertices ℝ m m) (hd : 0 < edgeDet v) (r : ℕ) (hf : Fits (2 * r) m) (e : List ℕ → ℝ) {p : SObj ℝ ℝ m} {f : (Fin m → ℝ) → ℝ}
    (hp : RepresentsOn p v f) (hb : p.poly.basis = .bernstein) (hr : p.poly.r = r) :
    dualBernsteinApplySimplex ⟨mkObj .bernstein m r (fun ν => 1 / edgeDet v * e ν), v, down v⟩ r v (.simplex p) =
      .ok (∫ x in Spec.simplex v, dualFun v r e x * f x) := by
  have h1 := dual_repOn v hd r (hf.mono (by omega)) e
  have h2 : r + p.poly.r = 2 * r := by omega
  obtain ⟨s, a1, a2, a3, a4⟩ := (mul_repOn h1 hp (Or.inr ⟨rfl, hb, rfl⟩)).1 (by rw [show (mkObj .bernstein m r _ : Obj ℝ).r = r from rfl, h2]; exact hf)
  have a4' : s.poly.r = 2 * r := a4.trans h2
  simp only [dualBernsteinApplySimplex]
  rw [if_pos hb, a1, Py.bind_ok]
  have h3 := ((repOn_iff hd.ne').1 a2).2.2
  have h4 := Verif.Props.C50_integrate_simplex h3 (by rw [a3]; simp [mkObj]) v (g := fun x => dualFun v r e x * f x) (fun u => by rw [fromUnit_up]) hd
  unfold integrateSimplex at h4
  rw [a3, a4'] at h4
  exact h4

theorem apply_monomial (v : Vertices ℝ m m) (hd : 0 < edgeDet v) (r : ℕ) (hf : Fits (2 * r) m) (e : List ℕ → ℝ) {p : Obj ℝ} {f : (Fin m → ℝ) → ℝ}
    (hp : Represents p m f) (hb : p.basis = .monomial) (hr : p.r = r) :
    dualBernsteinApplySimplex ⟨mkObj .bernstein m r (fun ν => 1 / edgeDet v * e ν), v, down v⟩ r v (.plain p) =
      .ok (∫ x in Spec.simplex v, dualFun v r e x * f x) := by
  have h1 := dual_repOn v hd r (hf.mono (by omega)) e
  obtain ⟨dm, a1, a2, a3, a4⟩ := toMonomialBasis_repOn h1
  obtain ⟨pm, b1, b2, b3, b4⟩ := toMonomialBasis_rep hp
  have h4 : dm.r + pm.r = 2 * r := by rw [a4, b4, hr, show (mkObj .bernstein m r _ : Obj ℝ).r = r from rfl]; omega
  obtain ⟨s, c1, c2, c3, c4⟩ := mul_rep a2 b2 (Or.inr (by rw [a3, b3])) (by rw [h4]; exact hf)
  obtain ⟨c, hc, hcf, _⟩ := c2.exists_mk
  simp only [dualBernsteinApplySimplex]
  rw [decide_eq_true hb, pyAssert_true, Py.bind_ok, a1, Py.bind_ok, b1, Py.bind_ok, c1, Py.bind_ok, hc]
  have := integrateMonomialPolynomialSimplex_tab (n := m) (2 * r) c v
  rw [c3, a3, c4, h4] at hcf
  rw [← hcf] at this
  rw [← this, ← h4, ← c4]
  rfl

/-- The functions of the dual Bernstein basis. -/
theorem dualBasis_list (v : Vertices ℝ m m) (hd : 0 < edgeDet v) (r : ℕ) (hf : Fits r m) :
    ∃ e : List ℕ → List ℕ → ℝ, (∀ μ : Fin m → ℕ, μ ∈ S m r → IsDual r μ (e (List.ofFn μ))) ∧
      (∀ μ ∈ mis m r, dualBernsteinPolynomialSimplex μ r v = .ok ⟨mkObj .bernstein m r (fun ν => 1 / edgeDet v * e μ ν), v, down v⟩) ∧
      ∀ μ ∈ mis m r, dualBernsteinFnSimplex μ r v =
        .ok (dualBernsteinApplySimplex ⟨mkObj .bernstein m r (fun ν => 1 / edgeDet v * e μ ν), v, down v⟩ r v) := by
  choose! μ' e h1 h2 h3 h4 using fun μ hμ => dualPoly_eq v r hf μ hμ
  have h5 : ∀ μ ∈ mis m r, dualBernsteinPolynomialSimplex μ r v = .ok ⟨mkObj .bernstein m r (fun ν => 1 / edgeDet v * e μ ν), v, down v⟩ :=
    fun μ hμ => by rw [h4 μ hμ, if_pos hd]
  refine ⟨e, fun μ hμ => ?_, h5, fun μ hμ => ?_⟩
  · have hm : List.ofFn μ ∈ mis m r := mem_mis.2 ⟨by simp, by rw [List.sum_ofFn]; exact mem_S.1 hμ⟩
    have := h3 _ hm
    rw [← List.ofFn_injective (h1 _ hm)] at this
    exact this
  · unfold dualBernsteinFnSimplex
    rw [h5 μ hμ]; rfl

end Dual

section Lists

theorem vectorPairs_mem {r m n : ℕ} {ordering : String} {e : List ℕ × ℕ} (he : e ∈ vectorPairs r m n ordering) : e.1 ∈ mis m r ∧ e.2 < n := by
  unfold vectorPairs at he
  rw [MI.generateAll_eq_mis] at he
  split at he <;> simp only [List.mem_flatMap, List.mem_map, List.mem_range] at he
  · obtain ⟨ν, h3, i, h4, rfl⟩ := he; exact ⟨h3, h4⟩
  · obtain ⟨i, h4, ν, h3, rfl⟩ := he; exact ⟨h3, h4⟩

theorem vectorPairs_map {W : Type} [Zero W] (r m n : ℕ) (ordering : String) (c : List ℕ → Fin n → W) :
    (vectorPairs r m n ordering).map (fun e => if h : e.2 < n then c e.1 ⟨e.2, h⟩ else 0) =
      if ordering = "interleaved" then (tab m r c).flatMap (fun v => List.ofFn v) else (List.finRange n).flatMap (fun i => (tab m r c).map (fun v => v i)) := by
  unfold vectorPairs
  rw [MI.generateAll_eq_mis]
  by_cases ho : ordering = "interleaved"
  · rw [if_pos ho, if_pos ho, List.map_flatMap]
    unfold tab
    rw [List.flatMap_map]
    refine List.flatMap_congr (fun ν _ => ?_)
    apply List.ext_getElem
    · simp
    · intro k k1 k2
      have : k < n := by simpa using k2
      simp [this]
  · rw [if_neg ho, if_neg ho, List.map_flatMap, ← List.map_coe_finRange_eq_range, List.flatMap_map]
    refine List.flatMap_congr (fun i _ => ?_)
    unfold tab
    rw [List.map_map, List.map_map]
    refine List.map_congr_left (fun ν _ => ?_)
    simp

theorem sumLoop_stop {V ι : Type} [AddCommGroup V] (f : ι → Py (Option V)) (e : PyErr) (x : ι) (l2 : List ι) (hx : f x = .error e) :
    ∀ (l1 : List ι) (c : V), (∀ y ∈ l1, ∃ w, f y = .ok w) → sumLoop f (l1 ++ x :: l2) c = .error e
  | [], c, _ => by simp only [List.nil_append, sumLoop, hx]; rfl
  | y :: l1, c, h => by
    obtain ⟨w, hw⟩ := h y (by simp)
    simp only [List.cons_append, sumLoop, hw, Py.bind_ok]
    cases w with
    | none => exact sumLoop_stop f e x l2 hx l1 _ (fun z hz => h z (by simp [hz]))
    | some w => exact sumLoop_stop f e x l2 hx l1 _ (fun z hz => h z (by simp [hz]))

/-- Too few coefficients. -/
theorem integrateMonomialPolynomialSimplex_short {m : ℕ} (r : ℕ) (a : List ℝ) (v : Vertices ℝ m m) (h : a.length < getDimension r m) :
    integrateMonomialPolynomialSimplex r a v = .error .index := by
  unfold integrateMonomialPolynomialSimplex
  rw [MI.generateAll_eq_mis]
  have hlen : a.length < (mis m r).length := by rw [length_mis_eq]; exact h
  have hl : a.length < (mis m r).zipIdx.length := by simpa using hlen
  rw [← List.take_append_drop a.length (mis m r).zipIdx, List.drop_eq_getElem_cons hl]
  refine sumLoop_stop _ _ _ _ ?_ _ _ (fun y hy => ?_)
  · have : ((mis m r).zipIdx[a.length]).2 = a.length := by simp
    rw [this, getE_error (le_refl _)]; rfl
  · rw [List.mem_take_iff_getElem] at hy
    obtain ⟨i, hi, rfl⟩ := hy
    have hi' : i < a.length := lt_of_lt_of_le hi (min_le_left _ _)
    have him : i < (mis m r).length := hi'.trans hlen
    have h1 : ((mis m r).zipIdx[i]'(by simpa using him)) = ((mis m r)[i], i) := by simp
    rw [h1]
    simp only
    rw [getE_ok hi', Py.bind_ok]
    obtain ⟨ν, hν⟩ := eq_ofFn (mem_mis.1 (List.getElem_mem him)).1
    rw [hν, integrateMonomialSimplex_eq]
    exact ⟨_, rfl⟩

/-- Too many coefficients: only the first ones are read. -/
theorem integrateMonomialPolynomialSimplex_long {m : ℕ} (r : ℕ) (a : List ℝ) (v : Vertices ℝ m m) (h : getDimension r m ≤ a.length) :
    integrateMonomialPolynomialSimplex r a v = integrateMonomialPolynomialSimplex r (a.take (getDimension r m)) v := by
  have hl : (a.take (getDimension r m)).length = getDimension r m := by rw [List.length_take]; omega
  obtain ⟨c, hc⟩ := exists_tab m r _ hl
  have hget : ∀ e ∈ (mis m r).zipIdx, getE a e.2 = getE (a.take (getDimension r m)) e.2 := by
    intro e he
    have h1 : e.2 < getDimension r m := by
      rw [← length_mis_eq]
      have := List.snd_lt_of_mem_zipIdx he
      simpa using this
    have h2 : e.2 < a.length := h1.trans_le h
    rw [getE_ok h2, getE_ok (by rw [hl]; exact h1)]
    simp
  unfold integrateMonomialPolynomialSimplex
  rw [MI.generateAll_eq_mis]
  have key : ∀ (f g : List ℕ × ℕ → Py (Option ℝ)) (l : List (List ℕ × ℕ)) (z : ℝ), (∀ e ∈ l, f e = g e) → sumLoop f l z = sumLoop g l z := by
    intro f g l
    induction l with
    | nil => intro z _; rfl
    | cons e l ih =>
      intro z hfg
      simp only [sumLoop]
      rw [hfg e (by simp)]
      have h3 := fun z => ih z (fun e' he' => hfg e' (by simp [he']))
      simp only [h3]
  exact key _ _ _ _ (fun e he => by rw [hget e he])

/-- A polynomial of degree at least `r` in the monomial basis: the first coefficients of the product are taken for the coefficients of a polynomial of
degree `2 r`. -/
theorem apply_monomial_long {m : ℕ} (v : Vertices ℝ m m) (hd : 0 < edgeDet v) (r : ℕ) (e : List ℕ → ℝ) {p : Obj ℝ} {f : (Fin m → ℝ) → ℝ}
    (hp : Represents p m f) (hb : p.basis = .monomial) (hr : r ≤ p.r) (hfit : Fits (r + p.r) m) :
    ∃ c : List ℝ, c.length = getDimension (r + p.r) m ∧
      (∀ x, dualFun v r e x * f x = linComb (monomial (List.ofFn x)) (mis m (r + p.r)) c) ∧
      dualBernsteinApplySimplex ⟨mkObj .bernstein m r (fun ν => 1 / edgeDet v * e ν), v, down v⟩ r v (.plain p) =
        .ok (∫ x in Spec.simplex v, linComb (monomial (List.ofFn x)) (mis m (2 * r)) (c.take (getDimension (2 * r) m))) := by
  have h1 := dual_repOn v hd r (hfit.mono (by omega)) e
  obtain ⟨dm, a1, a2, a3, a4⟩ := toMonomialBasis_repOn h1
  obtain ⟨pm, b1, b2, b3, b4⟩ := toMonomialBasis_rep hp
  have h4 : dm.r + pm.r = r + p.r := by rw [a4, b4]; rfl
  obtain ⟨s, c1, c2, c3, c4⟩ := mul_rep a2 b2 (Or.inr (by rw [a3, b3])) (by rw [h4]; exact hfit)
  obtain ⟨c, hc, hcf, _⟩ := c2.exists_mk
  have hs : s.coeff = tab m (r + p.r) c := by rw [hc, c4, h4]; rfl
  have hdim : getDimension (2 * r) m ≤ getDimension (r + p.r) m := by
    rcases Nat.eq_zero_or_pos m with rfl | hm
    · simp [getDimension]
    · rcases Nat.eq_or_lt_of_le (show 2 * r ≤ r + p.r by omega) with h | h
      · rw [h]
      · exact (getDimension_strictMono m hm h).le
  refine ⟨s.coeff, by rw [hs, length_tab], fun x => ?_, ?_⟩
  · rw [hs, linComb_tab]
    rw [c3, a3, c4, h4] at hcf
    exact congrFun hcf x
  · simp only [dualBernsteinApplySimplex]
    rw [decide_eq_true hb, pyAssert_true, Py.bind_ok, a1, Py.bind_ok, b1, Py.bind_ok, c1, Py.bind_ok,
      integrateMonomialPolynomialSimplex_long _ _ _ (by rw [hs, length_tab]; exact hdim)]
    obtain ⟨d, hd'⟩ := exists_tab m (2 * r) (s.coeff.take (getDimension (2 * r) m)) (by rw [List.length_take, hs, length_tab]; omega)
    rw [hd', integrateMonomialPolynomialSimplex_tab (n := m) (2 * r) d v]
    simp only [linComb_tab]
    rfl

end Lists

end Verif.SPoly
