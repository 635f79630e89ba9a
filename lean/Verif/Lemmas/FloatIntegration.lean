import Verif.Model.FloatIntegration
import Verif.Lemmas.FloatExpr
import Verif.Lemmas.Integration
/-!
# Rounding errors of integration and point computations
-/

namespace Verif.FloatIntegration
open Verif Verif.Poly Verif.PyExpr Verif.MI
open Verif.Integration (mint)

/-- `c` is `v` up to `k` roundings of terms of total size `M`. -/
def Near (ε : ℝ) (k : Nat) (v M c : ℝ) : Prop := |v| ≤ M ∧ |c - v| ≤ ((1 + ε) ^ k - 1) * M

variable {ε : ℝ}

theorem Near.nonneg {k : Nat} {v M c : ℝ} (h : Near ε k v M c) : 0 ≤ M := (abs_nonneg _).trans h.1

theorem near_self (hε : 0 ≤ ε) (k : Nat) (v : ℝ) : Near ε k v |v| v := by
  refine ⟨le_rfl, ?_⟩
  rw [sub_self, abs_zero]
  exact mul_nonneg (by have := one_le_base hε k; linarith) (abs_nonneg _)

theorem near_of_rounded {v c : ℝ} (h : Rounded ε v c) : Near ε 1 v |v| c := by
  refine ⟨le_rfl, ?_⟩
  unfold Rounded at h
  rw [pow_one]
  linarith

theorem Near.mono (hε : 0 ≤ ε) {k l : Nat} {v M c : ℝ} (h : Near ε k v M c) (hl : k ≤ l) : Near ε l v M c :=
  ⟨h.1, weaken hε le_rfl h.nonneg hl h.2⟩

theorem Near.round (hε : 0 ≤ ε) {k : Nat} {v M c d : ℝ} (h : Near ε k v M c) (hd : Rounded ε c d) : Near ε (k + 1) v M d :=
  ⟨h.1, by rw [pow_succ]; exact near_round hε h.1 h.2 hd⟩

theorem Near.mul (hε : 0 ≤ ε) {k l : Nat} {v w M N c d : ℝ} (h : Near ε k v M c) (h' : Near ε l w N d) : Near ε (k + l) (v * w) (M * N) (c * d) := by
  refine ⟨?_, ?_⟩
  · rw [abs_mul]
    exact mul_le_mul h.1 h'.1 (abs_nonneg _) h.nonneg
  · rw [pow_add]
    exact near_mul (one_le_base hε k) (one_le_base hε l) h.1 h'.1 h.2 h'.2

theorem Near.add {k : Nat} {v w M N c d : ℝ} (h : Near ε k v M c) (h' : Near ε k w N d) : Near ε k (v + w) (M + N) (c + d) := by
  refine ⟨(abs_add_le _ _).trans (add_le_add h.1 h'.1), ?_⟩
  rw [show c + d - (v + w) = (c - v) + (d - w) by ring, mul_add]
  exact (abs_add_le _ _).trans (add_le_add h.2 h'.2)

/-- The reciprocal of a rounded positive number. -/
theorem near_inv (hε : 0 ≤ ε) (hε' : ε ≤ 1 / 2) {v c : ℝ} (hv : 0 < v) (h : Rounded ε v c) : 0 < c ∧ Near ε 2 (1 / v) (1 / v) (1 / c) := by
  unfold Rounded at h
  rw [abs_of_pos hv, abs_le] at h
  have hc : v * (1 - ε) ≤ c := by linarith [h.1]
  have hc0 : 0 < c := lt_of_lt_of_le (mul_pos hv (by linarith)) hc
  refine ⟨hc0, by rw [abs_of_pos (by positivity)], ?_⟩
  rw [show 1 / c - 1 / v = (v - c) / c * (1 / v) by field_simp, abs_mul, abs_of_pos (show 0 < 1 / v by positivity)]
  refine mul_le_mul_of_nonneg_right ?_ (by positivity)
  rw [abs_div, abs_of_pos hc0, div_le_iff₀ hc0, abs_le]
  have h2 : 0 ≤ (1 + ε) ^ 2 - 1 := by nlinarith
  have h3 : ((1 + ε) ^ 2 - 1) * (v * (1 - ε)) ≤ ((1 + ε) ^ 2 - 1) * c := mul_le_mul_of_nonneg_left hc h2
  have h4 : ε * v ≤ ((1 + ε) ^ 2 - 1) * (v * (1 - ε)) := by
    have : 0 ≤ ε * v * (1 - ε - ε ^ 2) := mul_nonneg (mul_nonneg hε hv.le) (by nlinarith)
    nlinarith
  constructor <;> linarith [h.1, h.2]

/-- The possible values of a sum whose terms are near to given numbers. -/
theorem sumTerms_near (hε : 0 ≤ ε) (k : Nat) (L : List (Set ℝ × ℝ × ℝ)) (hL : ∀ e ∈ L, ∀ t ∈ e.1, Near ε k e.2.1 e.2.2 t) :
    ∀ (d : Nat) (s v M : ℝ), k ≤ d → Near ε d v M s → ∀ y ∈ sumTerms ε (L.map Prod.fst) s,
      Near ε (d + L.length) (v + (L.map (fun e => e.2.1)).sum) (M + (L.map (fun e => e.2.2)).sum) y := by
  induction L with
  | nil =>
    intro d s v M hd h y hy
    simp only [List.map_nil, sumTerms, Set.mem_singleton_iff] at hy
    subst hy
    simpa using h
  | cons e L ih =>
    intro d s v M hd h y hy
    obtain ⟨t, ht, u, hu, hy⟩ := hy
    have h1 := (h.add ((hL e (by simp) t ht).mono hε hd)).round hε hu
    have := ih (fun e' he' => hL e' (by simp [he'])) (d + 1) u _ _ (by omega) h1 y hy
    simp only [List.map_cons, List.sum_cons, List.length_cons]
    rw [← add_assoc v, ← add_assoc M, show d + (L.length + 1) = d + 1 + L.length by omega]
    exact this

theorem sumTerms_nonempty (hε : 0 ≤ ε) (L : List (Set ℝ)) (hL : ∀ T ∈ L, T.Nonempty) : ∀ s, (sumTerms ε L s).Nonempty := by
  induction L with
  | nil => intro s; exact ⟨s, rfl⟩
  | cons T L ih =>
    intro s
    obtain ⟨t, ht⟩ := hL T (by simp)
    obtain ⟨y, hy⟩ := ih (fun T' hT' => hL T' (by simp [hT'])) (s + t)
    exact ⟨y, t, ht, s + t, rounded_self hε, hy⟩

/-- The terms of a sum, as functions on a list of indices. -/
theorem sumTerms_map {ι : Type} (hε : 0 ≤ ε) (k : Nat) (l : List ι) (T : ι → Set ℝ) (v M : ι → ℝ) (h0 : ∀ i ∈ l, (T i).Nonempty)
    (h : ∀ i ∈ l, ∀ t ∈ T i, Near ε k (v i) (M i) t) :
    (sumTerms ε (l.map T) 0).Nonempty ∧ ∀ y ∈ sumTerms ε (l.map T) 0, Near ε (k + l.length) (l.map v).sum (l.map M).sum y := by
  refine ⟨sumTerms_nonempty hε _ (by simpa using h0) 0, fun y hy => ?_⟩
  have := sumTerms_near hε k (l.map (fun i => (T i, v i, M i))) (by simpa using h) k 0 0 0 le_rfl (by simpa using near_self hε k 0) y
    (by simpa [Function.comp_def] using hy)
  simpa [Function.comp_def] using this

theorem pySum_near (hε : 0 ≤ ε) (a : List ℝ) :
    (pySum ε a).Nonempty ∧ ∀ y ∈ pySum ε a, Near ε a.length a.sum (a.map (fun t => |t|)).sum y := by
  have := sumTerms_map hε 0 a (fun t => {t}) id (fun t => |t|) (fun i _ => ⟨i, rfl⟩)
    (fun i _ t ht => by rw [Set.mem_singleton_iff] at ht; subst ht; exact near_self hε 0 t)
  simpa [pySum] using this

/-- The integral of a Bernstein basis polynomial. -/
theorem bernsteinBasis_near (r n : Nat) : ∀ c ∈ integrateBernsteinBasisFnUnit ε r n,
    Near ε 1 (Integration.integrateBernsteinBasisFnUnit ℝ r n) (Integration.integrateBernsteinBasisFnUnit ℝ r n) c := by
  intro c hc
  have := near_of_rounded (show Rounded ε _ c from hc)
  rw [abs_of_nonneg (by positivity)] at this
  exact this

theorem bernsteinBasis_mem (hε : 0 ≤ ε) (r n : Nat) : Integration.integrateBernsteinBasisFnUnit ℝ r n ∈ integrateBernsteinBasisFnUnit ε r n :=
  rounded_self hε

theorem factorial_pos (nu : List Nat) : 0 < MI.factorial nu := by
  rw [factorial_eq_prod]
  exact List.prod_pos (by simp [Nat.factorial_pos])

theorem multinom_real (nu : List Nat) : ((MI.multinom nu : ℚ) : ℝ) = ((MI.norm nu).factorial : ℝ) / (MI.factorial nu : ℝ) := by
  unfold MI.multinom
  push_cast
  rfl

theorem multinom_pos (nu : List Nat) : 0 < ((MI.norm nu).factorial : ℝ) / (MI.factorial nu : ℝ) :=
  div_pos (Nat.cast_pos.2 (Nat.factorial_pos _)) (Nat.cast_pos.2 (factorial_pos nu))

/-- The integral of a monomial. -/
theorem monomial_near (hε : 0 ≤ ε) (hε' : ε ≤ 1 / 2) (nu : List Nat) : ∀ y ∈ integrateMonomialUnit ε nu,
    Near ε 5 (Integration.integrateMonomialUnit ℝ nu) (Integration.integrateMonomialUnit ℝ nu) y := by
  rintro y ⟨c, hc, d, hd, b, hb, hy⟩
  have h1 := ((near_inv hε hε' (multinom_pos nu) hc).2.round hε hd).mul hε (bernsteinBasis_near _ _ b hb)
  rw [← multinom_real] at h1
  exact h1.round hε hy

theorem monomial_mem (hε : 0 ≤ ε) (nu : List Nat) : Integration.integrateMonomialUnit ℝ nu ∈ integrateMonomialUnit ε nu := by
  refine ⟨_, rounded_self hε, _, rounded_self hε, _, bernsteinBasis_mem hε _ _, ?_⟩
  unfold Integration.integrateMonomialUnit
  rw [multinom_real]
  exact rounded_self hε

/-- The integral of a Bernstein polynomial: `c` are the coefficients. -/
theorem bernsteinUnit_near (hε : 0 ≤ ε) (r n : Nat) (a : List ℝ) (ha : a.length = getDimension r n) :
    ∃ Y, integrateBernsteinUnit ε r a n = .ok Y ∧ Y.Nonempty ∧ ∀ y ∈ Y, Near ε (getDimension r n + 2)
      (Integration.integrateBernsteinBasisFnUnit ℝ r n * a.sum) (Integration.integrateBernsteinBasisFnUnit ℝ r n * (a.map (fun t => |t|)).sum) y := by
  unfold integrateBernsteinUnit
  simp only [ha, decide_true, pyAssert_true, Py.bind_ok, Py.pure_eq]
  obtain ⟨⟨s, hs⟩, h2⟩ := pySum_near hε a
  refine ⟨_, rfl, ⟨_, _, bernsteinBasis_mem hε r n, s, hs, rounded_self hε⟩, ?_⟩
  rintro y ⟨c, hc, s, hs, hy⟩
  have := ((bernsteinBasis_near r n c hc).mul hε (h2 s hs)).round hε hy
  rw [ha] at this
  exact this.mono hε (by omega)

theorem zipIdx_fst {α : Type} (l : List α) : l.zipIdx.map Prod.fst = l := by simp

theorem mapM_zipIdx_mis {W : Type} (n r : Nat) (f : List Nat × Nat → Py W) (g : List Nat → W)
    (h : ∀ e : List Nat × Nat, (mis n r)[e.2]? = some e.1 → e.1.length = n → e.1.sum ≤ r → f e = .ok (g e.1)) :
    (mis n r).zipIdx.mapM f = .ok ((mis n r).map g) := by
  rw [mapM_eq_ok (fun e => g e.1)]
  · rw [show (mis n r).zipIdx.map (fun e => g e.1) = ((mis n r).zipIdx.map Prod.fst).map g by rw [List.map_map]; rfl, zipIdx_fst]
  · intro e he
    obtain ⟨h1, h2, h3⟩ := mem_zipIdx_mis he
    exact h e h1 h2 h3

/-- The integral of a polynomial in the monomial basis: `b` are the coefficients that are used, `c` the exact coefficients. -/
theorem monomialUnit_near (hε : 0 ≤ ε) (hε' : ε ≤ 1 / 2) (k r n : Nat) (b c M : List Nat → ℝ) (hb : ∀ ν ∈ mis n r, Near ε k (c ν) (M ν) (b ν)) :
    ∃ Y, integrateMonomialPolynomialUnit ε r n (tab n r b) = .ok Y ∧ Y.Nonempty ∧ ∀ y ∈ Y, Near ε (getDimension r n + (k + 6))
      (∑ ν ∈ S n r, mint ℝ ν * c (List.ofFn ν)) (∑ ν ∈ S n r, mint ℝ ν * M (List.ofFn ν)) y := by
  have hsum : ∀ d : List Nat → ℝ, ∑ ν ∈ S n r, mint ℝ ν * d (List.ofFn ν) =
      ((mis n r).map (fun ν => d ν * Integration.integrateMonomialUnit ℝ ν)).sum := by
    intro d
    rw [sum_mis]
    exact Finset.sum_congr rfl (fun ν _ => by rw [Integration.monomialUnit_eq, mul_comm])
  rw [hsum, hsum]
  unfold integrateMonomialPolynomialUnit
  simp only [length_tab, decide_true, pyAssert_true, Py.bind_ok]
  cases hc : Integration.monomialIntegralsCache.lookup (n, r) with
  | some ds =>
    simp only [Py.pure_eq]
    have hv := Integration.cache_values (K := ℝ) hc
    have h1 : ((tab n r b).zip ds).map (fun e => ({t | ∃ w, Rounded ε (1 / (e.2 : ℝ)) w ∧ Rounded ε (e.1 * w) t} : Set ℝ)) =
        (mis n r).map (fun ν => {t | ∃ w, Rounded ε (Integration.integrateMonomialUnit ℝ ν) w ∧ Rounded ε (b ν * w) t}) := by
      have h2 : ((tab n r b).zip ds).map (fun e => ({t | ∃ w, Rounded ε (1 / (e.2 : ℝ)) w ∧ Rounded ε (e.1 * w) t} : Set ℝ)) =
        ((tab n r b).zip (ds.map (fun (d : Nat) => 1 / (d : ℝ)))).map
          (fun e => {t | ∃ w, Rounded ε e.2 w ∧ Rounded ε (e.1 * w) t}) := by
        rw [List.zip_map_right, List.map_map]; rfl
      rw [h2, hv]
      unfold tab
      rw [List.zip_map', List.map_map]
      rfl
    rw [h1]
    have h3 := sumTerms_map hε (k + 6) (mis n r)
      (fun ν => {t | ∃ w, Rounded ε (Integration.integrateMonomialUnit ℝ ν) w ∧ Rounded ε (b ν * w) t})
      (fun ν => c ν * Integration.integrateMonomialUnit ℝ ν) (fun ν => M ν * Integration.integrateMonomialUnit ℝ ν)
      (fun ν _ => ⟨_, _, rounded_self hε, rounded_self hε⟩) (by
        rintro ν hν t ⟨w, hw, ht⟩
        have h4 := near_of_rounded hw
        rw [abs_of_nonneg (show 0 ≤ Integration.integrateMonomialUnit ℝ ν by
          unfold Integration.integrateMonomialUnit Integration.integrateBernsteinBasisFnUnit MI.multinom; positivity)] at h4
        exact (((hb ν hν).mul hε h4).round hε ht).mono hε (by omega))
    refine ⟨_, rfl, h3.1, fun y hy => (h3.2 y hy).mono hε ?_⟩
    rw [length_mis_eq]
    omega
  | none =>
    simp only [generateAll_eq_mis]
    rw [mapM_zipIdx_mis n r _ (fun ν => ({t | ∃ w ∈ integrateMonomialUnit ε ν, Rounded ε (b ν * w) t} : Set ℝ))]
    · simp only [Py.bind_ok, Py.pure_eq]
      have h3 := sumTerms_map hε (k + 6) (mis n r)
        (fun ν => {t | ∃ w ∈ integrateMonomialUnit ε ν, Rounded ε (b ν * w) t})
        (fun ν => c ν * Integration.integrateMonomialUnit ℝ ν) (fun ν => M ν * Integration.integrateMonomialUnit ℝ ν)
        (fun ν _ => ⟨_, _, monomial_mem hε ν, rounded_self hε⟩) (by
          rintro ν hν t ⟨w, hw, ht⟩
          exact ((hb ν hν).mul hε (monomial_near hε hε' ν w hw)).round hε ht)
      refine ⟨_, rfl, h3.1, fun y hy => (h3.2 y hy).mono hε ?_⟩
      rw [length_mis_eq]
      omega
    · intro e h1 _ _
      rw [getE_tab b h1]; rfl

/-- The integral of a polynomial in the Lagrange basis: `lc` are the exact coefficients of the basis polynomials, `coeff` those that are used. -/
theorem lagrangeUnit_near (hε : 0 ≤ ε) (hε' : ε ≤ 1 / 2) (r n : Nat) (coeff : List Nat → List ℝ) (lc lb : List Nat → List Nat → ℝ)
    (hcoeff : ∀ ν ∈ mis n r, coeff ν = tab n r (lb ν)) (hl : ∀ ν ∈ mis n r, ∀ τ ∈ mis n r, Rounded ε (lc ν τ) (lb ν τ)) (a : List Nat → ℝ) :
    ∃ Y, integrateLagrangeUnit ε coeff r (tab n r a) n = .ok Y ∧ Y.Nonempty ∧ ∀ y ∈ Y, Near ε (2 * getDimension r n + 8)
      (∑ ν ∈ S n r, a (List.ofFn ν) * ∑ τ ∈ S n r, mint ℝ τ * lc (List.ofFn ν) (List.ofFn τ))
      (∑ ν ∈ S n r, |a (List.ofFn ν)| * ∑ τ ∈ S n r, mint ℝ τ * |lc (List.ofFn ν) (List.ofFn τ)|) y := by
  have hb : ∀ ν ∈ mis n r, ∃ Y, integrateMonomialPolynomialUnit ε r n (coeff ν) = .ok Y ∧ Y.Nonempty ∧ ∀ y ∈ Y, Near ε (getDimension r n + (1 + 6))
      (∑ τ ∈ S n r, mint ℝ τ * lc ν (List.ofFn τ)) (∑ τ ∈ S n r, mint ℝ τ * |lc ν (List.ofFn τ)|) y := by
    intro ν hν
    rw [hcoeff ν hν]
    exact monomialUnit_near hε hε' 1 r n (lb ν) (lc ν) (fun τ => |lc ν τ|) (fun τ hτ => near_of_rounded (hl ν hν τ hτ))
  classical
  let W : List Nat → Set ℝ := fun ν => if h : ν ∈ mis n r then Classical.choose (hb ν h) else ∅
  have hW : ∀ ν ∈ mis n r, integrateMonomialPolynomialUnit ε r n (coeff ν) = .ok (W ν) ∧ (W ν).Nonempty ∧ ∀ y ∈ W ν,
      Near ε (getDimension r n + (1 + 6)) (∑ τ ∈ S n r, mint ℝ τ * lc ν (List.ofFn τ)) (∑ τ ∈ S n r, mint ℝ τ * |lc ν (List.ofFn τ)|) y := by
    intro ν hν
    simp only [W, dif_pos hν]
    exact Classical.choose_spec (hb ν hν)
  unfold integrateLagrangeUnit
  simp only [length_tab, decide_true, pyAssert_true, Py.bind_ok, generateAll_eq_mis]
  rw [mapM_zipIdx_mis n r _ (fun ν => ({t | ∃ w ∈ W ν, Rounded ε (a ν * w) t} : Set ℝ))]
  · simp only [Py.bind_ok, Py.pure_eq]
    have h3 := sumTerms_map hε (getDimension r n + 8) (mis n r)
      (fun ν => {t | ∃ w ∈ W ν, Rounded ε (a ν * w) t})
      (fun ν => a ν * ∑ τ ∈ S n r, mint ℝ τ * lc ν (List.ofFn τ)) (fun ν => |a ν| * ∑ τ ∈ S n r, mint ℝ τ * |lc ν (List.ofFn τ)|)
      (fun ν hν => by
        obtain ⟨w, hw⟩ := (hW ν hν).2.1
        exact ⟨_, w, hw, rounded_self hε⟩) (by
        rintro ν hν t ⟨w, hw, ht⟩
        exact (((near_self hε 0 (a ν)).mul hε ((hW ν hν).2.2 w hw)).round hε ht).mono hε (by omega))
    refine ⟨_, rfl, h3.1, fun y hy => ?_⟩
    have := h3.2 y hy
    rw [sum_mis, sum_mis] at this
    refine this.mono hε ?_
    rw [length_mis_eq]
    omega
  · intro e h1 h2 _
    have hm : e.1 ∈ mis n r := List.mem_of_getElem? h1
    rw [getE_tab a h1]
    simp only [Py.bind_ok]
    unfold integrateLagrangeBasisFnUnit
    rw [h2, (hW e.1 hm).1]
    rfl

/-- A sum in any order. -/
theorem AnySum.near (hε : 0 ≤ ε) {l : List ℝ} {s : ℝ} (h : AnySum ε l s) : l ≠ [] ∧ Near ε (l.length - 1) l.sum (l.map (fun t => |t|)).sum s := by
  induction h with
  | one t => exact ⟨by simp, by simpa using near_self hε 0 t⟩
  | @add k l m a b c hp _ _ hr ih1 ih2 =>
    have h1 := List.length_pos_iff.2 ih1.1
    have h2 := List.length_pos_iff.2 ih2.1
    refine ⟨fun h => by subst h; simp at hp; exact ih1.1 hp.1, ?_⟩
    have hs := hp.sum_eq
    have hs' := (hp.map (fun t => |t|)).sum_eq
    rw [List.sum_append] at hs
    rw [List.map_append, List.sum_append] at hs'
    rw [← hs, ← hs', ← hp.length_eq, List.length_append]
    have := ((ih1.2.mono hε (show _ ≤ l.length + m.length - 2 by omega)).add (ih2.2.mono hε (show _ ≤ l.length + m.length - 2 by omega))).round hε hr
    exact this.mono hε (by omega)

theorem exists_anySum (hε : 0 ≤ ε) (l : List ℝ) (h : l ≠ []) : AnySum ε l l.sum := by
  induction l with
  | nil => exact absurd rfl h
  | cons a l ih =>
    by_cases hl : l = []
    · subst hl
      simpa using AnySum.one (ε := ε) a
    · refine .add (l := [a]) (m := l) (by simp) (.one a) (ih hl) ?_
      rw [List.sum_cons]
      exact rounded_self hε

end Verif.FloatIntegration
