import Mathlib.Algebra.Order.Antidiag.Pi
import Mathlib.Algebra.Order.Antidiag.Nat
import Mathlib.Algebra.BigOperators.Group.Finset.Piecewise
import Verif.Lemmas.PolyRep
import Verif.Lemmas.PolyUnique
import Verif.Spec.LocalToGlobal
/-!
# Polynomials on the simplices of a mesh as sums over lattice points
-/

namespace Verif.PP
open Verif Verif.Poly Verif.Spec

variable {K V : Type} [Field K] [AddCommGroup V] [Module K V] {m r s : Nat} {T : List ℕ}

theorem latticePoint_map (hT : T.Nodup) {ν : List ℕ} (hl : T.length = ν.length + 1) : T.map (latticePoint r T ν) = (r - ν.sum) :: ν := by
  apply List.ext_getElem
  · simp [hl]
  · intro i h1 h2
    simp only [List.getElem_map, latticePoint]
    rw [hT.idxOf_getElem, List.getD_eq_getElem?_getD, List.getElem?_eq_getElem h2, Option.getD_some]

theorem latticePoint_off {ν : List ℕ} (hl : T.length = ν.length + 1) {v : ℕ} (hv : v ∉ T) : latticePoint r T ν v = 0 := by
  unfold latticePoint
  rw [List.idxOf_of_notMem hv, List.getD_eq_getElem?_getD, List.getElem?_eq_none (by simp [hl]), Option.getD_none]

theorem eq_of_map {α : Type} [Zero α] {f g : ℕ → α} (hf : ∀ v, v ∉ T → f v = 0) (hg : ∀ v, v ∉ T → g v = 0) (h : T.map f = T.map g) : f = g := by
  funext v
  by_cases hv : v ∈ T
  · exact List.map_inj_left.1 h v hv
  · rw [hf v hv, hg v hv]

theorem latticePoint_mem (hT : T.Nodup) (hl : T.length = m + 1) {ν : Fin m → ℕ} (hν : ν ∈ S m r) :
    latticePoint r T (List.ofFn ν) ∈ Finset.piAntidiag T.toFinset r := by
  rw [Finset.mem_piAntidiag]
  refine ⟨?_, fun v hv => ?_⟩
  · rw [List.sum_toFinset _ hT, latticePoint_map hT (by simp [hl])]
    have := mem_S.1 hν
    rw [List.sum_cons, List.sum_ofFn]
    omega
  · by_contra h
    exact hv (latticePoint_off (by simp [hl]) (by simpa using h))

theorem latticePoint_inj' (hT : T.Nodup) (hl : T.length = m + 1) {ν μ : Fin m → ℕ}
    (h : latticePoint r T (List.ofFn ν) = latticePoint r T (List.ofFn μ)) : ν = μ := by
  have h1 := latticePoint_map (r := r) hT (ν := List.ofFn ν) (by simp [hl])
  rw [h, latticePoint_map hT (by simp [hl])] at h1
  exact (List.ofFn_injective (List.cons.inj h1).2).symm

theorem latticePoint_surj (hT : T.Nodup) (hl : T.length = m + 1) {L : ℕ → ℕ} (hL : L ∈ Finset.piAntidiag T.toFinset r) :
    ∃ ν ∈ S m r, latticePoint r T (List.ofFn ν) = L := by
  rw [Finset.mem_piAntidiag] at hL
  obtain ⟨h1, h2⟩ := hL
  rw [List.sum_toFinset _ hT] at h1
  obtain ⟨a, t, rfl⟩ : ∃ a t, T = a :: t := by
    cases T with
    | nil => simp at hl
    | cons a t => exact ⟨a, t, rfl⟩
  have ht : t.length = m := by simpa using hl
  rw [List.map_cons, List.sum_cons] at h1
  obtain ⟨ν, hν⟩ := eq_ofFn (l := t.map L) (m := m) (by simp [ht])
  have hs : (List.ofFn ν).sum = (t.map L).sum := by rw [hν]
  refine ⟨ν, ?_, ?_⟩
  · rw [mem_S, ← List.sum_ofFn, hs]; omega
  · refine eq_of_map (T := a :: t) (fun v hv => latticePoint_off (by simp [ht]) hv) (fun v hv => ?_) ?_
    · by_contra h; exact hv (by simpa using h2 v h)
    · rw [latticePoint_map hT (by simp [ht]), List.map_cons, hs, ← hν]
      congr 1
      omega

/-- Sums over multi-indices are sums over lattice points. -/
theorem sum_lattice {W : Type} [AddCommMonoid W] (hT : T.Nodup) (hl : T.length = m + 1) (g : (ℕ → ℕ) → W) :
    ∑ ν ∈ S m r, g (latticePoint r T (List.ofFn ν)) = ∑ L ∈ Finset.piAntidiag T.toFinset r, g L := by
  refine Finset.sum_bij (fun ν _ => latticePoint r T (List.ofFn ν)) (fun ν hν => latticePoint_mem hT hl hν)
    (fun ν _ μ _ h => latticePoint_inj' hT hl h) (fun L hL => ?_) (fun _ _ => rfl)
  obtain ⟨ν, h1, h2⟩ := latticePoint_surj hT hl hL
  exact ⟨ν, h1, h2⟩

/-! ## The basis polynomials as products over the vertices -/

/-- The factor of a basis polynomial for one vertex. -/
def fac (b : Basis) (r k : ℕ) (t : K) : K :=
  match b with
  | .lagrange => fallingBinomial ((r : K) * t) k
  | _ => t ^ k / (k.factorial : K)

/-- The constant factor. -/
def facC (K : Type) [Field K] (b : Basis) (r : ℕ) : K :=
  match b with
  | .lagrange => 1
  | _ => (r.factorial : K)

theorem fac_zero (b : Basis) (t : K) : fac b r 0 t = 1 := by
  cases b <;> simp [fac, fallingBinomial]

theorem fac_pos (b : Basis) {k : ℕ} (hk : k ≠ 0) : fac b r k (0 : K) = 0 := by
  cases b with
  | lagrange =>
    simp only [fac, mul_zero]
    have := fallingBinomial_lt (K := K) 0 k (by omega)
    simpa using this
  | _ => simp [fac, hk]

theorem zipWith_map_prod (W : ℕ → K) (L : ℕ → ℕ) (f : ℕ → K → K) (T : List ℕ) :
    (List.zipWith (fun x k => f k x) (T.map W) (T.map L)).prod = (T.map (fun v => f (L v) (W v))).prod := by
  rw [List.zipWith_map, List.zipWith_self]

variable [CharZero K]

theorem multinomial_cast (r : ℕ) (ν : List ℕ) (h : ν.sum ≤ r) :
    (multinomial r ν : K) = (r.factorial : K) / (((r - ν.sum) :: ν).map (fun k => (k.factorial : K))).prod := by
  have h1 := multinomial_mul r ν h
  have h2 : (((ν.map Nat.factorial).prod * (r - ν.sum).factorial : ℕ) : K) ≠ 0 := by
    exact_mod_cast (factorials_pos r ν).ne'
  have h3 : (((r - ν.sum) :: ν).map (fun k => (k.factorial : K))).prod = (((ν.map Nat.factorial).prod * (r - ν.sum).factorial : ℕ) : K) := by
    rw [List.map_cons, List.prod_cons, Nat.cast_mul, Nat.cast_list_prod, List.map_map, mul_comm]
    rfl
  rw [h3, eq_div_iff h2, ← Nat.cast_mul, h1]

/-- The multinomial coefficient of a lattice point. -/
theorem multinomial_lattice (hT : T.Nodup) (hl : T.length = m + 1) {ν : Fin m → ℕ} (hν : ν ∈ S m r) :
    (multinomial r (List.ofFn ν) : K) = (r.factorial : K) / ∏ v ∈ T.toFinset, ((latticePoint r T (List.ofFn ν) v).factorial : K) := by
  rw [multinomial_cast _ _ (by rw [List.sum_ofFn]; exact mem_S.1 hν), ← latticePoint_map hT (by simp [hl]), List.map_map, List.prod_toFinset _ hT]
  rfl

/-- A basis polynomial in terms of the barycentric coordinates `W` of the point and of the lattice point. -/
theorem basisFn_lattice {b : Basis} (hb : b ≠ .monomial) (hT : T.Nodup) (hl : T.length = m + 1) {ν : Fin m → ℕ} (hν : ν ∈ S m r) {W : ℕ → K}
    {x : Fin m → K} (hW : T.map W = (1 - ∑ i, x i) :: List.ofFn x) :
    Poly.basisFn b r (List.ofFn x) (List.ofFn ν) =
      facC K b r * ∏ v ∈ T.toFinset, fac b r (latticePoint r T (List.ofFn ν) v) (W v) := by
  have hz := zipWith_map_prod W (latticePoint r T (List.ofFn ν)) (fun k t => fac b r k t) T
  rw [hW, latticePoint_map hT (by simp [hl])] at hz
  rw [List.prod_toFinset _ hT, ← hz]
  simp only [List.zipWith_cons_cons, List.prod_cons]
  cases b with
  | monomial => exact absurd rfl hb
  | lagrange =>
    simp only [Poly.basisFn, lagrange, facC, fac, one_mul, List.sum_ofFn]
  | bernstein =>
    simp only [Poly.basisFn, bernstein, facC, fac]
    rw [multinomial_cast _ _ (by rw [List.sum_ofFn]; exact mem_S.1 hν)]
    have : ∀ (l : List K) (k : List ℕ), (List.zipWith (fun x k => x ^ k / (k.factorial : K)) l k).prod * (k.map (fun k => (k.factorial : K))).prod =
        (List.zipWith (fun x k => x ^ k) l k).prod * ((k.drop l.length).map (fun k => (k.factorial : K))).prod := by
      intro l
      induction l with
      | nil => intro k; simp
      | cons a l ih =>
        intro k
        cases k with
        | nil => simp
        | cons k ks =>
          simp only [List.zipWith_cons_cons, List.prod_cons, List.map_cons, List.length_cons, List.drop_succ_cons]
          have h := ih ks
          have hk : (k.factorial : K) ≠ 0 := by exact_mod_cast Nat.factorial_ne_zero k
          calc _ = a ^ k / (k.factorial : K) * (k.factorial : K) * ((List.zipWith (fun x k => x ^ k / (k.factorial : K)) l ks).prod *
                (ks.map (fun k => (k.factorial : K))).prod) := by ring
            _ = _ := by rw [h, div_mul_cancel₀ _ hk]; ring
    have h2 := this (List.ofFn x) (List.ofFn ν)
    rw [show (List.ofFn ν).drop (List.ofFn x).length = [] by simp] at h2
    simp only [List.map_nil, List.prod_nil, mul_one] at h2
    have hne : ∀ l : List ℕ, (l.map (fun k => (k.factorial : K))).prod ≠ 0 := by
      intro l
      refine List.prod_ne_zero ?_
      simp only [List.mem_map, not_exists, not_and]
      intro k _ h
      exact Nat.factorial_ne_zero k (by exact_mod_cast h)
    have h3 : (List.zipWith (fun x k => x ^ k / (k.factorial : K)) (List.ofFn x) (List.ofFn ν)).prod =
        monomial (List.ofFn x) (List.ofFn ν) / ((List.ofFn ν).map (fun k => (k.factorial : K))).prod := by
      rw [eq_div_iff (hne _), h2]; rfl
    rw [h3, List.map_cons, List.prod_cons, List.sum_ofFn, List.sum_ofFn]
    have h4 : ((r - (List.ofFn ν).sum).factorial : K) ≠ 0 := by exact_mod_cast Nat.factorial_ne_zero _
    rw [List.sum_ofFn] at h4
    have h5 := hne (List.ofFn ν)
    field_simp

/-! ## Values on a face -/

/-- A polynomial at a point whose barycentric coordinates vanish outside `U`: only the lattice points in `U` contribute. -/
theorem val_face {b : Basis} (hb : b ≠ .monomial) (hT : T.Nodup) (hl : T.length = m + 1) (c : List ℕ → V) (cc : (ℕ → ℕ) → V)
    (hc : ∀ ν ∈ S m r, c (List.ofFn ν) = cc (latticePoint r T (List.ofFn ν))) {W : ℕ → K} {x : Fin m → K}
    (hW : T.map W = (1 - ∑ i, x i) :: List.ofFn x) (U : Finset ℕ) (hU : U ⊆ T.toFinset) (hU' : ∀ v ∈ T, v ∉ U → W v = 0) :
    val b m r c x = ∑ L ∈ Finset.piAntidiag U r, (facC K b r * ∏ v ∈ U, fac b r (L v) (W v)) • cc L := by
  unfold val
  have h1 : ∀ ν ∈ S m r, Poly.basisFn b r (List.ofFn x) (List.ofFn ν) • c (List.ofFn ν) =
      (fun L => (facC K b r * ∏ v ∈ T.toFinset, fac b r (L v) (W v)) • cc L) (latticePoint r T (List.ofFn ν)) := by
    intro ν hν
    rw [basisFn_lattice hb hT hl hν hW, hc ν hν]
  rw [Finset.sum_congr rfl h1, sum_lattice hT hl (fun L => (facC K b r * ∏ v ∈ T.toFinset, fac b r (L v) (W v)) • cc L)]
  symm
  classical
  refine Finset.sum_subset_zero_on_sdiff ?_ ?_ ?_
  · intro L hL
    rw [Finset.mem_piAntidiag] at hL ⊢
    refine ⟨?_, fun i hi => hU (hL.2 i hi)⟩
    rw [← hL.1]
    exact (Finset.sum_subset hU (fun v _ hv => by by_contra h; exact hv (hL.2 v h))).symm
  · intro L hL
    rw [Finset.mem_sdiff, Finset.mem_piAntidiag, Finset.mem_piAntidiag] at hL
    obtain ⟨⟨h2, h3⟩, h4⟩ := hL
    obtain ⟨v, hv, hvU⟩ : ∃ v, L v ≠ 0 ∧ v ∉ U := by
      by_contra hcon
      push Not at hcon
      refine h4 ⟨?_, hcon⟩
      rw [← h2]
      exact Finset.sum_subset hU (fun v _ hv => by by_contra h; exact hv (hcon v h))
    have hvT := h3 v hv
    rw [Finset.prod_eq_zero hvT, mul_zero, zero_smul]
    rw [hU' v (by simpa using hvT) hvU, fac_pos b hv]
  · intro L hL
    rw [Finset.mem_piAntidiag] at hL
    congr 2
    refine Finset.prod_subset hU (fun v _ hv => ?_)
    have : L v = 0 := by by_contra h; exact hv (hL.2 v h)
    rw [this, fac_zero]

/-- Two simplices with a common face: polynomials whose coefficients agree at common lattice points have the same values at points of the common
face. -/
theorem val_common {b : Basis} (hb : b ≠ .monomial) {T' : List ℕ} (hT : T.Nodup) (hl : T.length = m + 1) (hT' : T'.Nodup) (hl' : T'.length = m + 1)
    (c c' : List ℕ → V) (cc : (ℕ → ℕ) → V)
    (hc : ∀ ν ∈ S m r, c (List.ofFn ν) = cc (latticePoint r T (List.ofFn ν)))
    (hc' : ∀ ν ∈ S m r, c' (List.ofFn ν) = cc (latticePoint r T' (List.ofFn ν))) {W : ℕ → K} {x x' : Fin m → K}
    (hW : T.map W = (1 - ∑ i, x i) :: List.ofFn x) (hW' : T'.map W = (1 - ∑ i, x' i) :: List.ofFn x')
    (h1 : ∀ v ∈ T, v ∉ T' → W v = 0) (h2 : ∀ v ∈ T', v ∉ T → W v = 0) : val b m r c x = val b m r c' x' := by
  rw [val_face hb hT hl c cc hc hW (T.toFinset ∩ T'.toFinset) Finset.inter_subset_left (fun v hv hv' => h1 v hv (by simpa [hv] using hv')),
    val_face hb hT' hl' c' cc hc' hW' (T.toFinset ∩ T'.toFinset) Finset.inter_subset_right (fun v hv hv' => h2 v hv (by simpa [hv] using hv'))]

/-! ## Coefficients of products at lattice points of a face -/

open Classical in
/-- The coefficient of a product of Bernstein polynomials as a sum over lattice points in a set that contains the lattice point. -/
theorem conv_face (hT : T.Nodup) (hl : T.length = m + 1) (H : List ℕ → List ℕ → V) (HH : (ℕ → ℕ) → (ℕ → ℕ) → V)
    (hH : ∀ ν ∈ S m r, ∀ μ ∈ S m s, H (List.ofFn ν) (List.ofFn μ) = HH (latticePoint r T (List.ofFn ν)) (latticePoint s T (List.ofFn μ)))
    {t : Fin m → ℕ} (ht : t ∈ S m (r + s)) (U : Finset ℕ) (hU : U ⊆ T.toFinset) (hU' : ∀ v, v ∉ U → latticePoint (r + s) T (List.ofFn t) v = 0) :
    convCoeff m r s (fun ν μ => ((multinomial r ν : K) * (multinomial s μ : K) / (multinomial (r + s) (List.ofFn t) : K)) • H ν μ) (List.ofFn t) =
      ∑ A ∈ Finset.piAntidiag U r, ∑ B ∈ Finset.piAntidiag U s, if A + B = latticePoint (r + s) T (List.ofFn t) then
        (((r.factorial : K) / ∏ v ∈ U, ((A v).factorial : K)) * ((s.factorial : K) / ∏ v ∈ U, ((B v).factorial : K)) /
          (((r + s).factorial : K) / ∏ v ∈ U, ((latticePoint (r + s) T (List.ofFn t) v).factorial : K))) • HH A B else 0 := by
  set C := latticePoint (r + s) T (List.ofFn t) with hC
  have hlat : ∀ ν ∈ S m r, ∀ μ ∈ S m s, (List.ofFn (ν + μ) = List.ofFn t ↔ latticePoint r T (List.ofFn ν) + latticePoint s T (List.ofFn μ) = C) := by
    intro ν hν μ hμ
    have hn := mem_S.1 hν
    have hm := mem_S.1 hμ
    have e : latticePoint r T (List.ofFn ν) + latticePoint s T (List.ofFn μ) = latticePoint (r + s) T (List.ofFn (ν + μ)) := by
      refine eq_of_map (T := T) (fun v hv => ?_) (fun v hv => latticePoint_off (by simp [hl]) hv) ?_
      · rw [Pi.add_apply, latticePoint_off (by simp [hl]) hv, latticePoint_off (by simp [hl]) hv, add_zero]
      · rw [latticePoint_map hT (by simp [hl])]
        have e1 := latticePoint_map (r := r) hT (ν := List.ofFn ν) (by simp [hl])
        have e2 := latticePoint_map (r := s) hT (ν := List.ofFn μ) (by simp [hl])
        have e3 : T.map (latticePoint r T (List.ofFn ν) + latticePoint s T (List.ofFn μ)) =
            List.zipWith (· + ·) (T.map (latticePoint r T (List.ofFn ν))) (T.map (latticePoint s T (List.ofFn μ))) := by
          rw [List.zipWith_map, List.zipWith_self]; rfl
        rw [e3, e1, e2, List.zipWith_cons_cons]
        rw [zipWith_add_ofFn]
        congr 1
        simp only [List.sum_ofFn, Pi.add_apply, Finset.sum_add_distrib]
        omega
    rw [e, hC]
    constructor
    · intro h; rw [h]
    · intro h; rw [latticePoint_inj' hT hl h]
  have h1 : convCoeff m r s (fun ν μ => ((multinomial r ν : K) * (multinomial s μ : K) / (multinomial (r + s) (List.ofFn t) : K)) • H ν μ) (List.ofFn t) =
      ∑ A ∈ Finset.piAntidiag T.toFinset r, ∑ B ∈ Finset.piAntidiag T.toFinset s, if A + B = C then
        (((r.factorial : K) / ∏ v ∈ T.toFinset, ((A v).factorial : K)) * ((s.factorial : K) / ∏ v ∈ T.toFinset, ((B v).factorial : K)) /
          (((r + s).factorial : K) / ∏ v ∈ T.toFinset, ((C v).factorial : K))) • HH A B else 0 := by
    unfold convCoeff
    rw [← sum_lattice hT hl]
    refine Finset.sum_congr rfl (fun ν hν => ?_)
    rw [← sum_lattice hT hl]
    refine Finset.sum_congr rfl (fun μ hμ => ?_)
    simp only []
    rw [multinomial_lattice hT hl hν, multinomial_lattice hT hl hμ, multinomial_lattice hT hl ht, hH ν hν μ hμ]
    by_cases h : List.ofFn (ν + μ) = List.ofFn t
    · rw [if_pos h, if_pos ((hlat ν hν μ hμ).1 h)]
    · rw [if_neg h, if_neg (fun h' => h ((hlat ν hν μ hμ).2 h'))]
  rw [h1]
  have hsub : ∀ n : ℕ, Finset.piAntidiag U n ⊆ Finset.piAntidiag T.toFinset n := by
    intro n L hL
    rw [Finset.mem_piAntidiag] at hL ⊢
    refine ⟨?_, fun i hi => hU (hL.2 i hi)⟩
    rw [← hL.1]
    exact (Finset.sum_subset hU (fun v _ hv => by by_contra h; exact hv (hL.2 v h))).symm
  have hin : ∀ (n : ℕ) (L : ℕ → ℕ), L ∈ Finset.piAntidiag T.toFinset n → (∀ v, L v ≤ C v) → L ∈ Finset.piAntidiag U n := by
    intro n L hL hle
    rw [Finset.mem_piAntidiag] at hL ⊢
    have h0 : ∀ v, v ∉ U → L v = 0 := fun v hv => by have := hle v; rw [hU' v hv] at this; omega
    refine ⟨?_, fun v hv => by by_contra h; exact hv (h0 v h)⟩
    rw [← hL.1]
    exact Finset.sum_subset hU (fun v _ hv => h0 v hv)
  have hprod : ∀ L : ℕ → ℕ, (∀ v, v ∉ U → L v = 0) → ∏ v ∈ T.toFinset, ((L v).factorial : K) = ∏ v ∈ U, ((L v).factorial : K) := by
    intro L h0
    exact (Finset.prod_subset hU (fun v _ hv => by rw [h0 v hv]; simp)).symm
  symm
  refine Finset.sum_subset_zero_on_sdiff (hsub r) (fun A hA => ?_) (fun A hA => ?_)
  · rw [Finset.mem_sdiff] at hA
    refine Finset.sum_eq_zero (fun B hB => if_neg (fun h => hA.2 (hin r A hA.1 (fun v => ?_))))
    rw [← h]; simp
  · have hA0 : ∀ v, v ∉ U → A v = 0 := fun v hv => by by_contra h; exact hv ((Finset.mem_piAntidiag.1 hA).2 v h)
    refine Finset.sum_subset_zero_on_sdiff (hsub s) (fun B hB => ?_) (fun B hB => ?_)
    · rw [Finset.mem_sdiff] at hB
      refine if_neg (fun h => hB.2 (hin s B hB.1 (fun v => ?_)))
      rw [← h]; simp
    · have hB0 : ∀ v, v ∉ U → B v = 0 := fun v hv => by by_contra h; exact hv ((Finset.mem_piAntidiag.1 hB).2 v h)
      by_cases h : A + B = C
      · rw [if_pos h, if_pos h, hprod A hA0, hprod B hB0, hprod C hU']
      · rw [if_neg h, if_neg h]

/-- The Bernstein coefficients of products agree at common lattice points of two simplices if those of the factors do. -/
theorem conv_common {T' : List ℕ} (hT : T.Nodup) (hl : T.length = m + 1) (hT' : T'.Nodup) (hl' : T'.length = m + 1)
    (H H' : List ℕ → List ℕ → V) (HH : (ℕ → ℕ) → (ℕ → ℕ) → V)
    (hH : ∀ ν ∈ S m r, ∀ μ ∈ S m s, H (List.ofFn ν) (List.ofFn μ) = HH (latticePoint r T (List.ofFn ν)) (latticePoint s T (List.ofFn μ)))
    (hH' : ∀ ν ∈ S m r, ∀ μ ∈ S m s, H' (List.ofFn ν) (List.ofFn μ) = HH (latticePoint r T' (List.ofFn ν)) (latticePoint s T' (List.ofFn μ)))
    {t t' : Fin m → ℕ} (ht : t ∈ S m (r + s)) (ht' : t' ∈ S m (r + s))
    (he : latticePoint (r + s) T (List.ofFn t) = latticePoint (r + s) T' (List.ofFn t')) :
    convCoeff m r s (fun ν μ => ((multinomial r ν : K) * (multinomial s μ : K) / (multinomial (r + s) (List.ofFn t) : K)) • H ν μ) (List.ofFn t) =
    convCoeff m r s (fun ν μ => ((multinomial r ν : K) * (multinomial s μ : K) / (multinomial (r + s) (List.ofFn t') : K)) • H' ν μ) (List.ofFn t') := by
  rw [conv_face hT hl H HH hH ht (T.toFinset ∩ T'.toFinset) Finset.inter_subset_left,
    conv_face hT' hl' H' HH hH' ht' (T.toFinset ∩ T'.toFinset) Finset.inter_subset_right, he]
  · intro v hv
    rw [Finset.mem_inter, List.mem_toFinset, List.mem_toFinset] at hv
    by_cases h : v ∈ T'
    · rw [← he]; exact latticePoint_off (by simp [hl]) (fun h' => hv ⟨h', h⟩)
    · exact latticePoint_off (by simp [hl']) h
  · intro v hv
    rw [Finset.mem_inter, List.mem_toFinset, List.mem_toFinset] at hv
    by_cases h : v ∈ T'
    · exact latticePoint_off (by simp [hl]) (fun h' => hv ⟨h', h⟩)
    · rw [he]; exact latticePoint_off (by simp [hl']) h

/-- The barycentric coordinates of a lattice point. -/
theorem lpt_bary (hT : T.Nodup) (hl : T.length = m + 1) {t : Fin m → ℕ} (ht : t ∈ S m s) (hs : s ≠ 0) :
    T.map (fun v => (latticePoint s T (List.ofFn t) v : K) / (s : K)) = (1 - ∑ i, lpt K s t i) :: List.ofFn (lpt K s t) := by
  have h := congrArg (List.map (fun k : ℕ => (k : K) / (s : K))) (latticePoint_map (r := s) hT (ν := List.ofFn t) (by simp [hl]))
  rw [List.map_map] at h
  rw [show (fun v => (latticePoint s T (List.ofFn t) v : K) / (s : K)) = (fun k : ℕ => (k : K) / (s : K)) ∘ latticePoint s T (List.ofFn t) from rfl, h]
  have hs' : (s : K) ≠ 0 := by exact_mod_cast hs
  rw [List.map_cons, List.map_ofFn]
  congr 1
  simp only [lpt, List.sum_ofFn]
  rw [Nat.cast_sub (mem_S.1 ht), ← Finset.sum_div, Nat.cast_sum, sub_div, div_self hs']

end Verif.PP

namespace Verif.PP
open Verif Verif.Poly Verif.Spec

variable {K V : Type} [Field K] [DecidableEq K] [CharZero K] [AddCommGroup V] [Module K V] {m r s : Nat} {T T' : List ℕ}

omit [DecidableEq K] in
theorem val_inj {b : Basis} {c d : List ℕ → V} (h : ∀ x : Fin m → K, val b m r c x = val b m r d x) {ν : List ℕ} (hl : ν.length = m)
    (hs : ν.sum ≤ r) : c ν = d ν := by
  have h1 := tab_unique (K := K) b m r c d h
  exact List.map_inj_left.1 h1 ν (MI.mem_mis.2 ⟨hl, hs⟩)

omit [DecidableEq K] in
theorem val_lpt (c : List ℕ → V) {t : Fin m → ℕ} (ht : t ∈ S m r) : val .lagrange m r c (lpt K r t) = c (List.ofFn t) := by
  have h1 := val_lagrange_values (K := K) (val_isPoly (K := K) .lagrange m r c) (fun ν => val .lagrange m r c (fun i => ((ν.getD i 0 : ℕ) : K) / (r : K)))
    (fun μ _ => by congr 1; funext i; simp [lpt])
  have h2 := val_inj (K := K) (b := .lagrange) h1 (ν := List.ofFn t) (by simp) (by rw [List.sum_ofFn]; exact mem_S.1 ht)
  rw [← h2]
  congr 1
  funext i
  simp [lpt]

/-- The coefficients of products of polynomials with common coefficients at common lattice points are the same at common lattice points. -/
theorem mul_common {b b' : Basis} (hb : b ≠ .monomial) (hb' : b' ≠ .monomial) (hbb : b = .lagrange ∨ b = b') (hT : T.Nodup) (hl : T.length = m + 1)
    (hT' : T'.Nodup) (hl' : T'.length = m + 1) {c c' d d' e e' : List ℕ → K} {cc dd : (ℕ → ℕ) → K}
    (hc : ∀ ν ∈ S m r, c (List.ofFn ν) = cc (latticePoint r T (List.ofFn ν)))
    (hc' : ∀ ν ∈ S m r, c' (List.ofFn ν) = cc (latticePoint r T' (List.ofFn ν)))
    (hd : ∀ ν ∈ S m s, d (List.ofFn ν) = dd (latticePoint s T (List.ofFn ν)))
    (hd' : ∀ ν ∈ S m s, d' (List.ofFn ν) = dd (latticePoint s T' (List.ofFn ν)))
    (he : ∀ x : Fin m → K, val b m (r + s) e x = val b m r c x * val b' m s d x)
    (he' : ∀ x : Fin m → K, val b m (r + s) e' x = val b m r c' x * val b' m s d' x)
    (hrs : r + s ≠ 0) {t t' : Fin m → ℕ} (ht : t ∈ S m (r + s)) (ht' : t' ∈ S m (r + s))
    (hp : latticePoint (r + s) T (List.ofFn t) = latticePoint (r + s) T' (List.ofFn t')) : e (List.ofFn t) = e' (List.ofFn t') := by
  cases b with
  | monomial => exact absurd rfl hb
  | bernstein =>
    obtain rfl : b' = .bernstein := (hbb.resolve_left (by simp)).symm
    have h1 := val_inj (K := K) (fun x => (he x).trans (mul_bernstein_val m r s c d x).symm) (ν := List.ofFn t) (by simp)
      (by rw [List.sum_ofFn]; exact mem_S.1 ht)
    have h2 := val_inj (K := K) (fun x => (he' x).trans (mul_bernstein_val m r s c' d' x).symm) (ν := List.ofFn t') (by simp)
      (by rw [List.sum_ofFn]; exact mem_S.1 ht')
    rw [h1, h2]
    have h3 := conv_common (K := K) (r := r) (s := s) hT hl hT' hl' (fun ν μ => c ν * d μ) (fun ν μ => c' ν * d' μ) (fun A B => cc A * dd B)
      (fun ν hν μ hμ => by rw [hc ν hν, hd μ hμ]) (fun ν hν μ hμ => by rw [hc' ν hν, hd' μ hμ]) ht ht' hp
    simp only [smul_eq_mul, ← mul_assoc] at h3
    exact h3
  | lagrange =>
    have h1 := he (lpt K (r + s) t)
    have h2 := he' (lpt K (r + s) t')
    rw [val_lpt _ ht] at h1
    rw [val_lpt _ ht'] at h2
    rw [h1, h2]
    have hW := lpt_bary (K := K) hT hl ht hrs
    have hW' := lpt_bary (K := K) hT' hl' ht' hrs
    rw [← hp] at hW'
    have a1 : ∀ v ∈ T, v ∉ T' → (latticePoint (r + s) T (List.ofFn t) v : K) / ((r + s : ℕ) : K) = 0 := by
      intro v _ hv
      rw [hp, latticePoint_off (by simp [hl']) hv]; simp
    have a2 : ∀ v ∈ T', v ∉ T → (latticePoint (r + s) T (List.ofFn t) v : K) / ((r + s : ℕ) : K) = 0 := by
      intro v _ hv
      rw [latticePoint_off (by simp [hl]) hv]; simp
    rw [val_common (by simp) hT hl hT' hl' c c' cc hc hc' hW hW' a1 a2, val_common hb' hT hl hT' hl' d d' dd hd hd' hW hW' a1 a2]

/-- The same for degree elevation. -/
theorem elevate_common {b : Basis} (hb : b ≠ .monomial) (hT : T.Nodup) (hl : T.length = m + 1)
    (hT' : T'.Nodup) (hl' : T'.length = m + 1) {c c' e e' : List ℕ → V} {cc : (ℕ → ℕ) → V}
    (hc : ∀ ν ∈ S m r, c (List.ofFn ν) = cc (latticePoint r T (List.ofFn ν)))
    (hc' : ∀ ν ∈ S m r, c' (List.ofFn ν) = cc (latticePoint r T' (List.ofFn ν)))
    (he : ∀ x : Fin m → K, val b m s e x = val b m r c x) (he' : ∀ x : Fin m → K, val b m s e' x = val b m r c' x)
    (hrs : r ≤ s) (hs : s ≠ 0) {t t' : Fin m → ℕ} (ht : t ∈ S m s) (ht' : t' ∈ S m s)
    (hp : latticePoint s T (List.ofFn t) = latticePoint s T' (List.ofFn t')) : e (List.ofFn t) = e' (List.ofFn t') := by
  cases b with
  | monomial => exact absurd rfl hb
  | bernstein =>
    have h1 := val_inj (K := K) (fun x => (he x).trans (elevate_bernstein_val m r s hrs c x).symm) (ν := List.ofFn t) (by simp)
      (by rw [List.sum_ofFn]; exact mem_S.1 ht)
    have h2 := val_inj (K := K) (fun x => (he' x).trans (elevate_bernstein_val m r s hrs c' x).symm) (ν := List.ofFn t') (by simp)
      (by rw [List.sum_ofFn]; exact mem_S.1 ht')
    rw [h1, h2]
    obtain ⟨d, rfl⟩ := Nat.exists_eq_add_of_le hrs
    rw [Nat.add_sub_cancel_left]
    have h3 := conv_common (K := K) (r := r) (s := d) hT hl hT' hl' (fun ν _ => c ν) (fun ν _ => c' ν) (fun A _ => cc A)
      (fun ν hν μ hμ => hc ν hν) (fun ν hν μ hμ => hc' ν hν) ht ht' hp
    simp only [mul_one_div]
    exact h3
  | lagrange =>
    have h1 := he (lpt K s t)
    have h2 := he' (lpt K s t')
    rw [val_lpt _ ht] at h1
    rw [val_lpt _ ht'] at h2
    rw [h1, h2]
    have hW := lpt_bary (K := K) hT hl ht hs
    have hW' := lpt_bary (K := K) hT' hl' ht' hs
    rw [← hp] at hW'
    refine val_common (by simp) hT hl hT' hl' c c' cc hc hc' hW hW' ?_ ?_
    · intro v _ hv
      rw [hp, latticePoint_off (by simp [hl']) hv]; simp
    · intro v _ hv
      rw [latticePoint_off (by simp [hl]) hv]; simp

end Verif.PP
