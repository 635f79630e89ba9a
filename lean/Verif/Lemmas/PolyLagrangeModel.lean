import Verif.Lemmas.PolyLagrange
import Mathlib.Algebra.BigOperators.Field
import Verif.Lemmas.LagrangeCacheCheck
/-!
# The Lagrange part of the model in terms of interpolation
-/

namespace Verif.Poly
open Verif Verif.MI Verif.Spec

variable {K V : Type} [Field K] [AddCommGroup V] [Module K V]

theorem lagrangePoint_eq (K : Type) [Field K] (m r : Nat) (ν : List Nat) (hl : ν.length = m) (hs : ν.sum ≤ r) :
    generateLagrangePoint K m r ν = ν.map (fun (k : Nat) => (k : K) / (r : K)) := by
  unfold generateLagrangePoint
  by_cases h : r = 0
  · rw [if_pos h]
    subst h
    apply List.ext_getElem
    · simp [hl]
    · intro i h1 h2; simp
  · rw [if_neg h]

theorem lagrangePoint_ofFn (K : Type) [Field K] (m r : Nat) (ν : Fin m → ℕ) (hs : ν ∈ S m r) :
    generateLagrangePoint K m r (List.ofFn ν) = List.ofFn (lpt K r ν) := by
  rw [lagrangePoint_eq K m r _ (by simp) (by rw [List.sum_ofFn]; exact mem_S.1 hs), map_lpt]

theorem lagrangePoints_eq (K : Type) [Field K] (m r : Nat) :
    generateLagrangePoints K m r = (mis m r).map (fun ν => ν.map (fun (k : Nat) => (k : K) / (r : K))) := by
  unfold generateLagrangePoints
  by_cases h1 : m = 1
  · rw [if_pos h1, h1, mis_one, List.map_map]; rfl
  · rw [if_neg h1]
    by_cases h : r = 0
    · rw [if_pos h]
      subst h
      rw [mis_zero_right, getDimension]
      simp [MI.zero]
    · rw [if_neg h, generateAll_eq_mis]
      refine List.map_congr_left (fun ν hν => ?_)
      exact lagrangePoint_eq K m r ν (mem_mis.1 hν).1 (mem_mis.1 hν).2

theorem length_lagrangePoints (K : Type) [Field K] (m r : Nat) : (generateLagrangePoints K m r).length = (mis m r).length := by
  rw [lagrangePoints_eq]; simp

theorem mis_one_getD {m r i : Nat} (h1 : m = 1) (hi : i < (mis m r).length) : (mis m r).getD i [] = [i] := by
  subst h1
  have h2 := getD_mis hi
  rw [mis_one] at h2 hi
  have hi' : i < r + 1 := by simpa using hi
  rw [List.getElem?_map, List.getElem?_range hi'] at h2
  rw [mis_one]
  exact (Option.some.inj h2).symm

theorem lagrangeSystem_eq (K : Type) [Field K] (r m : Nat) : lagrangeSystem K r m = vdm K m r _ := by
  ext ⟨i, hi⟩ ⟨j, hj⟩
  have hpt : (generateLagrangePoints K m r).getD i [] =
      ((mis m r).getD i []).map (fun (k : Nat) => (k : K) / (r : K)) := by
    have hi' := hi
    rw [length_lagrangePoints] at hi'
    rw [lagrangePoints_eq, List.getD_eq_getElem?_getD, List.getElem?_map, getD_mis hi']; rfl
  simp only [lagrangeSystem, vdm, Matrix.of_apply, hpt]
  rw [length_lagrangePoints] at hi hj
  have mi := mem_mis.1 (List.mem_of_getElem? (getD_mis hi))
  have mj := mem_mis.1 (List.mem_of_getElem? (getD_mis hj))
  by_cases h1 : m = 1
  · rw [if_pos h1, mis_one_getD h1 hi, mis_one_getD h1 hj]
    simp [monomial]
  · rw [if_neg h1, generateAll_eq_mis, power_eq _ _ (by rw [List.length_map, mi.1, mj.1])]
    rfl

variable [DecidableEq K] [CharZero K]

theorem generateLagrangeBaseCoefficients_eq (r m : Nat) :
    generateLagrangeBaseCoefficients K r m = .ok (tab m r (fun μ => tab m r (fun ν => lagCoeff K m r ν μ))) := by
  unfold generateLagrangeBaseCoefficients
  have hN := length_lagrangePoints K m r
  have hmul := vdm_mul_lagMat (K := K) m r _ hN
  rw [← lagrangeSystem_eq] at hmul
  have hdet : (lagrangeSystem K r m).det ≠ 0 := by
    intro h0
    have := congrArg Matrix.det hmul
    rw [Matrix.det_mul, h0, zero_mul, Matrix.det_one] at this
    exact zero_ne_one this
  rw [if_pos hdet, Matrix.inv_eq_right_inv hmul]
  congr 1
  apply List.ext_getElem
  · simp [tab, hN]
  · intro i h1 h2
    have hi : i < (mis m r).length := by simpa [tab] using h2
    apply List.ext_getElem
    · simp [tab, hN]
    · intro j h3 h4
      have hj : j < (mis m r).length := by simpa [tab] using h4
      simp [tab, lagMat, hi, hj, List.getD_eq_getElem?_getD]

omit [DecidableEq K] [CharZero K] in
theorem column_tab {W : Type} (m r : Nat) (f : List Nat → List Nat → W) (k : Nat) (ν : List Nat) (h : (mis m r)[k]? = some ν) :
    column (tab m r (fun μ => tab m r (fun ν => f ν μ))) k = .ok (tab m r (f ν)) := by
  unfold column
  rw [mapM_eq_ok (fun row => row.getD k (f ν ν))]
  · congr 1
    simp only [tab, List.map_map]
    refine List.map_congr_left (fun μ _ => ?_)
    simp [List.getD_eq_getElem?_getD, List.getElem?_map, h]
  · intro row hrow
    obtain ⟨μ, _, rfl⟩ := List.mem_map.1 hrow
    rw [getE_tab _ h]
    simp [tab, List.getD_eq_getElem?_getD, List.getElem?_map, h]

/-! ## The cache -/

omit [DecidableEq K] [CharZero K] in
theorem lagrangeDict_checked {r n : Nat} {d : LagrangeDict} (h : lagrangeDict? r n = some d) :
    1 ≤ n ∧ 1 ≤ r ∧ checkDict n r d = true := by
  unfold lagrangeDict? at h
  by_cases hc : 1 ≤ n ∧ 1 ≤ r
  · rw [if_pos hc] at h
    refine ⟨hc.1, hc.2, ?_⟩
    rcases hrow : lagrangeCache[n - 1]? with _ | row
    · rw [hrow] at h; simp at h
    · rw [hrow] at h
      simp only at h
      have h1 := List.all_eq_true.1 cache_checked (row, n - 1) (List.mem_zipIdx_iff_getElem?.2 hrow)
      have h2 := List.all_eq_true.1 h1 (d, r - 1) (List.mem_zipIdx_iff_getElem?.2 h)
      simp only [Nat.sub_add_cancel hc.1, Nat.sub_add_cancel hc.2] at h2
      exact h2
  · rw [if_neg hc] at h; simp at h

omit [DecidableEq K] [CharZero K] in
theorem natMono_eq (μ ρ : List Nat) : ((natMono μ ρ : ℕ) : K) = (List.zipWith (fun (a : Nat) k => (a : K) ^ k) μ ρ).prod := by
  induction μ generalizing ρ with
  | nil => cases ρ <;> simp [natMono]
  | cons a μ ih => cases ρ <;> simp [natMono, ih]

omit [DecidableEq K] in
theorem weight_eq {m r : Nat} (hr : 1 ≤ r) (μ ρ : Fin m → ℕ) (hρ : ρ ∈ S m r) :
    ((natMono (List.ofFn μ) (List.ofFn ρ) * r ^ (r - (List.ofFn ρ).sum) : ℕ) : K) =
      (r : K) ^ r * ∏ i, lpt K r μ i ^ ρ i := by
  have hrK : (r : K) ≠ 0 := by exact_mod_cast (by omega : r ≠ 0)
  rw [Nat.cast_mul, natMono_eq, Nat.cast_pow, List.sum_ofFn]
  have h1 : (List.zipWith (fun (a : Nat) k => (a : K) ^ k) (List.ofFn μ) (List.ofFn ρ)).prod = ∏ i, (μ i : K) ^ ρ i := by
    rw [← List.prod_ofFn]; congr 1; apply List.ext_getElem <;> simp
  rw [h1]
  have h2 : ∏ i, lpt K r μ i ^ ρ i = (∏ i, (μ i : K) ^ ρ i) / (r : K) ^ (∑ i, ρ i) := by
    unfold lpt
    simp only [div_pow]
    rw [Finset.prod_div_distrib, Finset.prod_pow_eq_pow_sum]
  have h3 : (r : K) ^ r = (r : K) ^ (r - ∑ i, ρ i) * (r : K) ^ (∑ i, ρ i) := by
    rw [← pow_add, Nat.sub_add_cancel (mem_S.1 hρ)]
  rw [h2, h3]
  have : (r : K) ^ (∑ i, ρ i) ≠ 0 := pow_ne_zero _ hrK
  field_simp

omit [DecidableEq K] [CharZero K] in
theorem intDot_eq : ∀ (zs : List Int) (ws : List Nat), ((intDot zs ws : ℤ) : K) =
    (List.zipWith (fun (z : Int) (w : Nat) => (z : K) * (w : K)) zs ws).sum := by
  intro zs
  induction zs with
  | nil => intro ws; cases ws <;> simp [intDot]
  | cons z zs ih => intro ws; cases ws <;> simp [intDot, ih]

omit [DecidableEq K] in
/-- A checked dictionary holds the monomial coefficients of the Lagrange basis polynomials. -/
theorem checkDict_values {n r : Nat} {d : LagrangeDict} (hr : 1 ≤ r) (h : checkDict n r d = true) :
    d.2.map Prod.fst = mis n r ∧ ∀ e ∈ d.2, dictValues K d.1 e.2 = tab n r (lagCoeff K n r e.1) := by
  unfold checkDict at h
  simp only [Bool.and_eq_true, decide_eq_true_eq, List.all_eq_true, beq_iff_eq] at h
  obtain ⟨⟨⟨hden, hkeys⟩, hlen⟩, hall⟩ := h
  refine ⟨hkeys, fun e he => ?_⟩
  have hmem : e.1 ∈ mis n r := hkeys ▸ List.mem_map_of_mem he
  have hdenK : (d.1 : K) ≠ 0 := by exact_mod_cast hden.ne'
  have hrK : (r : K) ≠ 0 := by exact_mod_cast (by omega : r ≠ 0)
  obtain ⟨g, hg⟩ := exists_tab (W := Int) n r e.2 (by rw [hlen e he, length_mis_eq])
  obtain ⟨ε, hε⟩ := eq_ofFn (mem_mis.1 hmem).1
  have hεS : ε ∈ S n r := by rw [mem_S, ← List.sum_ofFn, ← hε]; exact (mem_mis.1 hmem).2
  -- values at the lattice points
  have hval : ∀ μ ∈ S n r, ∑ ν ∈ S n r, (∏ i, lpt K r μ i ^ ν i) • ((g (List.ofFn ν) : K) / (d.1 : K)) =
      if ε = μ then 1 else 0 := by
    intro μ hμ
    have h1 := hall (List.ofFn μ) (mem_mis.2 ⟨by simp, by rw [List.sum_ofFn]; exact mem_S.1 hμ⟩) e he
    have h2 : ((intDot e.2 (weights n r (List.ofFn μ)) : ℤ) : K) = _ := congrArg (fun z : Int => (z : K)) h1
    rw [intDot_eq, hg] at h2
    unfold weights tab at h2
    rw [List.zipWith_map, List.zipWith_self, sum_mis, hε] at h2
    have h3 : ∑ ν ∈ S n r, (g (List.ofFn ν) : K) * ((r : K) ^ r * ∏ i, lpt K r μ i ^ ν i) =
        if ε = μ then (d.1 : K) * (r : K) ^ r else 0 := by
      rw [← Finset.sum_congr rfl (fun ν hν => by rw [← weight_eq hr μ ν hν])]
      refine h2.trans ?_
      by_cases hc : ε = μ
      · subst hc; simp
      · rw [if_neg hc, if_neg (fun hh => hc (List.ofFn_injective hh))]; simp
    have h4 : ∑ ν ∈ S n r, (∏ i, lpt K r μ i ^ ν i) • ((g (List.ofFn ν) : K) / (d.1 : K)) =
        (∑ ν ∈ S n r, (g (List.ofFn ν) : K) * ((r : K) ^ r * ∏ i, lpt K r μ i ^ ν i)) / ((d.1 : K) * (r : K) ^ r) := by
      rw [Finset.sum_div]
      refine Finset.sum_congr rfl (fun ν _ => ?_)
      rw [smul_eq_mul]
      have : (r : K) ^ r ≠ 0 := pow_ne_zero _ hrK
      field_simp
    rw [h4, h3]
    by_cases hc : ε = μ
    · rw [if_pos hc, if_pos hc, div_self (mul_ne_zero hdenK (pow_ne_zero _ hrK))]
    · rw [if_neg hc, if_neg hc, zero_div]
  have hvals : dictValues K d.1 e.2 = tab n r (fun ν => (g ν : K) / (d.1 : K)) := by
    rw [hg]; simp [dictValues, tab]
  rw [hvals]
  apply tab_congr
  intro τ hτ hs
  rw [coeff_of_values (K := K) n r (fun ν => (g ν : K) / (d.1 : K)) τ hτ hs]
  rw [Finset.sum_congr rfl (fun μ hμ => by rw [hval μ hμ])]
  rw [Finset.sum_eq_single ε]
  · rw [if_pos rfl, hε]; simp
  · intro μ _ hne; rw [if_neg (Ne.symm hne), smul_zero]
  · intro hc; exact absurd hεS hc

omit [DecidableEq K] [CharZero K] in
theorem lookup_of_mem {β : Type} (l : List (List Nat × β)) (hn : (l.map Prod.fst).Nodup) (e : List Nat × β) (he : e ∈ l) :
    l.lookup e.1 = some e.2 := by
  induction l with
  | nil => simp at he
  | cons a l ih =>
    obtain ⟨k, v⟩ := a
    simp only [List.map_cons, List.nodup_cons] at hn
    rw [List.lookup_cons]
    by_cases h : e.1 = k
    · rcases List.mem_cons.1 he with rfl | h'
      · simp
      · exact absurd (List.mem_map_of_mem (f := Prod.fst) h') (h ▸ hn.1)
    · rcases List.mem_cons.1 he with rfl | h'
      · exact absurd rfl h
      · rw [show (e.1 == k) = false by simpa using h]; exact ih hn.2 h'

/-- The coefficients of one basis function, from the cache or generated. -/
theorem getLagrangeBasisFnCoefficients_eq (ν : List Nat) (r : Nat) (hs : ν.sum ≤ r) :
    getLagrangeBasisFnCoefficients K ν r = .ok (tab ν.length r (lagCoeff K ν.length r ν)) := by
  unfold getLagrangeBasisFnCoefficients
  rcases hd : lagrangeDict? r ν.length with _ | d
  · simp only
    obtain ⟨i, h1, h2⟩ := getIndex_ok hs
    rw [h1, generateLagrangeBaseCoefficients_eq]
    simp only [Py.bind_ok]
    exact column_tab _ _ (fun ν => lagCoeff K ν.length r ν) i ν h2 |>.trans (by rfl) |> fun h => by
      have := column_tab ν.length r (fun ν' => lagCoeff K ν.length r ν') i ν h2
      exact this
  · simp only
    obtain ⟨_, hr, hc⟩ := lagrangeDict_checked hd
    obtain ⟨hkeys, hv⟩ := checkDict_values (K := K) hr hc
    have hmem : ν ∈ d.2.map Prod.fst := hkeys ▸ mem_mis.2 ⟨rfl, hs⟩
    obtain ⟨e, he, hee⟩ := List.mem_map.1 hmem
    have hl := lookup_of_mem d.2 (hkeys ▸ nodup_mis _ _) e he
    rw [hee] at hl
    rw [hl]
    simp only [keyE, Py.bind_ok, Py.pure_eq]
    rw [hv e he, hee]

/-- The matrix of all basis coefficients, from the cache or generated. -/
theorem getLagrangeBaseColumns_eq (r m : Nat) :
    getLagrangeBaseColumns K r m = .ok ((mis m r).map (fun ν => tab m r (lagCoeff K m r ν))) := by
  unfold getLagrangeBaseColumns
  rcases hd : lagrangeDict? r m with _ | d
  · simp only
    rw [generateLagrangeBaseCoefficients_eq]
    simp only [Py.bind_ok, length_tab]
    rw [mapM_eq_ok (fun k => tab m r (lagCoeff K m r ((mis m r).getD k [])))]
    · congr 1
      apply List.ext_getElem
      · simp [length_mis_eq]
      · intro i h1 h2
        have : i < (mis m r).length := by simpa using h2
        simp [List.getD_eq_getElem?_getD, this]
    · intro k hk
      have : k < (mis m r).length := by rw [length_mis_eq]; exact List.mem_range.1 hk
      exact column_tab m r (fun ν' => lagCoeff K m r ν') k _ (getD_mis this)
  · simp only
    obtain ⟨_, hr, hc⟩ := lagrangeDict_checked hd
    obtain ⟨hkeys, hv⟩ := checkDict_values (K := K) hr hc
    rw [← hkeys, List.map_map]
    congr 1
    exact List.map_congr_left (fun e he => hv e he)

omit [DecidableEq K] [CharZero K] in
theorem dotColumns_eq (m r : Nat) (g : List Nat → List Nat → K) (f : List Nat → V) :
    ∀ (l : List (List Nat)) (acc : List Nat → V),
    ((l.map (fun ν => tab m r (g ν))).zip (l.map f)).foldl
      (fun acc e => List.zipWith (fun v t => v + t • e.2) acc e.1) (tab m r acc) =
      tab m r (fun μ => acc μ + (l.map (fun ν => g ν μ • f ν)).sum) := by
  intro l
  induction l with
  | nil => intro acc; simp
  | cons ν l ih =>
    intro acc
    simp only [List.map_cons, List.zip_cons_cons, List.foldl_cons, List.sum_cons]
    have : List.zipWith (fun v t => v + t • f ν) (tab m r acc) (tab m r (g ν)) = tab m r (fun μ => acc μ + g ν μ • f ν) := by
      unfold tab; rw [List.zipWith_map, List.zipWith_self]
    rw [this, ih]
    simp only [add_assoc]

omit [DecidableEq K] [CharZero K] in
theorem dotColumns_tab (m r : Nat) (f : List Nat → V) (g : List Nat → List Nat → K) :
    dotColumns (getDimension r m) ((mis m r).map (fun ν => tab m r (g ν))) (tab m r f) =
      tab m r (fun μ => ∑ ν ∈ S m r, g (List.ofFn ν) μ • f (List.ofFn ν)) := by
  unfold dotColumns
  rw [zeros_tab]
  have := dotColumns_eq m r g f (mis m r) (fun _ => 0)
  simp only [zero_add, sum_mis] at this
  exact this

end Verif.Poly
