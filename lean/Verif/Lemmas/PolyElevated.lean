import Verif.Lemmas.PolyRepPow
/-!
# Degree elevated Bernstein basis functions
-/

namespace Verif.Poly
open Verif Verif.MI Verif.Spec

variable {K : Type} [Field K] [DecidableEq K] [CharZero K]

omit [DecidableEq K] [CharZero K] in
/-- A loop that writes `g μ` at the index `ν + μ` of a table of zeros. -/
theorem writeLoop_tab (m s d : Nat) (nu : List Nat) (hnu : nu.length = m) (F : List K → List Nat → Py (List K))
    (g : List Nat → K)
    (hF : ∀ μ : List Nat, μ.length = m → μ.sum ≤ d → ∀ c : List Nat → K, F (tab m s c) μ = .ok (tab m s (fun τ => if τ = List.zipWith (· + ·) μ nu then g μ else c τ))) :
    ∀ (l : List (List Nat)) (c : List Nat → K), l.Nodup → (∀ μ ∈ l, μ.length = m ∧ μ.sum ≤ d) →
    (∀ μ ∈ l, c (List.zipWith (· + ·) μ nu) = 0) →
    l.foldlM F (tab m s c) = .ok (tab m s (fun τ => c τ +
      (l.map (fun μ => if List.zipWith (· + ·) μ nu = τ then g μ else 0)).sum)) := by
  intro l
  induction l with
  | nil => intro c _ _ _; simp
  | cons μ l ih =>
    intro c hnd hall hz
    have hμ := hall μ (by simp)
    rw [List.foldlM_cons, hF μ hμ.1 hμ.2, Py.bind_ok]
    rw [List.nodup_cons] at hnd
    rw [ih _ hnd.2 (fun μ' h' => hall μ' (by simp [h'])) ?_]
    · congr 1
      apply tab_congr
      intro τ _ _
      simp only [List.map_cons, List.sum_cons, ← add_assoc]
      congr 1
      by_cases hτ : τ = List.zipWith (· + ·) μ nu
      · rw [if_pos hτ, if_pos hτ.symm, hτ, hz μ (by simp), zero_add]
      · rw [if_neg hτ, if_neg (Ne.symm hτ), add_zero]
    · intro μ' h'
      rw [if_neg, hz μ' (by simp [h'])]
      intro heq
      exact hnd.1 (zipWith_add_inj (hall μ' (by simp [h'])).1 hμ.1 hnu heq ▸ h')

/-- The coefficients of a degree elevated Bernstein basis function. -/
def elevCoeff (K : Type) [Field K] (m r s : Nat) (nu τ : List Nat) : K :=
  ((mis m (s - r)).map (fun μ => if List.zipWith (· + ·) μ nu = τ then
    (multinomial r nu : K) * (multinomial (s - r) μ : K) / (multinomial s (List.zipWith (· + ·) μ nu) : K) else 0)).sum

omit [DecidableEq K] [CharZero K] in
theorem elevCoeff_conv (m r s : Nat) (nu τ : List Nat) (hl : nu.length = m) (hs : nu.sum ≤ r) :
    elevCoeff K m r s nu τ = convCoeff m r (s - r) (fun ν μ => ((multinomial r ν : K) * (multinomial (s - r) μ : K) *
        (1 / (multinomial s τ : K))) • (if ν = nu then (1 : K) else 0)) τ := by
  obtain ⟨a, rfl⟩ := eq_ofFn hl
  unfold elevCoeff convCoeff
  rw [sum_mis]
  symm
  rw [Finset.sum_eq_single a]
  · refine Finset.sum_congr rfl (fun μ _ => ?_)
    rw [zipWith_add_ofFn, add_comm μ a]
    by_cases hτ : List.ofFn (a + μ) = τ
    · rw [if_pos hτ, if_pos hτ]
      beta_reduce
      rw [if_pos rfl, hτ, smul_eq_mul, mul_one, mul_one_div]
    · rw [if_neg hτ, if_neg hτ]
  · intro b _ hb
    refine Finset.sum_eq_zero (fun μ _ => ?_)
    beta_reduce
    rw [if_neg (fun h => hb (List.ofFn_injective h)), smul_zero, ite_self]
  · intro hn
    exact absurd (mem_S.2 (by rw [List.sum_ofFn] at hs; exact hs)) hn

omit [DecidableEq K] in
theorem degreeElevatedBernsteinBasisFn_eq (ν : List Nat) (r s : Nat) (hs : ν.sum ≤ r) (h : r < s) :
    degreeElevatedBernsteinBasisFn K ν r s = Obj.new .bernstein (tab ν.length s (elevCoeff K ν.length r s ν)) (some s) ν.length := by
  unfold degreeElevatedBernsteinBasisFn
  simp only [gt_iff_lt, h, decide_true, pyAssert_true, Py.bind_ok]
  by_cases h1 : ν.length = 1
  · rw [if_pos h1]
    obtain ⟨i, rfl⟩ := List.length_eq_one_iff.1 h1
    simp only [List.sum_cons, List.sum_nil, add_zero] at hs
    show (getE [i] 0 >>= _) = _
    rw [show getE [i] 0 = .ok i from rfl, Py.bind_ok]
    have hr : pyRange i (i + s - r + 1) = (mis 1 (s - r)).map (fun μ => i + μ.headD 0) := by
      rw [mis_one, List.map_map]
      unfold pyRange
      rw [show i + s - r + 1 - i = s - r + 1 by omega, List.range'_eq_map_range]
      rfl
    rw [hr, List.foldlM_map, h1, zeros_tab,
      writeLoop_tab 1 s (s - r) [i] rfl _ (fun μ => (multinomial r [i] : K) * (multinomial (s - r) μ : K) / (multinomial s (List.zipWith (· + ·) μ [i]) : K))
      ?_ _ _ (nodup_mis _ _) (fun μ h => mem_mis.1 h) (fun _ _ => rfl), Py.bind_ok]
    · simp only [zero_add]; rfl
    · intro μ hμ hμs c
      obtain ⟨j, rfl⟩ := List.length_eq_one_iff.1 hμ
      simp only [List.sum_cons, List.sum_nil, add_zero] at hμs
      simp only [List.headD_cons, List.zipWith_cons_cons, List.zipWith_nil_left]
      rw [setE_tab c _ (mis_one_get s (i + j) (by omega)), multinomial_one _ _ hs, multinomial_one _ _ hμs, multinomial_one _ _ (by omega),
        Nat.add_sub_cancel_left]
      simp only [Nat.add_comm j i]
  · rw [if_neg h1, multinomGeneral_eq _ _ hs, Py.bind_ok, zeros_tab, generateAll_eq_mis,
      writeLoop_tab ν.length s (s - r) ν rfl _ (fun μ => (multinomial r ν : K) * (multinomial (s - r) μ : K) / (multinomial s (List.zipWith (· + ·) μ ν) : K))
      ?_ _ _ (nodup_mis _ _) (fun μ h => mem_mis.1 h) (fun _ _ => rfl), Py.bind_ok]
    · simp only [zero_add]; rfl
    · intro μ hμ hμs c
      have hsum : (List.zipWith (· + ·) ν μ).sum = ν.sum + μ.sum := sum_zipWith_add ν μ hμ.symm
      obtain ⟨i, i1, _, _, i4⟩ := index_tab (W := K) (m := ν.length) (r := s) (ν := List.zipWith (· + ·) ν μ)
        (by rw [List.length_zipWith, hμ, Nat.min_self]) (by rw [hsum]; omega)
      have hc : (((s - r).choose (MI.norm μ) : Nat) : K) * ((MI.multinom μ : ℚ) : K) = (multinomial (s - r) μ : K) := by
        exact_mod_cast congrArg (fun q : ℚ => (q : K)) (choose_mul_multinom (s - r) μ hμs)
      have hz : List.zipWith (· + ·) ν μ = List.zipWith (· + ·) μ ν := List.zipWith_comm_of_comm (fun a b => Nat.add_comm a b)
      rw [add_natCast, Py.bind_ok, i1, Py.bind_ok, multinomGeneral_eq _ _ (by rw [hsum]; omega), Py.bind_ok, i4, mul_assoc, hc, hz]
      simp only [Rat.cast_natCast]

theorem degreeElevatedBernsteinBasisFn_rep (ν : List Nat) (r s : Nat) (hs : ν.sum ≤ r) (h : r < s) (hf : Fits s ν.length) :
    ∃ q, degreeElevatedBernsteinBasisFn K ν r s = .ok q ∧ Represents q ν.length (fun x : Fin ν.length → K => Spec.bernstein r (List.ofFn x) ν) ∧
      q.basis = .bernstein ∧ q.r = s := by
  refine ⟨mkObj .bernstein ν.length s (elevCoeff K ν.length r s ν), ?_, ?_, rfl, rfl⟩
  · rw [degreeElevatedBernsteinBasisFn_eq ν r s hs h]; exact new_mk _ _ _ _ hf
  · have : (fun x : Fin ν.length → K => Spec.bernstein r (List.ofFn x) ν) = val .bernstein ν.length s (elevCoeff K ν.length r s ν) := by
      funext x
      have h1 : elevCoeff K ν.length r s ν = fun τ => convCoeff ν.length r (s - r) (fun ν' μ => ((multinomial r ν' : K) * (multinomial (s - r) μ : K) *
        (1 / (multinomial s τ : K))) • (if ν' = ν then (1 : K) else 0)) τ := funext (fun τ => elevCoeff_conv _ r s ν τ rfl hs)
      rw [h1, elevate_bernstein_val _ r s h.le, val_single .bernstein _ r ν rfl hs x]
      rfl
    rw [this]
    exact rep_mk _ _ _ _ hf

theorem degreeElevatedBernsteinBasisFn_toobig (ν : List Nat) (r s : Nat) (hs : ν.sum ≤ r) (h : r < s) (hf : ¬ Fits s ν.length) :
    degreeElevatedBernsteinBasisFn K ν r s = .error .assertion := by
  rw [degreeElevatedBernsteinBasisFn_eq ν r s hs h]; exact new_mk_error _ _ _ _ hf

omit [DecidableEq K] [CharZero K] in
theorem degreeElevatedBernsteinBasisFn_low (ν : List Nat) (r s : Nat) (h : s ≤ r) :
    degreeElevatedBernsteinBasisFn K ν r s = .error .assertion := by
  unfold degreeElevatedBernsteinBasisFn
  rw [decide_eq_false (by omega)]
  rfl

omit [Field K] [DecidableEq K] [CharZero K] in
theorem elevLoop_error (n : Nat) (g : Nat → K) : ∀ (l : List Nat) (c : List K), c.length = n → (∃ k ∈ l, n ≤ k) →
    l.foldlM (fun coeff k => setE coeff k (g k)) c = .error .index := by
  intro l
  induction l with
  | nil => intro c _ h; obtain ⟨k, h, _⟩ := h; exact absurd h (by simp)
  | cons a l ih =>
    intro c hc h
    rw [List.foldlM_cons]
    by_cases ha : a < n
    · rw [setE_ok (by omega), Py.bind_ok]
      refine ih _ (by simpa using hc) ?_
      obtain ⟨k, hk, hn⟩ := h
      rcases List.mem_cons.1 hk with rfl | hk
      · omega
      · exact ⟨k, hk, hn⟩
    · unfold setE
      rw [if_neg (by omega), Py.bind_error]

omit [DecidableEq K] [CharZero K] in
theorem degreeElevatedBernsteinBasisFn_outside (ν : List Nat) (r s : Nat) (h : r < s) (hs : r < ν.sum) :
    degreeElevatedBernsteinBasisFn K ν r s = .error (if ν.length = 1 then .index else .assertion) := by
  unfold degreeElevatedBernsteinBasisFn
  simp only [gt_iff_lt, h, decide_true, pyAssert_true, Py.bind_ok]
  by_cases h1 : ν.length = 1
  · rw [if_pos h1, if_pos h1]
    obtain ⟨i, rfl⟩ := List.length_eq_one_iff.1 h1
    simp only [List.sum_cons, List.sum_nil, add_zero] at hs
    show (getE [i] 0 >>= _) = _
    rw [show getE [i] 0 = .ok i from rfl, Py.bind_ok, elevLoop_error (s + 1) _ _ _ ?_ ⟨i + s - r, ?_, by omega⟩, Py.bind_error]
    · rw [h1, zeros_tab, tab_one]; simp
    · unfold pyRange; rw [List.mem_range'_1]; omega
  · rw [if_neg h1, if_neg h1]
    unfold multinomGeneral generalToExactNorm
    rw [if_neg (by show ¬ ((ν.sum : Nat) : Int) ≤ _; omega), Py.bind_error, Py.bind_error]

end Verif.Poly
