import Mathlib.Data.Nat.Choose.Multinomial
import Mathlib.Algebra.Order.Antidiag.Pi
import Verif.Lemmas.PolyMonomial
/-!
# The operations of the Bernstein basis on coefficient tables
-/

namespace Verif.Poly
open Verif Verif.MI Verif.Spec

variable {K V : Type} [Field K] [AddCommGroup V] [Module K V]

theorem isCapped_ofFn {m : Nat} (t ν : Fin m → ℕ) : IsCapped (List.ofFn t) (List.ofFn ν) ↔ ν ≤ t := by
  unfold IsCapped
  rw [List.forall₂_iff_get]
  simp only [List.length_ofFn, List.get_ofFn, true_and]
  constructor
  · intro h i; exact h i i.2 i.2
  · intro h i h1 _; exact h ⟨i, h1⟩

theorem sum_cap {W : Type} [AddCommMonoid W] {m : Nat} (t : Fin m → ℕ) (F : List Nat → W) :
    ((generateAllMultiCap (List.ofFn t)).map F).sum = ∑ ν ∈ Finset.Iic t, F (List.ofFn ν) := by
  rw [← List.sum_toFinset F (nodup_generateAllMultiCap _)]
  symm
  apply Finset.sum_bij (fun ν _ => List.ofFn ν)
  · intro ν hν
    rw [List.mem_toFinset, mem_generateAllMultiCap, isCapped_ofFn]
    exact Finset.mem_Iic.1 hν
  · intro a _ b _ h; exact List.ofFn_injective h
  · intro l hl
    rw [List.mem_toFinset, mem_generateAllMultiCap] at hl
    have hlen : l.length = m := by have := hl.length_eq; simpa using this
    obtain ⟨ν, rfl⟩ := eq_ofFn hlen
    exact ⟨ν, Finset.mem_Iic.2 ((isCapped_ofFn t ν).1 hl), rfl⟩
  · intro _ _; rfl

theorem zipWith_sub_ofFn {m : Nat} (a b : Fin m → ℕ) :
    List.zipWith (· - ·) (List.ofFn a) (List.ofFn b) = List.ofFn (a - b) := by
  apply List.ext_getElem <;> simp

theorem add_sub_fn {m : Nat} {a b : Fin m → ℕ} (h : ∀ i, b i ≤ a i) : b + (a - b) = a :=
  funext fun i => Nat.add_sub_cancel' (h i)

theorem add_sub_left_fn {m : Nat} (a b : Fin m → ℕ) : a + b - a = b := funext fun _ => Nat.add_sub_cancel_left _ _

theorem sum_sub {m : Nat} {a b : Fin m → ℕ} (h : b ≤ a) : ∑ i, (a - b) i = ∑ i, a i - ∑ i, b i := by
  have : ∑ i, (a - b) i + ∑ i, b i = ∑ i, a i := by
    rw [← Finset.sum_add_distrib]
    exact Finset.sum_congr rfl (fun i _ => Nat.sub_add_cancel (h i))
  omega

/-- The sum over the capped multi-indices (with the two skipped cases) is the coefficient of the product. -/
theorem cap_sum (m r s : Nat) (t : Fin m → ℕ) (H : List Nat → List Nat → V) :
    ∑ ν ∈ Finset.Iic t, (if ∑ i, (t - ν) i ≤ s ∧ ∑ i, ν i ≤ r then H (List.ofFn ν) (List.ofFn (t - ν)) else 0) =
      convCoeff m r s H (List.ofFn t) := by
  unfold convCoeff
  have inner : ∀ ν : Fin m → ℕ, (∑ μ ∈ S m s, if List.ofFn (ν + μ) = List.ofFn t then H (List.ofFn ν) (List.ofFn μ) else 0) =
      if (∀ i, ν i ≤ t i) ∧ ∑ i, (t - ν) i ≤ s then H (List.ofFn ν) (List.ofFn (t - ν)) else 0 := by
    intro ν
    by_cases h : (∀ i, ν i ≤ t i) ∧ ∑ i, (t - ν) i ≤ s
    · rw [if_pos h, Finset.sum_eq_single (t - ν)]
      · rw [if_pos]; rw [add_sub_fn h.1]
      · intro μ _ hμ
        rw [if_neg]
        intro hc
        apply hμ
        rw [← List.ofFn_injective hc, add_sub_left_fn]
      · intro hc; exact absurd (mem_S.2 h.2) hc
    · rw [if_neg h, Finset.sum_eq_zero]
      intro μ hμ
      rw [if_neg]
      intro hc
      have := List.ofFn_injective hc
      apply h
      constructor
      · rw [← this]; exact fun i => Nat.le_add_right _ _
      · rw [← this, add_sub_left_fn]; exact mem_S.1 hμ
  simp only [inner]
  rw [← Finset.sum_filter, ← Finset.sum_filter]
  refine Finset.sum_congr ?_ (fun _ _ => rfl)
  ext ν
  simp only [Finset.mem_filter, Finset.mem_Iic, mem_S, Pi.le_def]
  tauto

theorem sum_range' {W : Type} [AddCommMonoid W] (lo n : Nat) (f : Nat → W) :
    ((List.range' lo n).map f).sum = ∑ i ∈ Finset.Ico lo (lo + n), f i := by
  induction n generalizing lo with
  | zero => simp
  | succ n ih =>
    rw [List.range'_succ, List.map_cons, List.sum_cons, ih, ← Finset.sum_eq_sum_Ico_succ_bot (by omega)]
    congr 2; omega

/-- Univariate version of `cap_sum`. -/
theorem range_sum (r s k : Nat) (hk : k ≤ r + s) (H : List Nat → List Nat → V) :
    ((pyRange (max 0 (k - s)) (min r k + 1)).map (fun i => H [i] [k - i])).sum = convCoeff 1 r s H [k] := by
  unfold pyRange
  rw [sum_range', convCoeff_list, mis_one, mis_one, List.map_map, sum_list_range]
  have inner : ∀ i ∈ Finset.range (r + 1), ((fun ν => (List.map (fun μ => if List.zipWith (· + ·) ν μ = [k] then H ν μ else 0)
      (List.map (fun i => [i]) (List.range (s + 1)))).sum) ∘ fun i => [i]) i =
      if i ≤ k ∧ k - i ≤ s then H [i] [k - i] else 0 := by
    intro i _
    simp only [Function.comp, List.map_map, sum_list_range]
    by_cases h : i ≤ k ∧ k - i ≤ s
    · rw [if_pos h, Finset.sum_eq_single (k - i)]
      · rw [if_pos]; simp; omega
      · intro j _ hj; rw [if_neg]; simp; omega
      · intro hc; simp at hc; omega
    · rw [if_neg h, Finset.sum_eq_zero]
      intro j hj
      rw [Finset.mem_range] at hj
      rw [if_neg]; simp; omega
  rw [Finset.sum_congr rfl inner, ← Finset.sum_filter]
  refine Finset.sum_congr ?_ (fun _ _ => rfl)
  ext i
  simp only [Finset.mem_filter, Finset.mem_Ico, Finset.mem_range]
  omega

theorem mis_one_get (r i : Nat) (h : i ≤ r) : (mis 1 r)[i]? = some [i] := by
  rw [mis_one, List.getElem?_map, List.getElem?_range (by omega)]; rfl

theorem sub_ofFn {m : Nat} {t ν : Fin m → ℕ} (h : ν ≤ t) :
    MI.sub (List.ofFn t) ((List.ofFn ν).map Int.ofNat) = .ok (List.ofFn (t - ν)) := by
  rw [sub_natCast _ _ ((isCapped_ofFn t ν).2 h), zipWith_sub_ofFn]

theorem fillLoop_range (n : Nat) (f : Nat → Py V) (g : Nat → V) (h : ∀ i, i < n → f i = .ok (g i)) :
    fillLoop f (List.range n) 0 (zeros V n) = .ok ((List.range n).map g) := by
  have := fillLoop_eq f g (List.range n) [] (zeros V n) (fun x hx => h x (List.mem_range.1 hx)) (by simp [zeros])
  simpa using this

/-- The product of two Bernstein polynomials. -/
theorem mulBernstein_tab [CharZero K] (p q : Obj K) (f g : List Nat → K) (hb : q.basis = .bernstein) (hm : p.m = q.m)
    (hp : p.coeff = tab p.m p.r f) (hq : q.coeff = tab q.m q.r g) :
    mulBernstein p q = Obj.new .bernstein (tab p.m (p.r + q.r) (fun τ =>
      convCoeff p.m p.r q.r (fun ν μ => (multinomial p.r ν : K) * (multinomial q.r μ : K) /
        (multinomial (p.r + q.r) τ : K) * f ν * g μ) τ)) (some (p.r + q.r)) p.m := by
  unfold mulBernstein
  simp only [hb, hm, decide_true, pyAssert_true, Py.bind_ok]
  rw [hm] at hp
  by_cases h1 : q.m = 1
  · rw [if_pos h1, h1, getDimension_one]
    rw [h1] at hp hq
    rw [fillLoop_range _ _ (fun k => convCoeff 1 p.r q.r (fun ν μ => (multinomial p.r ν : K) * (multinomial q.r μ : K) /
        (multinomial (p.r + q.r) [k] : K) * f ν * g μ) [k])]
    · simp only [Py.bind_ok]; rw [tab_one]
    · intro k hk
      rw [sumLoop_eq _ (fun i => (multinomial p.r [i] : K) * (multinomial q.r [k - i] : K) /
        (multinomial (p.r + q.r) [k] : K) * f [i] * g [k - i]), zero_add,
        range_sum p.r q.r k (by omega) (fun ν μ => (multinomial p.r ν : K) * (multinomial q.r μ : K) /
        (multinomial (p.r + q.r) [k] : K) * f ν * g μ)]
      intro i hi
      right
      have hi' : max 0 (k - q.r) ≤ i ∧ i < min p.r k + 1 := by
        unfold pyRange at hi; rw [List.mem_range'_1] at hi; omega
      rw [hp, getE_tab f (ν := [i]) (mis_one_get _ _ (by omega))]
      simp only [Py.bind_ok]
      rw [hq, getE_tab g (ν := [k - i]) (mis_one_get _ _ (by omega))]
      simp only [Py.bind_ok]
      rw [multinomial_one _ _ (by omega), multinomial_one _ _ (by omega), multinomial_one _ _ (by omega)]
      rfl
  · rw [if_neg h1]
    rw [fillLoop_tab q.m (p.r + q.r) _ (fun τ => convCoeff q.m p.r q.r (fun ν μ => (multinomial p.r ν : K) *
      (multinomial q.r μ : K) / (multinomial (p.r + q.r) τ : K) * f ν * g μ) τ)]
    · simp only [Py.bind_ok]
    · intro τ hl hs
      obtain ⟨t, rfl⟩ := eq_ofFn hl
      rw [sumLoop_eq _ (fun ν => if (List.zipWith (· - ·) (List.ofFn t) ν).sum ≤ q.r ∧ ν.sum ≤ p.r then
        (multinomial p.r ν : K) * (multinomial q.r (List.zipWith (· - ·) (List.ofFn t) ν) : K) /
        (multinomial (p.r + q.r) (List.ofFn t) : K) * f ν * g (List.zipWith (· - ·) (List.ofFn t) ν) else 0), zero_add, sum_cap]
      · congr 1
        rw [← cap_sum]
        refine Finset.sum_congr rfl (fun ν _ => ?_)
        simp only [zipWith_sub_ofFn, List.sum_ofFn]
      · intro ν hν
        rw [mem_generateAllMultiCap] at hν
        have hlen : ν.length = q.m := by have := hν.length_eq; simpa using this
        obtain ⟨n, rfl⟩ := eq_ofFn hlen
        have hle := (isCapped_ofFn t n).1 hν
        rw [sub_ofFn hle]
        simp only [Py.bind_ok, MI.norm, zipWith_sub_ofFn, List.sum_ofFn]
        by_cases c1 : ∑ i, (t - n) i ≤ q.r
        · by_cases c2 : ∑ i, n i ≤ p.r
          · right
            rw [if_neg (by omega), if_neg (by omega), if_pos ⟨c1, c2⟩]
            obtain ⟨k1, e1, -, e2, -⟩ := index_tab (W := K) (m := q.m) (r := p.r) (ν := List.ofFn n) (by simp)
              (by rw [List.sum_ofFn]; exact c2)
            obtain ⟨k2, e3, -, e4, -⟩ := index_tab (W := K) (m := q.m) (r := q.r) (ν := List.ofFn (t - n)) (by simp)
              (by rw [List.sum_ofFn]; exact c1)
            rw [e1]; simp only [Py.bind_ok]
            rw [e3]; simp only [Py.bind_ok]
            rw [multinomGeneral_eq _ _ (by rw [List.sum_ofFn]; exact c2), multinomGeneral_eq _ _ (by rw [List.sum_ofFn]; exact c1),
              multinomGeneral_eq _ _ hs]
            simp only [Py.bind_ok]
            rw [hp, e2, hq, e4]
            simp only [Py.bind_ok, Rat.cast_natCast]
            rfl
          · left
            rw [if_neg (by omega), if_pos (by omega), if_neg (by tauto)]
            exact ⟨rfl, rfl⟩
        · left
          rw [if_pos (by omega), if_neg (by tauto)]
          exact ⟨rfl, rfl⟩

/-! ## The multinomial theorem -/

/-- `Σ_ν multinomial(r, ν) y^ν z^(r - |ν|) = (z + Σ y)^r`. -/
theorem multinomial_theorem (m r : Nat) (y : Fin m → K) (z : K) :
    ∑ ν ∈ S m r, (multinomial r (List.ofFn ν) : K) * ((∏ i, y i ^ ν i) * z ^ (r - ∑ i, ν i)) = (z + ∑ i, y i) ^ r := by
  have h := Finset.sum_pow_eq_sum_piAntidiag (R := K) (Finset.univ : Finset (Fin (m + 1))) (Fin.cons z y) r
  rw [Fin.sum_univ_succ] at h
  simp only [Fin.cons_zero, Fin.cons_succ] at h
  rw [h]
  apply Finset.sum_bij (fun ν _ => (Fin.cons (r - ∑ i, ν i) ν : Fin (m + 1) → ℕ))
  · intro ν hν
    have := mem_S.1 hν
    rw [Finset.mem_piAntidiag]
    refine ⟨?_, fun _ _ => Finset.mem_univ _⟩
    rw [Fin.sum_univ_succ]; simp only [Fin.cons_zero, Fin.cons_succ]; omega
  · intro a _ b _ h
    exact (Fin.cons_inj.1 h).2
  · intro k hk
    rw [Finset.mem_piAntidiag] at hk
    have hk' := hk.1
    rw [Fin.sum_univ_succ] at hk'
    refine ⟨fun i => k i.succ, mem_S.2 (by omega), ?_⟩
    have h0 : r - ∑ i : Fin m, k i.succ = k 0 := by omega
    funext i
    refine Fin.cases ?_ (fun j => ?_) i
    · simp [h0]
    · simp
  · intro ν hν
    have hs := mem_S.1 hν
    rw [Fin.prod_univ_succ]
    simp only [Fin.cons_zero, Fin.cons_succ]
    rw [mul_comm (z ^ _)]
    congr 2
    unfold Nat.multinomial multinomial
    rw [Fin.sum_univ_succ, Fin.prod_univ_succ]
    simp only [Fin.cons_zero, Fin.cons_succ]
    rw [Nat.sub_add_cancel hs, List.map_ofFn, List.prod_ofFn, List.sum_ofFn, mul_comm]
    rfl

theorem partition_of_unity (m r : Nat) (x : Fin m → K) :
    ∑ ν ∈ S m r, (multinomial r (List.ofFn ν) : K) * ((∏ i, x i ^ ν i) * (1 - ∑ i, x i) ^ (r - ∑ i, ν i)) = 1 := by
  rw [multinomial_theorem]; simp

/-! ## Degree elevation -/

theorem choose_mul_multinom (N : Nat) (d : List Nat) (h : d.sum ≤ N) :
    ((N.choose (MI.norm d) : Nat) : ℚ) * MI.multinom d = (multinomial N d : ℚ) := by
  have h1 := multinomial_mul N d h
  have h2 := Nat.choose_mul_factorial_mul_factorial h
  have e : MI.factorial d = (d.map Nat.factorial).prod := factorial_eq_prod d
  have hpos : (0 : ℚ) < (d.map Nat.factorial).prod := by
    rw [← e]; exact_mod_cast factorial_pos d
  have hpos2 : (0 : ℚ) < (N - d.sum).factorial := by exact_mod_cast Nat.factorial_pos _
  unfold MI.multinom MI.norm
  rw [e, ← mul_div_assoc, div_eq_iff hpos.ne']
  have h1' : (multinomial N d : ℚ) * ((d.map Nat.factorial).prod * (N - d.sum).factorial) = N.factorial := by exact_mod_cast h1
  have h2' : (N.choose d.sum : ℚ) * d.sum.factorial * (N - d.sum).factorial = N.factorial := by exact_mod_cast h2
  have : (N.choose d.sum : ℚ) * d.sum.factorial * (N - d.sum).factorial =
      multinomial N d * (d.map Nat.factorial).prod * (N - d.sum).factorial := by rw [h2', ← h1']; ring
  exact mul_right_cancel₀ hpos2.ne' this

theorem degreeElevateBernstein_tab [CharZero K] (p : Obj V) (f : List Nat → V) (s : Nat) (hp : p.coeff = tab p.m p.r f)
    (h : p.r < s) :
    degreeElevateBernstein K p s = Obj.new .bernstein (tab p.m s (fun τ =>
      convCoeff p.m p.r (s - p.r) (fun ν μ => ((multinomial p.r ν : K) * (multinomial (s - p.r) μ : K) *
        (1 / (multinomial s τ : K))) • f ν) τ)) (some s) p.m := by
  unfold degreeElevateBernstein
  simp only [h.le, ge_iff_le, decide_true, pyAssert_true, Py.bind_ok, h.ne', ↓reduceIte]
  by_cases h1 : p.m = 1
  · rw [if_pos h1, h1, getDimension_one]
    rw [h1] at hp
    rw [fillLoop_range _ _ (fun k => convCoeff 1 p.r (s - p.r) (fun ν μ => ((multinomial p.r ν : K) *
      (multinomial (s - p.r) μ : K) * (1 / (multinomial s [k] : K))) • f ν) [k])]
    · simp only [Py.bind_ok]; rw [tab_one]
    · intro k hk
      rw [sumLoop_eq _ (fun i => ((multinomial p.r [i] : K) * (multinomial (s - p.r) [k - i] : K) *
        (1 / (multinomial s [k] : K))) • f [i]), zero_add,
        range_sum p.r (s - p.r) k (by omega) (fun ν μ => ((multinomial p.r ν : K) * (multinomial (s - p.r) μ : K) *
        (1 / (multinomial s [k] : K))) • f ν)]
      intro i hi
      right
      have hi' : max 0 (k - (s - p.r)) ≤ i ∧ i < min p.r k + 1 := by
        unfold pyRange at hi; rw [List.mem_range'_1] at hi; omega
      rw [hp, getE_tab f (ν := [i]) (mis_one_get _ _ (by omega))]
      simp only [Py.bind_ok]
      rw [multinomial_one _ _ (by omega), multinomial_one _ _ (by omega), multinomial_one _ _ (by omega)]
      rfl
  · rw [if_neg h1]
    rw [fillLoop_tab p.m s _ (fun τ => convCoeff p.m p.r (s - p.r) (fun ν μ => ((multinomial p.r ν : K) *
      (multinomial (s - p.r) μ : K) * (1 / (multinomial s τ : K))) • f ν) τ)]
    · simp only [Py.bind_ok]
    · intro τ hl hs
      rw [multinomGeneral_eq _ _ hs]
      simp only [Py.bind_ok]
      obtain ⟨t, rfl⟩ := eq_ofFn hl
      rw [List.sum_ofFn] at hs
      rw [sumLoop_eq _ (fun ν => if (List.zipWith (· - ·) (List.ofFn t) ν).sum ≤ s - p.r ∧ ν.sum ≤ p.r then
        ((multinomial p.r ν : K) * (multinomial (s - p.r) (List.zipWith (· - ·) (List.ofFn t) ν) : K) *
        (1 / (multinomial s (List.ofFn t) : K))) • f ν else 0), zero_add, sum_cap]
      · congr 1
        rw [← cap_sum]
        refine Finset.sum_congr rfl (fun ν _ => ?_)
        simp only [zipWith_sub_ofFn, List.sum_ofFn]
      · intro ν hν
        rw [mem_generateAllMultiCap] at hν
        have hlen : ν.length = p.m := by have := hν.length_eq; simpa using this
        obtain ⟨n, rfl⟩ := eq_ofFn hlen
        have hle := (isCapped_ofFn t n).1 hν
        have hsub := sum_sub hle
        have hle' : ∑ i, n i ≤ ∑ i, t i := Finset.sum_le_sum (fun i _ => hle i)
        simp only [MI.norm, zipWith_sub_ofFn, List.sum_ofFn]
        by_cases c1 : ∑ i, (t - n) i ≤ s - p.r
        · by_cases c2 : ∑ i, n i ≤ p.r
          · right
            rw [if_neg (by omega), if_neg (by omega), if_pos ⟨c1, c2⟩]
            obtain ⟨k1, e1, -, e2, -⟩ := index_tab (W := V) (m := p.m) (r := p.r) (ν := List.ofFn n) (by simp)
              (by rw [List.sum_ofFn]; exact c2)
            rw [e1]; simp only [Py.bind_ok]
            rw [multinomGeneral_eq _ _ (by rw [List.sum_ofFn]; exact c2), sub_ofFn hle]
            simp only [Py.bind_ok]
            rw [hp, e2]
            simp only [Py.bind_ok, Rat.cast_natCast]
            have hc := choose_mul_multinom (s - p.r) (List.ofFn (t - n)) (by rw [List.sum_ofFn]; exact c1)
            have hcK : (((s - p.r).choose (List.ofFn (t - n)).sum : Nat) : K) * ((MI.multinom (List.ofFn (t - n)) : ℚ) : K) =
                (multinomial (s - p.r) (List.ofFn (t - n)) : K) := by
              have := congrArg (fun q : ℚ => (q : K)) hc
              simpa [MI.norm] using this
            rw [← hcK]
            rw [mul_assoc ((multinomial p.r (List.ofFn n) : K)), List.sum_ofFn]
            rfl
          · left
            rw [if_neg (by omega), if_pos (by omega), if_neg (by tauto)]
            exact ⟨rfl, rfl⟩
        · left
          rw [if_pos (by omega), if_neg (by tauto)]
          exact ⟨rfl, rfl⟩

theorem degreeElevateBernstein_same (K : Type) {V : Type} [Field K] [AddCommGroup V] [Module K V] (p : Obj V) :
    degreeElevateBernstein K p p.r = Obj.new .bernstein p.coeff (some p.r) p.m := by
  unfold degreeElevateBernstein; simp

theorem degreeElevateBernstein_error (K : Type) {V : Type} [Field K] [AddCommGroup V] [Module K V] (p : Obj V) (s : Nat)
    (h : s < p.r) : degreeElevateBernstein K p s = .error .assertion := by
  unfold degreeElevateBernstein
  simp [Nat.not_le.2 h]

/-! ## Partial derivative -/

theorem partialDerivativeBernstein_tab (K : Type) {V : Type} [Field K] [AddCommGroup V] [Module K V] (p : Obj V)
    (f : List Nat → V) (i : Nat) (hp : p.coeff = tab p.m p.r f) (hi : i < p.m) (hr : p.r ≠ 0) :
    partialDerivativeBernstein K p i =
      Obj.new .bernstein (tab p.m (p.r - 1) (fun τ => (p.r : K) • (f (incAt τ i) - f τ))) (some (p.r - 1)) p.m := by
  unfold partialDerivativeBernstein
  simp only [hi, decide_true, pyAssert_true, Py.bind_ok, hr, ↓reduceIte]
  by_cases h1 : p.m = 1
  · rw [if_pos h1, h1]
    rw [h1] at hp
    rw [fillLoop_range p.r _ (fun k => f [k + 1] - f [k])]
    · simp only [Py.bind_ok]
      congr 1
      rw [tab_one, List.map_map, Nat.sub_add_cancel (by omega)]
      refine List.map_congr_left (fun k _ => ?_)
      have : i = 0 := by omega
      subst this
      simp [incAt]
    · intro k hk
      rw [hp, getE_tab f (ν := [k + 1]) (mis_one_get _ _ (by omega))]
      simp only [Py.bind_ok]
      rw [getE_tab f (ν := [k]) (mis_one_get _ _ (by omega))]
      simp
  · rw [if_neg h1]
    rw [fillLoop_tab p.m (p.r - 1) _ (fun τ => f (incAt τ i) - f τ)]
    · simp only [Py.bind_ok]
      congr 1
      simp [tab]
    · intro τ hl hs
      rw [unit_ok p.m i hi]; simp only [Py.bind_ok]
      rw [add_natCast]; simp only [Py.bind_ok]
      rw [← hl, zipWith_unit τ i (by omega)]
      obtain ⟨k, hk1, -, hk2, -⟩ := index_tab (W := V) (m := p.m) (r := p.r) (ν := incAt τ i)
        (by simp [incAt, hl]) (by rw [sum_incAt _ _ (by omega)]; omega)
      obtain ⟨k', hk3, -, hk4, -⟩ := index_tab (W := V) (m := p.m) (r := p.r) (ν := τ) hl (by omega)
      rw [hk1]; simp only [Py.bind_ok]
      rw [hk3]; simp only [Py.bind_ok]
      rw [hp, hk2]; simp only [Py.bind_ok]
      rw [hk4]; simp

end Verif.Poly
