import Verif.Lemmas.PolyRep
/-!
# Multi-index powers, basis functions and conversion to the monomial basis
-/

namespace Verif.Poly
open Verif Verif.MI Verif.Spec

variable {K V : Type} [Field K] [DecidableEq K] [CharZero K] [AddCommGroup V] [Module K V]

theorem Fits.mono {r s m : Nat} (h : Fits s m) (hrs : r ≤ s) : Fits r m := by
  rcases h with h | h
  · exact Or.inl h
  · exact Or.inr (hrs.trans h)

/-! ## Multi-index powers -/

theorem powMultiLoop_rep {n : Nat} {p : Obj (Fin n → K)} {m : Nat} {f : (Fin m → K) → (Fin n → K)} (hp : Represents p m f) :
    ∀ (l : List (Fin n × Nat)) (acc : Obj K) (g : (Fin m → K) → K), Represents acc m g → acc.basis = p.basis →
      Fits (acc.r + p.r * (l.map Prod.snd).sum) m →
      ∃ s, powMultiLoop p l acc = .ok s ∧ Represents s m (fun x => g x * (l.map (fun e => f x e.1 ^ e.2)).prod) ∧
        s.basis = p.basis ∧ s.r = acc.r + p.r * (l.map Prod.snd).sum := by
  intro l
  induction l with
  | nil => intro acc g hacc hb _; exact ⟨acc, rfl, by simpa using hacc, hb, by simp⟩
  | cons a l ih =>
    obtain ⟨i, e⟩ := a
    intro acc g hacc hb hfit
    simp only [List.map_cons, List.sum_cons] at hfit
    simp only [powMultiLoop]
    obtain ⟨pi, h1, h2, h3, h4⟩ := component_rep hp i
    obtain ⟨pw, a1, a2, a3, a4⟩ := powNat_rep h2 e
      (hfit.mono (by rw [h4, Nat.mul_add]; omega))
    obtain ⟨ac, b1, b2, b3, b4⟩ := mul_rep hacc a2 (Or.inr (by rw [hb, a3, h3]))
      (hfit.mono (by rw [a4, h4, Nat.mul_add]; omega))
    obtain ⟨s, c1, c2, c3, c4⟩ := ih ac _ b2 (b3.trans hb)
      (hfit.mono (by rw [b4, a4, h4, Nat.mul_add]; omega))
    refine ⟨s, ?_, ?_, c3, ?_⟩
    · rw [h1]; simp only [Py.bind_ok]; rw [a1]; simp only [Py.bind_ok]; rw [b1]; exact c1
    · simpa only [List.map_cons, List.prod_cons, mul_assoc] using c2
    · simp only [List.map_cons, List.sum_cons]
      rw [c4, b4, a4, h4, Nat.mul_add]; omega

theorem powMultiLoop_toobig {n : Nat} {p : Obj (Fin n → K)} {m : Nat} {f : (Fin m → K) → (Fin n → K)} (hp : Represents p m f) :
    ∀ (l : List (Fin n × Nat)) (acc : Obj K) (g : (Fin m → K) → K), Represents acc m g → acc.basis = p.basis →
      ¬ Fits (acc.r + p.r * (l.map Prod.snd).sum) m → powMultiLoop p l acc = .error .assertion := by
  intro l
  induction l with
  | nil => intro acc g hacc hb h; exact absurd (by simpa using hacc.fits) h
  | cons a l ih =>
    obtain ⟨i, e⟩ := a
    intro acc g hacc hb hfit
    simp only [List.map_cons, List.sum_cons] at hfit
    simp only [powMultiLoop]
    obtain ⟨pi, h1, h2, h3, h4⟩ := component_rep hp i
    rw [h1]; simp only [Py.bind_ok]
    by_cases hf1 : Fits (pi.r * e) m
    · obtain ⟨pw, a1, a2, a3, a4⟩ := powNat_rep h2 e hf1
      rw [a1]; simp only [Py.bind_ok]
      by_cases hf2 : Fits (acc.r + pw.r) m
      · obtain ⟨ac, b1, b2, b3, b4⟩ := mul_rep hacc a2 (Or.inr (by rw [hb, a3, h3])) hf2
        rw [b1]; simp only [Py.bind_ok]
        refine ih ac _ b2 (b3.trans hb) ?_
        rw [b4, a4, h4]
        rwa [Nat.mul_add, ← Nat.add_assoc] at hfit
      · rw [mul_toobig hacc a2 (Or.inr (by rw [hb, a3, h3])) hf2]; rfl
    · rw [powNat_toobig h2 e hf1]; rfl

omit [DecidableEq K] [CharZero K] [Field K] in
theorem zip_finRange {W : Type} {n : Nat} (ε : Fin n → W) : (List.finRange n).zip (List.ofFn ε) = List.ofFn (fun i => (i, ε i)) := by
  apply List.ext_getElem <;> simp

omit [DecidableEq K] [CharZero K] in
theorem setE_zero_tab {m r : Nat} (ν : List Nat) (hl : ν.length = m) (hs : ν.sum ≤ r) :
    ∃ i, getIndex ν r = .ok i ∧ setE (zeros K (getDimension r m)) i 1 = .ok (tab m r (fun μ => if μ = ν then 1 else 0)) := by
  obtain ⟨i, h1, _, _, h4⟩ := index_tab (W := K) hl hs
  exact ⟨i, h1, by rw [zeros_tab, h4]⟩

omit [DecidableEq K] [CharZero K] in
theorem val_single (b : Basis) (m r : Nat) (ν : List Nat) (hl : ν.length = m) (hs : ν.sum ≤ r) (x : Fin m → K) :
    val b m r (fun μ => if μ = ν then (1 : K) else 0) x = basisFn b r (List.ofFn x) ν := by
  obtain ⟨ε, rfl⟩ := eq_ofFn hl
  unfold val
  rw [Finset.sum_eq_single ε]
  · simp
  · intro μ _ hne
    simp only
    rw [if_neg (fun h => hne (List.ofFn_injective h)), smul_zero]
  · intro h; exact absurd (mem_S.2 (by rwa [List.sum_ofFn] at hs)) h

theorem single_rep (b : Basis) (m r : Nat) (ν : List Nat) (hl : ν.length = m) (hs : ν.sum ≤ r) (hf : Fits r m) :
    Represents (mkObj b m r (fun μ => if μ = ν then (1 : K) else 0)) m (fun x => basisFn b r (List.ofFn x) ν) := by
  rw [← funext (val_single (K := K) b m r ν hl hs)]
  exact rep_mk _ _ _ _ hf

theorem monomialBasisFn_rep (ν : List Nat) (m : Nat) (hl : ν.length = m) (hf : Fits ν.sum m) :
    ∃ s, monomialBasisFn K ν = .ok s ∧ Represents s m (fun x => Spec.monomial (List.ofFn x) ν) ∧ s.basis = .monomial ∧
      s.r = ν.sum := by
  refine ⟨_, ?_, single_rep (K := K) .monomial m ν.sum ν hl le_rfl hf, rfl, rfl⟩
  unfold monomialBasisFn
  obtain ⟨i, h1, h2⟩ := setE_zero_tab (K := K) ν hl (le_refl ν.sum)
  simp only [show MI.norm ν = ν.sum from rfl, hl]
  rw [h1]
  simp only [Py.bind_ok]
  rw [h2]
  exact new_mk _ _ _ _ hf

theorem bernsteinBasisFn_eq (ν : List Nat) (r m : Nat) (hl : ν.length = m) (hs : ν.sum ≤ r) (hf : Fits r m) :
    bernsteinBasisFn K ν r = .ok (mkObj .bernstein m r (fun μ => if μ = ν then (1 : K) else 0)) := by
  unfold bernsteinBasisFn
  obtain ⟨i, h1, h2⟩ := setE_zero_tab (K := K) ν hl hs
  rw [hl, h1]
  simp only [Py.bind_ok]
  rw [h2]
  exact new_mk _ _ _ _ hf

theorem lagrangeBasisFn_eq (ν : List Nat) (r m : Nat) (hl : ν.length = m) (hs : ν.sum ≤ r) (hf : Fits r m) :
    lagrangeBasisFn K ν r = .ok (mkObj .lagrange m r (fun μ => if μ = ν then (1 : K) else 0)) := by
  unfold lagrangeBasisFn
  obtain ⟨i, h1, h2⟩ := setE_zero_tab (K := K) ν hl hs
  rw [hl, h1]
  simp only [Py.bind_ok]
  rw [h2]
  exact new_mk _ _ _ _ hf

theorem powMultiMonomial_rep {n : Nat} {p : Obj (Fin n → K)} {m : Nat} {f : (Fin m → K) → (Fin n → K)} (hp : Represents p m f)
    (hb : p.basis = .monomial) (ε : Fin n → ℕ) :
    (Fits (p.r * ∑ i, ε i) m → ∃ s, powMultiMonomial p (List.ofFn ε) = .ok s ∧
      Represents s m (fun x => ∏ i, f x i ^ ε i) ∧ s.basis = p.basis ∧ s.r = p.r * ∑ i, ε i) ∧
    (¬ Fits (p.r * ∑ i, ε i) m → powMultiMonomial p (List.ofFn ε) = .error .assertion) := by
  have hsum : (((List.finRange n).zip (List.ofFn ε)).map Prod.snd).sum = ∑ i, ε i := by
    rw [zip_finRange, List.map_ofFn, List.sum_ofFn]; rfl
  obtain ⟨one, h1, h2, h3, h4⟩ := monomialBasisFn_rep (K := K) (MI.zero m) m (by simp [MI.zero]) (by simp [MI.zero]; exact fits_zero m)
  have h4' : one.r = 0 := by rw [h4]; simp [MI.zero]
  have h2' : Represents one m (fun _ : Fin m → K => (1 : K)) := by
    have : (fun x : Fin m → K => Spec.monomial (List.ofFn x) (MI.zero m)) = fun _ => 1 := by
      funext x
      rw [show MI.zero m = List.ofFn (0 : Fin m → ℕ) by apply List.ext_getElem <;> simp [MI.zero], monomial_ofFn]
      simp
    rwa [this] at h2
  have hunf : powMultiMonomial p (List.ofFn ε) = powMultiLoop p ((List.finRange n).zip (List.ofFn ε)) one := by
    unfold powMultiMonomial
    rw [hp.dim, h1]
    simp
  constructor
  · intro hfit
    obtain ⟨s, c1, c2, c3, c4⟩ := powMultiLoop_rep hp ((List.finRange n).zip (List.ofFn ε)) one _ h2' (h3.trans hb.symm)
      (by rw [h4', hsum, Nat.zero_add]; exact hfit)
    refine ⟨s, hunf.trans c1, ?_, c3, by rw [c4, h4', hsum, Nat.zero_add]⟩
    have : (fun x => 1 * (((List.finRange n).zip (List.ofFn ε)).map (fun e => f x e.1 ^ e.2)).prod) = fun x => ∏ i, f x i ^ ε i := by
      funext x
      rw [zip_finRange, List.map_ofFn, List.prod_ofFn, one_mul]; rfl
    rwa [this] at c2
  · intro hfit
    rw [hunf]
    exact powMultiLoop_toobig hp _ one _ h2' (h3.trans hb.symm) (by rw [h4', hsum, Nat.zero_add]; exact hfit)

theorem powMulti_length {n : Nat} (p : Obj (Fin n → K)) (exp : List Nat) (h : exp.length ≠ n) :
    p.powMulti exp = .error .assertion := by
  unfold Obj.powMulti
  have hd : decide (exp.length = n) = false := by simp [h]
  cases p.basis with
  | monomial => simp only [powMultiMonomial]; rw [hd]; rfl
  | bernstein => simp only [powMultiBernstein, powMultiBernsteinAux]; rw [hd]; rfl
  | lagrange => simp only [powMultiLagrange]; rw [hd]; rfl

omit [DecidableEq K] [CharZero K] [Field K] in
theorem find_ofFn {n : Nat} (ε : Fin n → ℕ) (h : ∑ i, ε i ≠ 0) :
    ∃ i, ((List.finRange n).zip (List.ofFn ε)).find? (fun e => e.2 ≠ 0) = some (i, ε i) ∧ ε i ≠ 0 := by
  rw [zip_finRange]
  obtain ⟨j, _, hj⟩ := Finset.exists_ne_zero_of_sum_ne_zero h
  rcases hc : (List.ofFn fun i => (i, ε i)).find? (fun e => e.2 ≠ 0) with _ | e
  · have := List.find?_eq_none.1 hc (j, ε j) (List.mem_ofFn.2 ⟨j, rfl⟩)
    simp [hj] at this
  · have h1 := List.mem_of_find?_eq_some hc
    have h2 := List.find?_some hc
    obtain ⟨i, rfl⟩ := List.mem_ofFn.1 h1
    exact ⟨i, hc, by simpa using h2⟩

theorem powMultiBernsteinAux_rep {n : Nat} {p : Obj (Fin n → K)} {m : Nat} {f : (Fin m → K) → (Fin n → K)} (hp : Represents p m f)
    (hb : p.basis = .bernstein) : ∀ (fuel : Nat) (ε : Fin n → ℕ), ∑ i, ε i < fuel →
    (Fits (p.r * ∑ i, ε i) m → ∃ s, powMultiBernsteinAux p fuel (List.ofFn ε) = .ok s ∧
      Represents s m (fun x => ∏ i, f x i ^ ε i) ∧ s.basis = p.basis ∧ s.r = p.r * ∑ i, ε i) ∧
    (¬ Fits (p.r * ∑ i, ε i) m → powMultiBernsteinAux p fuel (List.ofFn ε) = .error .assertion) := by
  intro fuel
  induction fuel with
  | zero => intro ε h; omega
  | succ fuel ih =>
    intro ε hfuel
    simp only [powMultiBernsteinAux, List.length_ofFn, decide_true, pyAssert_true, Py.bind_ok]
    have hnorm : MI.norm (List.ofFn ε) = ∑ i, ε i := by rw [show MI.norm (List.ofFn ε) = (List.ofFn ε).sum from rfl, List.sum_ofFn]
    by_cases h0 : ∑ i, ε i = 0
    · rw [if_pos (hnorm.trans h0)]
      have hz : ∀ i, ε i = 0 := fun i => by
        have := Finset.sum_eq_zero_iff.1 h0 i (Finset.mem_univ i); exact this
      have hnew : Obj.new .bernstein [(1 : K)] (some 0) p.m = .ok (mkObj .bernstein m 0 (fun _ => 1)) := by
        rw [hp.dim, show [(1 : K)] = tab m 0 (fun _ => 1) by simp [tab, mis_zero_right]]
        exact new_mk _ _ _ _ (fits_zero m)
      refine ⟨fun _ => ⟨_, hnew, ?_, hb.symm, by simp [mkObj, h0]⟩, fun h => absurd (by rw [h0]; simpa using fits_zero m) h⟩
      have : (fun x => ∏ i, f x i ^ ε i) = val (K := K) .bernstein m 0 (fun _ => 1) := by
        funext x; rw [val_bernstein_one]; simp [hz]
      rw [this]; exact rep_mk _ _ _ _ (fits_zero m)
    · rw [if_neg (fun h => h0 (hnorm.symm.trans h))]
      obtain ⟨i, hi, hne⟩ := find_ofFn ε h0
      rw [hi]
      obtain ⟨pi, c1, c2, c3, c4⟩ := component_rep hp i
      have c1' : Obj.new .bernstein (p.coeff.map (fun c => c i)) (some p.r) p.m = .ok pi := by
        rw [← hb]; exact c1
      simp only
      rw [c1']
      simp only [Py.bind_ok]
      rw [unit_ok n i i.2]
      simp only [Py.bind_ok]
      have hle : (Pi.single i 1 : Fin n → ℕ) ≤ ε := by
        intro j
        by_cases hj : j = i
        · subst hj; simp; omega
        · simp [Pi.single_apply, hj]
      have hunit : (MI.zero n).set i 1 = List.ofFn (Pi.single i 1 : Fin n → ℕ) := by
        apply List.ext_getElem
        · simp [MI.zero]
        · intro k h1 h2
          simp only [List.length_ofFn] at h2
          rw [List.getElem_set]
          by_cases hk : (i : Nat) = k
          · rw [if_pos hk]; simp [Pi.single_apply, Fin.ext_iff, hk]
          · rw [if_neg hk]; simp [MI.zero, Pi.single_apply, Fin.ext_iff, Ne.symm hk]
      rw [hunit, sub_ofFn hle]
      simp only [Py.bind_ok]
      have hsum : ∑ j, (ε - (Pi.single i 1 : Fin n → ℕ)) j = ∑ j, ε j - 1 := by
        rw [sum_sub hle]; simp
      have hprod : (fun x => f x i * ∏ j, f x j ^ (ε - (Pi.single i 1 : Fin n → ℕ)) j) = fun x => ∏ j, f x j ^ ε j := by
        funext x
        rw [← Finset.mul_prod_erase Finset.univ (fun j => f x j ^ (ε - (Pi.single i 1 : Fin n → ℕ)) j) (Finset.mem_univ i),
          ← Finset.mul_prod_erase Finset.univ (fun j => f x j ^ ε j) (Finset.mem_univ i), ← mul_assoc]
        congr 1
        · simp only [Pi.sub_apply, Pi.single_eq_same]
          rw [← pow_succ', Nat.sub_add_cancel (by omega)]
        · refine Finset.prod_congr rfl (fun j hj => ?_)
          simp [Pi.single_apply, (Finset.mem_erase.1 hj).1]
      obtain ⟨ih1, ih2⟩ := ih (ε - (Pi.single i 1 : Fin n → ℕ)) (by rw [hsum]; omega)
      have hdeg : p.r + p.r * (∑ j, ε j - 1) = p.r * ∑ j, ε j := by
        rw [Nat.add_comm, ← Nat.mul_succ, Nat.succ_eq_add_one, Nat.sub_add_cancel (by omega)]
      have hmul : ∀ q : Obj K, mulBernstein pi q = pi.mul q := fun q => by unfold Obj.mul; rw [c3, hb]
      constructor
      · intro hfit
        obtain ⟨s, e1, e2, e3, e4⟩ := ih1 (hfit.mono (by rw [hsum]; omega))
        rw [e1]
        simp only [Py.bind_ok, hmul]
        obtain ⟨t, g1, g2, g3, g4⟩ := mul_rep c2 e2 (Or.inr (c3.trans e3.symm)) (by rw [c4, e4, hsum, hdeg]; exact hfit)
        exact ⟨t, g1, hprod ▸ g2, g3.trans c3, by rw [g4, c4, e4, hsum, hdeg]⟩
      · intro hfit
        by_cases hf1 : Fits (p.r * ∑ j, (ε - (Pi.single i 1 : Fin n → ℕ)) j) m
        · obtain ⟨s, e1, e2, e3, e4⟩ := ih1 hf1
          rw [e1]
          simp only [Py.bind_ok, hmul]
          exact mul_toobig c2 e2 (Or.inr (c3.trans e3.symm)) (by rw [c4, e4, hsum, hdeg]; exact hfit)
        · rw [ih2 hf1]; rfl

theorem powMultiLagrange_rep {n : Nat} {p : Obj (Fin n → K)} {m : Nat} {f : (Fin m → K) → (Fin n → K)} (hp : Represents p m f)
    (ε : Fin n → ℕ) :
    (Fits (p.r * ∑ i, ε i) m → ∃ s, powMultiLagrange p (List.ofFn ε) = .ok s ∧
      Represents s m (fun x => ∏ i, f x i ^ ε i) ∧ s.basis = .lagrange ∧ s.r = p.r * ∑ i, ε i) ∧
    (¬ Fits (p.r * ∑ i, ε i) m → powMultiLagrange p (List.ofFn ε) = .error .assertion) := by
  have hpoly : IsPoly m (p.r * ∑ i, ε i) (fun x => ∏ i, f x i ^ ε i) := by
    rw [Finset.mul_sum]
    refine isPoly_finset_prod _ _ _ (fun i _ => ?_)
    obtain ⟨pi, _, c2, _, c4⟩ := component_rep hp i
    have := c2.isPoly
    rw [c4] at this
    exact this.pow (ε i)
  have hunf : powMultiLagrange p (List.ofFn ε) = Obj.new .lagrange (tab m (p.r * ∑ i, ε i) (fun ν =>
      (fun x => ∏ i, f x i ^ ε i) (fun i => ((ν.getD i 0 : Nat) : K) / ((p.r * ∑ i, ε i : Nat) : K)))) (some (p.r * ∑ i, ε i)) m := by
    unfold powMultiLagrange
    simp only [List.length_ofFn, decide_true, pyAssert_true, Py.bind_ok]
    rw [show MI.norm (List.ofFn ε) = ∑ i, ε i by rw [show MI.norm (List.ofFn ε) = (List.ofFn ε).sum from rfl, List.sum_ofFn], hp.dim]
    rw [lagrange_sample m (p.r * ∑ i, ε i) _ (fun x => ∏ i, f x i ^ ε i)]
    · simp only [Py.bind_ok]
    · intro x
      rw [hp.value x]
      simp only [Py.bind_ok]
      rw [power_eq _ _ (by simp)]
      congr 1
      exact monomial_ofFn (f x) ε
  constructor
  · intro hfit
    refine ⟨_, hunf.trans (new_mk _ _ _ _ hfit), ?_, rfl, rfl⟩
    have := rep_mk (K := K) .lagrange m (p.r * ∑ i, ε i) (fun ν =>
      (fun x => ∏ i, f x i ^ ε i) (fun i => ((ν.getD i 0 : Nat) : K) / ((p.r * ∑ i, ε i : Nat) : K))) hfit
    rwa [funext (val_sampled hpoly)] at this
  · intro hfit
    exact hunf.trans (new_mk_error _ _ _ _ hfit)

theorem powMulti_rep {n : Nat} {p : Obj (Fin n → K)} {m : Nat} {f : (Fin m → K) → (Fin n → K)} (hp : Represents p m f)
    (ε : Fin n → ℕ) :
    (Fits (p.r * ∑ i, ε i) m → ∃ s, p.powMulti (List.ofFn ε) = .ok s ∧
      Represents s m (fun x => ∏ i, f x i ^ ε i) ∧ s.basis = p.basis ∧ s.r = p.r * ∑ i, ε i) ∧
    (¬ Fits (p.r * ∑ i, ε i) m → p.powMulti (List.ofFn ε) = .error .assertion) := by
  unfold Obj.powMulti
  cases hb : p.basis with
  | monomial => simpa only [hb] using powMultiMonomial_rep hp hb ε
  | bernstein =>
    simp only [powMultiBernstein]
    rw [show MI.norm (List.ofFn ε) = ∑ i, ε i by rw [show MI.norm (List.ofFn ε) = (List.ofFn ε).sum from rfl, List.sum_ofFn]]
    simpa only [hb] using powMultiBernsteinAux_rep hp hb (∑ i, ε i + 1) ε (by omega)
  | lagrange => exact powMultiLagrange_rep hp ε

/-! ## Conversion to the monomial basis -/

theorem sumScaled_rep {m : Nat} : ∀ (l : List (V × Obj K)) (gs : List ((Fin m → K) → K)) (r : Nat) (acc : Obj V) (f : (Fin m → K) → V),
    l.length = gs.length →
    (∀ e ∈ l.zip gs, Represents e.1.2 m e.2 ∧ e.1.2.basis = .monomial ∧ e.1.2.r = r) →
    Represents acc m f → acc.basis = .monomial → acc.r ≤ r →
    ∃ s, sumScaled K l acc = .ok s ∧ Represents s m (fun x => f x + ((l.zip gs).map (fun e => e.2 x • e.1.1)).sum) ∧
      s.basis = .monomial ∧ s.r = if l = [] then acc.r else r := by
  intro l
  induction l with
  | nil =>
    intro gs r acc f _ _ hacc hb _
    exact ⟨acc, rfl, by simpa using hacc, hb, by simp⟩
  | cons a l ih =>
    obtain ⟨a, b⟩ := a
    intro gs r acc f hlen hall hacc hb hr
    obtain _ | ⟨g, gs⟩ := gs
    · simp at hlen
    simp only [List.zip_cons_cons, List.mem_cons, forall_eq_or_imp] at hall
    obtain ⟨⟨h1, h2, h3⟩, hall⟩ := hall
    simp only [sumScaled]
    obtain ⟨t, t1, t2, t3, t4⟩ := scale_rep h1 a
    rw [t1]; simp only [Py.bind_ok]
    obtain ⟨u, u1, u2, u3, u4⟩ := add_rep hacc t2 (by rw [hb, t3, h2])
    rw [u1]; simp only [Py.bind_ok]
    have u4' : u.r = r := by rw [u4, t4, h3]; exact max_eq_right hr
    obtain ⟨s, s1, s2, s3, s4⟩ := ih gs r u _ (by simpa using hlen) hall u2 (u3.trans hb) u4'.le
    refine ⟨s, s1, ?_, s3, ?_⟩
    · simpa only [List.zip_cons_cons, List.map_cons, List.sum_cons, add_assoc] using s2
    · rw [s4, u4']; simp

/-- A conversion to the monomial basis through the monomial forms of the basis functions. -/
theorem toMonomial_of_basis {p : Obj V} {m : Nat} {f : (Fin m → K) → V} (hp : Represents p m f) (basisFns : List (Obj K))
    (B : List Nat → Obj K) (hB : basisFns = (mis m p.r).map B)
    (hrep : ∀ ν ∈ mis m p.r, Represents (B ν) m (fun x => basisFn p.basis p.r (List.ofFn x) ν) ∧ (B ν).basis = .monomial ∧
      (B ν).r = p.r) :
    ∃ s, (do let z ← zeroPolynomial .monomial V 0 p.m
             sumScaled K (p.coeff.zip basisFns) z) = .ok s ∧ Represents s m f ∧ s.basis = .monomial ∧ s.r = p.r := by
  obtain ⟨c, hpc, hfc, hfit⟩ := hp.exists_mk
  obtain ⟨z, z1, z2, z3, z4⟩ := zero_rep (K := K) .monomial V 0 m (fits_zero m)
  rw [hp.dim, z1]
  simp only [Py.bind_ok]
  have hcoeff : p.coeff = tab m p.r c := by rw [hpc]; rfl
  have hzip : p.coeff.zip basisFns = (mis m p.r).map (fun ν => (c ν, B ν)) := by
    rw [hcoeff, hB]; unfold tab; rw [List.zip_map', ]
  obtain ⟨s, s1, s2, s3, s4⟩ := sumScaled_rep (p.coeff.zip basisFns)
    ((mis m p.r).map (fun ν (x : Fin m → K) => basisFn p.basis p.r (List.ofFn x) ν)) p.r z _
    (by rw [hzip]; simp)
    (by
      rw [hzip, List.zip_map']
      intro e he
      obtain ⟨ν, hν, rfl⟩ := List.mem_map.1 he
      exact hrep ν hν)
    z2 z3 (by rw [z4]; omega)
  refine ⟨s, s1, ?_, s3, ?_⟩
  · rw [hzip, List.zip_map'] at s2
    simp only [List.map_map, zero_add] at s2
    have : (fun x => ((mis m p.r).map ((fun e : (V × Obj K) × ((Fin m → K) → K) => e.2 x • e.1.1) ∘
        fun ν => ((c ν, B ν), fun (x : Fin m → K) => basisFn p.basis p.r (List.ofFn x) ν))).sum) = f := by
      funext x
      rw [hfc]
      exact sum_mis m p.r (fun ν => basisFn p.basis p.r (List.ofFn x) ν • c ν)
    rwa [this] at s2
  · rw [s4, if_neg]
    rw [hzip]
    intro h
    have := List.map_eq_nil_iff.1 h
    have h0 := getDimension_pos p.r m
    rw [← length_mis_eq, this] at h0
    simp at h0

theorem lagrangeBasisFnMonomial_eq (ν : List Nat) (r m : Nat) (hl : ν.length = m) (hs : ν.sum ≤ r) (hf : Fits r m) :
    lagrangeBasisFnMonomial K ν r = .ok (mkObj .monomial m r (lagCoeff K m r ν)) := by
  unfold lagrangeBasisFnMonomial
  rw [getLagrangeBasisFnCoefficients_eq ν r hs, hl]
  exact new_mk _ _ _ _ hf

theorem lagrangeBasisFnMonomial_rep (ν : List Nat) (r m : Nat) (hl : ν.length = m) (hs : ν.sum ≤ r) (hf : Fits r m) :
    Represents (mkObj .monomial m r (lagCoeff K m r ν)) m (fun x => Spec.lagrange r (List.ofFn x) ν) := by
  have : (fun x : Fin m → K => Spec.lagrange r (List.ofFn x) ν) = val .monomial m r (lagCoeff K m r ν) := by
    funext x
    rw [lagCoeff_spec hl hs x]
    simp only [val, basisFn, monomial_ofFn]
  rw [this]
  exact rep_mk _ _ _ _ hf

/-- The coefficient of `x^(ν + μ)` in the Bernstein basis polynomial for `ν`. -/
def bernCoeff (r : Nat) (nu μ : List Nat) : Int :=
  if μ.sum % 2 = 1 then -((multinomial r nu * multinomial (r - nu.sum) μ : Nat) : Int)
  else ((multinomial r nu * multinomial (r - nu.sum) μ : Nat) : Int)

theorem bernCoeff_loop (r : Nat) (nu μ : List Nat) (hn : nu.sum ≤ r) (hm : μ.sum ≤ r - nu.sum) :
    r.factorial / MI.factorial nu / (MI.factorial μ * (r - MI.norm nu - MI.norm μ).factorial) =
      multinomial r nu * multinomial (r - nu.sum) μ := by
  rw [factorial_eq_prod, factorial_eq_prod, show MI.norm nu = nu.sum from rfl, show MI.norm μ = μ.sum from rfl]
  have h1 := multinomial_mul r nu hn
  have h2 := multinomial_mul (r - nu.sum) μ hm
  have p1 : 0 < (nu.map Nat.factorial).prod := by rw [← factorial_eq_prod]; exact factorial_pos nu
  have p2 := factorials_pos (r - nu.sum) μ
  have e1 : r.factorial = multinomial r nu * (r - nu.sum).factorial * (nu.map Nat.factorial).prod := by rw [← h1]; ring
  rw [e1, Nat.mul_div_cancel _ p1, ← h2, ← Nat.mul_assoc, Nat.mul_div_cancel _ p2]

theorem zipWith_add_inj {m : Nat} {μ μ' nu : List Nat} (h1 : μ.length = m) (h2 : μ'.length = m) (h3 : nu.length = m)
    (h : List.zipWith (· + ·) μ nu = List.zipWith (· + ·) μ' nu) : μ = μ' := by
  obtain ⟨a, rfl⟩ := eq_ofFn h1
  obtain ⟨b, rfl⟩ := eq_ofFn h2
  obtain ⟨c, rfl⟩ := eq_ofFn h3
  rw [zipWith_add_ofFn, zipWith_add_ofFn] at h
  rw [add_right_cancel (List.ofFn_injective h)]

theorem bernsteinMonomialLoop_tab (m r : Nat) (nu : List Nat) (hnu : nu.length = m) (hn : nu.sum ≤ r) :
    ∀ (l : List (List Nat)) (c : List Nat → Int), l.Nodup → (∀ μ ∈ l, μ.length = m ∧ μ.sum ≤ r - nu.sum) →
    (∀ μ ∈ l, c (List.zipWith (· + ·) μ nu) = 0) →
    bernsteinMonomialLoop nu r l (tab m r c) = .ok (tab m r (fun τ => c τ +
      (l.map (fun μ => if List.zipWith (· + ·) μ nu = τ then bernCoeff r nu μ else 0)).sum)) := by
  intro l
  induction l with
  | nil => intro c _ _ _; simp [bernsteinMonomialLoop]
  | cons μ l ih =>
    intro c hnd hall hz
    have hμ := hall μ (by simp)
    simp only [bernsteinMonomialLoop]
    rw [add_natCast]
    simp only [Py.bind_ok]
    have hsum : (List.zipWith (· + ·) μ nu).sum = μ.sum + nu.sum := sum_zipWith_add μ nu (by rw [hμ.1, hnu])
    obtain ⟨i, i1, _, _, i4⟩ := index_tab (W := Int) (m := m) (r := r) (ν := List.zipWith (· + ·) μ nu)
      (by rw [List.length_zipWith, hμ.1, hnu, Nat.min_self]) (by rw [hsum]; omega)
    rw [i1]
    simp only [Py.bind_ok]
    rw [i4]
    simp only [Py.bind_ok]
    rw [bernCoeff_loop r nu μ hn hμ.2]
    rw [List.nodup_cons] at hnd
    rw [ih _ hnd.2 (fun μ' h' => hall μ' (by simp [h'])) ?_]
    · congr 1
      apply tab_congr
      intro τ _ _
      simp only [List.map_cons, List.sum_cons, ← add_assoc]
      congr 1
      by_cases hτ : τ = List.zipWith (· + ·) μ nu
      · rw [if_pos hτ, if_pos hτ.symm, hτ, hz μ (by simp), zero_add]; rfl
      · rw [if_neg hτ, if_neg (Ne.symm hτ), add_zero]
    · intro μ' h'
      rw [if_neg, hz μ' (by simp [h'])]
      intro heq
      exact hnd.1 (zipWith_add_inj (hall μ' (by simp [h'])).1 hμ.1 hnu heq ▸ h')

/-- The monomial coefficients of the Bernstein basis polynomial for `nu`. -/
def bernMono (K : Type) [Field K] (m r : Nat) (nu : List Nat) (τ : List Nat) : K :=
  ((((mis m (r - nu.sum)).map (fun μ => if List.zipWith (· + ·) μ nu = τ then bernCoeff r nu μ else 0)).sum : Int) : K)

omit [CharZero K] [DecidableEq K] in
theorem bernsteinBasisFnMonomial_eq (ν : List Nat) (r m : Nat) (hl : ν.length = m) (hs : ν.sum ≤ r) (hf : Fits r m) :
    bernsteinBasisFnMonomial K ν r = .ok (mkObj .monomial m r (bernMono K m r ν)) := by
  unfold bernsteinBasisFnMonomial
  have h1 : MI.generateAll? ν.length ((r : Int) - (MI.norm ν : Int)) = .ok (mis m (r - ν.sum)) := by
    rw [show MI.norm ν = ν.sum from rfl, show (r : Int) - (ν.sum : Int) = ((r - ν.sum : Nat) : Int) by omega, hl]
    rw [generateAll?, if_pos (by omega), generateAll_eq_mis]; rfl
  simp only [h1, Py.bind_ok]
  rw [hl, replicate_tab, bernsteinMonomialLoop_tab m r ν hl hs _ _ (nodup_mis _ _) (fun μ h => mem_mis.1 h) (fun _ _ => rfl)]
  simp only [Py.bind_ok, zero_add]
  have : (tab m r (fun τ => ((mis m (r - ν.sum)).map (fun μ => if List.zipWith (· + ·) μ ν = τ then bernCoeff r ν μ else 0)).sum)).map
      (fun c : Int => (c : K)) = tab m r (bernMono K m r ν) := by
    unfold tab; rw [List.map_map]; rfl
  rw [this]
  exact new_mk _ _ _ _ hf

omit [CharZero K] [DecidableEq K] in
theorem bernMono_val (ν : List Nat) (r m : Nat) (hl : ν.length = m) (hs : ν.sum ≤ r) (x : Fin m → K) :
    val .monomial m r (bernMono K m r ν) x = Spec.bernstein r (List.ofFn x) ν := by
  obtain ⟨n, rfl⟩ := eq_ofFn hl
  rw [List.sum_ofFn] at hs
  simp only [val, basisFn, monomial_ofFn, bernMono, bernstein_ofFn, List.sum_ofFn]
  simp only [sum_mis, Int.cast_sum, zipWith_add_ofFn, smul_eq_mul, Finset.mul_sum]
  rw [Finset.sum_comm]
  have h1 := multinomial_theorem (K := K) m (r - ∑ i, n i) (fun i => - x i) 1
  have h2 : (1 : K) + ∑ i, -x i = 1 - ∑ i, x i := by rw [Finset.sum_neg_distrib]; ring
  rw [h2] at h1
  rw [← h1, Finset.mul_sum, Finset.mul_sum]
  refine Finset.sum_congr rfl (fun μ hμ => ?_)
  have hmem : μ + n ∈ S m r := by
    rw [mem_S] at hμ ⊢
    simp only [Pi.add_apply, Finset.sum_add_distrib]; omega
  rw [Finset.sum_eq_single (μ + n)]
  · rw [if_pos rfl]
    have hsign : ∏ i, (-x i) ^ μ i = (-1) ^ (∑ i, μ i) * ∏ i, x i ^ μ i := by
      rw [← Finset.prod_pow_eq_pow_sum, ← Finset.prod_mul_distrib]
      exact Finset.prod_congr rfl (fun i _ => by rw [← mul_pow, neg_one_mul])
    have hb : ((bernCoeff r (List.ofFn n) (List.ofFn μ) : Int) : K) = (-1) ^ (∑ i, μ i) *
        ((multinomial r (List.ofFn n) : K) * (multinomial (r - ∑ i, n i) (List.ofFn μ) : K)) := by
      unfold bernCoeff
      rw [List.sum_ofFn, List.sum_ofFn]
      rcases Nat.mod_two_eq_zero_or_one (∑ i, μ i) with h0 | h0
      · rw [if_neg (by omega), (Nat.even_iff.2 h0).neg_one_pow]; push_cast; ring
      · rw [if_pos h0, (Nat.odd_iff.2 h0).neg_one_pow]; push_cast; ring
    rw [hb, hsign]
    simp only [Pi.add_apply, pow_add, Finset.prod_mul_distrib, one_pow]
    ring
  · intro τ _ hne
    rw [if_neg (fun h => hne (List.ofFn_injective h).symm)]; simp
  · intro h; exact absurd hmem h

theorem bernsteinBasisFnMonomial_rep (ν : List Nat) (r m : Nat) (hl : ν.length = m) (hs : ν.sum ≤ r) (hf : Fits r m) :
    Represents (mkObj .monomial m r (bernMono K m r ν)) m (fun x => Spec.bernstein r (List.ofFn x) ν) := by
  rw [← funext (bernMono_val (K := K) ν r m hl hs)]
  exact rep_mk _ _ _ _ hf

theorem toMonomialBasis_rep {p : Obj V} {m : Nat} {f : (Fin m → K) → V} (hp : Represents p m f) :
    ∃ s, p.toMonomialBasis K = .ok s ∧ Represents s m f ∧ s.basis = .monomial ∧ s.r = p.r := by
  have hfit := hp.fits
  cases hb : p.basis with
  | monomial => exact ⟨p, by unfold Obj.toMonomialBasis; rw [hb], hp, hb, rfl⟩
  | bernstein =>
    have h1 : bernsteinBasisMonomial K p.r p.m = .ok ((mis m p.r).map (fun ν => mkObj .monomial m p.r (bernMono K m p.r ν))) := by
      unfold bernsteinBasisMonomial
      rw [generateAll_eq_mis, hp.dim]
      exact mapM_eq_ok _ _ (fun ν hν => bernsteinBasisFnMonomial_eq ν p.r m (mem_mis.1 hν).1 (mem_mis.1 hν).2 hfit)
    unfold Obj.toMonomialBasis
    rw [hb]
    simp only [h1, Py.bind_ok]
    refine toMonomial_of_basis hp _ _ rfl (fun ν hν => ⟨?_, rfl, rfl⟩)
    rw [hb]
    exact bernsteinBasisFnMonomial_rep ν p.r m (mem_mis.1 hν).1 (mem_mis.1 hν).2 hfit
  | lagrange =>
    have h1 : lagrangeBasisMonomial K p.r p.m = .ok ((mis m p.r).map (fun ν => mkObj .monomial m p.r (lagCoeff K m p.r ν))) := by
      unfold lagrangeBasisMonomial
      rw [generateAll_eq_mis, hp.dim]
      exact mapM_eq_ok _ _ (fun ν hν => lagrangeBasisFnMonomial_eq ν p.r m (mem_mis.1 hν).1 (mem_mis.1 hν).2 hfit)
    unfold Obj.toMonomialBasis
    rw [hb]
    simp only [h1, Py.bind_ok]
    refine toMonomial_of_basis hp _ _ rfl (fun ν hν => ⟨?_, rfl, rfl⟩)
    rw [hb]
    exact lagrangeBasisFnMonomial_rep ν p.r m (mem_mis.1 hν).1 (mem_mis.1 hν).2 hfit

end Verif.Poly
