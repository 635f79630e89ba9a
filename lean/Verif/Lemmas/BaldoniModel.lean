import Verif.Lemmas.Baldoni
import Verif.Lemmas.MultiIndexOps
/-!
# `integrate_homogeneous_polynomial_simplex` computes the integral
-/

namespace Verif.Integration
open Verif Verif.Poly Verif.MI MeasureTheory Finset

theorem foldlM_sum {ι : Type} {V : Type} [AddCommGroup V] (f : V → ι → Py V) (g : ι → V) : ∀ (l : List ι) (c : V),
    (∀ x ∈ l, ∀ c, f c x = .ok (c + g x)) → l.foldlM f c = .ok (c + (l.map g).sum) := by
  intro l
  induction l with
  | nil => intro c _; simp [List.foldlM]
  | cons a l ih =>
    intro c h
    rw [List.foldlM_cons, h a (by simp) c]
    simp only [Py.bind_ok, List.map_cons, List.sum_cons]
    rw [ih _ (fun x hx => h x (by simp [hx])), add_assoc]

/-- Sum over the non-decreasing tuples. -/
theorem sum_nonDecreasing (q n : ℕ) (g : List Nat → ℝ) :
    ((generateAllNonDecreasing q n).map g).sum =
      ∑ i : {i : Fin q → Fin (n + 1) // Monotone i}, g (List.ofFn (fun k => (i.1 k : ℕ))) := by
  have hnd : (generateAllNonDecreasing q n).Nodup := (nodup_generateAllMultiCap _).filter _
  have hmem : ∀ a, a ∈ generateAllNonDecreasing q n ↔ a.length = q ∧ (∀ x ∈ a, x ≤ n) ∧ a.Pairwise (· ≤ ·) := by
    intro a
    rw [generateAllNonDecreasing, List.mem_filter, mem_generateAllMultiCap, isCapped_replicate, isNonDecreasing_iff, and_assoc]
  rw [← List.sum_toFinset g hnd]
  symm
  apply Finset.sum_bij (fun (i : {i : Fin q → Fin (n + 1) // Monotone i}) _ => List.ofFn (fun k => (i.1 k : ℕ)))
  · intro i _
    rw [List.mem_toFinset, hmem]
    refine ⟨List.length_ofFn, ?_, ?_⟩
    · intro x hx
      rw [List.mem_ofFn] at hx
      obtain ⟨k, rfl⟩ := hx
      have := (i.1 k).2; omega
    · rw [List.pairwise_ofFn]
      intro a b hab
      exact i.2 hab.le
  · intro i _ j _ h
    apply Subtype.ext
    funext k
    exact Fin.ext (congrFun (List.ofFn_injective h) k)
  · intro a ha
    rw [List.mem_toFinset, hmem] at ha
    obtain ⟨hl, hle, hp⟩ := ha
    subst hl
    refine ⟨⟨fun k => ⟨a[k], by have := hle a[k] (List.getElem_mem _); omega⟩, ?_⟩, Finset.mem_univ _, ?_⟩
    · intro b c hbc
      rcases eq_or_lt_of_le hbc with rfl | h
      · exact le_refl _
      · exact List.pairwise_iff_getElem.1 hp _ _ _ _ h
    · exact List.ofFn_getElem
  · intro i _; rfl

/-- Sum over the tuples of signs. -/
theorem sum_signs (q : ℕ) (ts : List (List Int)) (hnd : ts.Nodup)
    (hmem : ∀ y, y ∈ ts ↔ y.length = q ∧ ∀ x ∈ y, x ∈ ([1, -1] : List Int)) (g : List Int → ℝ) (G : (Fin q → ℝ) → ℝ)
    (hg : ∀ E : Fin q → Int, g (List.ofFn E) = G (fun k => (E k : ℝ))) :
    (ts.map g).sum = ∑ e ∈ Fintype.piFinset (fun _ : Fin q => ({1, -1} : Finset ℝ)), G e := by
  rw [← List.sum_toFinset g hnd]
  apply Finset.sum_bij (fun (y : List Int) _ => fun k : Fin q => ((y.getD k 0 : Int) : ℝ))
  · intro y hy
    rw [List.mem_toFinset, hmem] at hy
    rw [Fintype.mem_piFinset]
    intro k
    rw [List.getD_eq_getElem _ _ (by rw [hy.1]; exact k.2)]
    have := hy.2 y[k.1] (List.getElem_mem _)
    simp only [List.mem_cons, List.not_mem_nil, or_false] at this
    rcases this with h | h <;> simp [h]
  · intro y hy z hz h
    rw [List.mem_toFinset, hmem] at hy hz
    apply List.ext_getElem (by rw [hy.1, hz.1])
    intro k h1 h2
    have := congrFun h ⟨k, by rw [← hy.1]; exact h1⟩
    simp only [List.getD_eq_getElem _ _ h1, List.getD_eq_getElem _ _ h2] at this
    exact_mod_cast this
  · intro e he
    rw [Fintype.mem_piFinset] at he
    have hE : ∀ k, ∃ x ∈ ([1, -1] : List Int), (x : ℝ) = e k := by
      intro k
      have := he k
      simp only [Finset.mem_insert, Finset.mem_singleton] at this
      rcases this with h | h
      · exact ⟨1, by simp, by simp [h]⟩
      · exact ⟨-1, by simp, by simp [h]⟩
    choose E hE1 hE2 using hE
    refine ⟨List.ofFn E, ?_, ?_⟩
    · rw [List.mem_toFinset, hmem]
      refine ⟨List.length_ofFn, fun x hx => ?_⟩
      rw [List.mem_ofFn] at hx
      obtain ⟨k, rfl⟩ := hx
      exact hE1 k
    · funext k
      rw [List.getD_eq_getElem _ _ (by simp)]
      simp [hE2]
  · intro y hy
    rw [List.mem_toFinset, hmem] at hy
    rw [← hg]
    congr 1
    apply List.ext_getElem
    · simp [hy.1]
    · intro k h1 h2
      simp [h1]

theorem getE_ofFn {α : Type} {m : ℕ} (f : Fin m → α) (k : Fin m) : getE (List.ofFn f) (k : ℕ) = .ok (f k) := by
  simp [getE]

theorem signedTerm_eq {q n : ℕ} (ν : Fin n → ℕ) (v : Fin (n + 1) → Fin n → ℝ) (I : Fin q → Fin (n + 1)) (E : Fin q → Int) :
    signedTerm (List.ofFn ν) v (List.ofFn (fun k => (I k : ℕ))) (List.ofFn E) =
      .ok ((∏ k, (E k : ℝ)) * ∏ t, (∑ k, (E k : ℝ) • v (I k)) t ^ ν t) := by
  unfold signedTerm
  have hw : (List.ofFn E).foldl (fun (w : ℝ) (e : Int) => w * (e : ℝ)) 1 = ∏ k, (E k : ℝ) := by
    have := List.foldl_map (f := fun x : Int => (x : ℝ)) (g := fun (w : ℝ) (e : ℝ) => w * e) (l := List.ofFn E) (init := 1)
    rw [← this, ← List.prod_eq_foldl, List.map_ofFn, List.prod_ofFn]
    rfl
  have hx : (List.ofFn E).zipIdx.foldlM (m := Py) (fun (x : Fin n → ℝ) (e : Int × Nat) => (do
      let ik ← getE (List.ofFn (fun k => (I k : ℕ))) e.2
      let vk ← getE (List.ofFn v) ik
      return x + (e.1 : ℝ) • vk)) 0 = .ok (∑ k, (E k : ℝ) • v (I k)) := by
    have hz : (List.ofFn E).zipIdx = List.ofFn (fun k : Fin q => (E k, (k : ℕ))) := by
      apply List.ext_getElem
      · simp
      · intro k h1 h2; simp
    rw [foldlM_sum _ (fun e => (e.1 : ℝ) • v (if h : e.2 < q then I ⟨e.2, h⟩ else 0))]
    · rw [zero_add, hz, List.map_ofFn, List.sum_ofFn]
      congr 1
      refine Finset.sum_congr rfl (fun k _ => ?_)
      simp
    · intro e he c
      rw [hz, List.mem_ofFn] at he
      obtain ⟨k, rfl⟩ := he
      simp only [getE_ofFn, Py.bind_ok, Py.pure_eq, k.2, dite_true]
  rw [hw, hx]
  simp only [Py.bind_ok, Py.pure_eq]
  rw [power_eq _ _ (by simp)]
  simp only [Py.bind_ok]
  have h := monomial_ofFn (∑ k, (E k : ℝ) • v (I k)) ν
  rw [Spec.monomial] at h
  rw [h]

theorem exists_ofFn {α : Type} {l : List α} {m : ℕ} (h : l.length = m) : ∃ E : Fin m → α, l = List.ofFn E := by
  subst h
  exact ⟨fun k => l[k], List.ofFn_getElem.symm⟩

theorem volume_eq {n : ℕ} (v : Fin (n + 1) → Fin n → ℝ) : Simplex.volume v = |(edges v).det| / (n.factorial : ℝ) := by
  unfold Simplex.volume Simplex.signedVolume
  rw [abs_div, Nat.abs_cast]
  rfl

/-- One step of the outer loop. -/
theorem outer_step {q n : ℕ} (hq : q ≠ 0) (ν : Fin n → ℕ) (v : Fin (n + 1) → Fin n → ℝ) (I : Fin q → Fin (n + 1)) (c : ℝ) :
    (if q = 1 then
      sumLoop (fun (eps : Int) => (do
        let i0 ← getE (List.ofFn (fun k => (I k : ℕ))) 0
        let v0 ← getE (List.ofFn v) i0
        let f ← MI.power (List.ofFn ((eps : ℝ) • v0)) (List.ofFn ν)
        return some ((eps : ℝ) * f))) [1, -1] c
    else
      match SetTheory.nfoldCartesianProduct ([1, -1] : List Int) q with
      | .elems _ => .error .type
      | .tuples ts => sumLoop (fun (eps : List Int) => (do
          let t ← signedTerm (List.ofFn ν) v (List.ofFn (fun k => (I k : ℕ))) eps
          return some t)) ts c) =
    .ok (c + ∑ e ∈ Fintype.piFinset (fun _ : Fin q => ({1, -1} : Finset ℝ)),
          (∏ k, e k) * ∏ t, (∑ k, e k • v (I k)) t ^ ν t) := by
  by_cases h1 : q = 1
  · subst h1
    rw [if_pos rfl]
    have h0 : getE (List.ofFn (fun k => (I k : ℕ))) 0 = .ok (I 0 : ℕ) := getE_ofFn (fun k => (I k : ℕ)) 0
    have hp : ∀ eps : Int, MI.power (List.ofFn ((eps : ℝ) • v (I 0))) (List.ofFn ν) = .ok (∏ t, ((eps : ℝ) • v (I 0)) t ^ ν t) := by
      intro eps
      rw [power_eq _ _ (by simp)]
      have h := monomial_ofFn ((eps : ℝ) • v (I 0)) ν
      rw [Spec.monomial] at h
      rw [h]
    simp only [h0, Py.bind_ok, getE_ofFn, hp, Py.pure_eq, sumLoop]
    congr 1
    rw [← sum_signs 1 [[1], [-1]] (by decide) (fun y => ?_) (fun y => (y.headD 0 : ℝ) * ∏ t, ((y.headD 0 : ℝ) • v (I 0)) t ^ ν t)
      (fun e => (∏ k, e k) * ∏ t, (∑ k, e k • v (I k)) t ^ ν t) (fun E => ?_)]
    · simp [add_assoc]
    · constructor
      · intro h
        simp only [List.mem_cons, List.not_mem_nil, or_false] at h
        rcases h with rfl | rfl <;> simp
      · rintro ⟨hl, hx⟩
        rw [List.length_eq_one_iff] at hl
        obtain ⟨a, rfl⟩ := hl
        have := hx a (by simp)
        simpa using this
    · simp
  · rw [if_neg h1]
    obtain ⟨k, rfl⟩ : ∃ k, q = k + 2 := ⟨q - 2, by omega⟩
    simp only [SetTheory.nfoldCartesianProduct]
    rw [← sum_signs (k + 2) _ (SetTheory.nodup_nfoldTuples ([1, -1] : List Int) k) (SetTheory.mem_nfoldTuples _ k)
      (fun y => match signedTerm (List.ofFn ν) v (List.ofFn (fun k => (I k : ℕ))) y with | .ok t => t | .error _ => 0)
      (fun e => (∏ k, e k) * ∏ t, (∑ k, e k • v (I k)) t ^ ν t)
      (fun E => by rw [signedTerm_eq])]
    apply sumLoop_eq
    intro y hy
    right
    rw [SetTheory.mem_nfoldTuples] at hy
    obtain ⟨hl, _⟩ := hy
    obtain ⟨E, rfl⟩ := exists_ofFn hl
    rw [signedTerm_eq]
    rfl

/-- The integral of a monomial over a simplex. -/
theorem integrateMonomialSimplex_eq {n : ℕ} (ν : Fin n → ℕ) (v : Fin (n + 1) → Fin n → ℝ) :
    integrateMonomialSimplex (List.ofFn ν) v = .ok (∫ x in Spec.simplex v, ∏ i, x i ^ ν i) := by
  rw [integral_simplex_all]
  unfold integrateMonomialSimplex
  rw [show MI.norm (List.ofFn ν) = ∑ i, ν i by rw [MI.norm, List.sum_ofFn]]
  by_cases hq : ∑ i, ν i = 0
  · simp only [hq, if_true, Py.pure_eq]
    rw [volume_eq]
    have h0 : ν = 0 := by
      funext i
      have := (Finset.sum_eq_zero_iff.1 hq) i (Finset.mem_univ i)
      exact this
    have := integral_unit_monomial (0 : Fin n → ℕ)
    simp only [Pi.zero_apply, pow_zero, Finset.prod_const_one, Finset.sum_const_zero, zero_add, Nat.factorial_zero, Nat.cast_one] at this
    simp only [h0, Pi.zero_apply, pow_zero, Finset.prod_const_one, this, smul_eq_mul]
    congr 1
    ring
  · simp only [hq, if_false]
    rw [integral_monomial_fromUnit]
    rw [foldlM_sum _ (fun i => ∑ e ∈ Fintype.piFinset (fun _ : Fin (∑ i, ν i) => ({1, -1} : Finset ℝ)),
          (∏ k, e k) * ∏ t, (∑ k, e k • v (Fin.ofNat (n + 1) (i.getD k 0))) t ^ ν t)]
    · rw [zero_add, sum_nonDecreasing]
      simp only [Py.bind_ok, Py.pure_eq]
      congr 1
      have e1 : ∀ i : Fin (∑ i, ν i) → Fin (n + 1), ∀ k : Fin (∑ i, ν i), Fin.ofNat (n + 1) ((List.ofFn (fun k => (i k : ℕ))).getD k 0) = i k := by
        intro i k
        simp
      simp only [e1]
      rw [volume_eq, smul_eq_mul]
      have hf : ((n.factorial * (∑ i, ν i).factorial * (∑ i, ν i + n).choose (∑ i, ν i) : ℕ) : ℝ) = ((∑ i, ν i + n).factorial : ℝ) := by
        congr 1
        have := Nat.add_choose_mul_factorial_mul_factorial (∑ i, ν i) n
        rw [← this, Nat.choose_symm_add]; ring
      rw [← hf]
      have e2 : (n.factorial : ℝ) ≠ 0 := Nat.cast_ne_zero.2 (Nat.factorial_ne_zero _)
      have e3 : ((∑ i, ν i).factorial : ℝ) ≠ 0 := Nat.cast_ne_zero.2 (Nat.factorial_ne_zero _)
      have e4 : ((∑ i, ν i + n).choose (∑ i, ν i) : ℝ) ≠ 0 := Nat.cast_ne_zero.2 (Nat.choose_pos (by omega)).ne'
      push_cast
      rw [div_div, mul_div_assoc', mul_div_assoc']
      congr 1
      · ring
      · ring
    · intro i hi c
      rw [generateAllNonDecreasing, List.mem_filter, mem_generateAllMultiCap, isCapped_replicate] at hi
      obtain ⟨⟨hl, hle⟩, _⟩ := hi
      obtain ⟨I, rfl⟩ : ∃ I : Fin (∑ i, ν i) → Fin (n + 1), i = List.ofFn (fun k => (I k : ℕ)) := by
        obtain ⟨I, rfl⟩ := exists_ofFn hl
        refine ⟨fun k => ⟨I k, ?_⟩, rfl⟩
        have := hle (I k) (by rw [List.mem_ofFn]; exact ⟨k, rfl⟩)
        omega
      have e1 : ∀ k : Fin (∑ i, ν i), Fin.ofNat (n + 1) ((List.ofFn (fun k => (I k : ℕ))).getD k 0) = I k := by
        intro k
        simp
      simp only [e1]
      exact outer_step hq ν v I c

theorem integrateMonomialPolynomialSimplex_tab {V : Type} [NormedAddCommGroup V] [NormedSpace ℝ V] [CompleteSpace V] {n : ℕ} (r : ℕ)
    (c : List Nat → V) (v : Fin (n + 1) → Fin n → ℝ) :
    integrateMonomialPolynomialSimplex r (tab n r c) v = .ok (∫ x in Spec.simplex v, val .monomial n r c x) := by
  have hi : ∫ x in Spec.simplex v, val .monomial n r c x =
      ∑ ν ∈ S n r, (∫ x in Spec.simplex v, ∏ i, x i ^ ν i) • c (List.ofFn ν) := by
    simp only [Poly.val, basisFn, monomial_ofFn]
    have hK : IsCompact (Spec.simplex v) := by
      rw [simplex_eq_image]
      apply (isCompact_unit n).image
      unfold Spec.fromUnit
      fun_prop
    rw [integral_finset_sum]
    · exact Finset.sum_congr rfl (fun ν _ => integral_smul_const _ _)
    · intro ν hν
      exact ContinuousOn.integrableOn_compact hK (Continuous.continuousOn (by fun_prop))
  rw [hi]
  unfold integrateMonomialPolynomialSimplex
  rw [generateAll_eq_mis]
  have h1 : ∀ ν : List Nat, ν.length = n → ∃ w, integrateMonomialSimplex ν v = .ok w := by
    intro ν hν
    obtain ⟨ν', rfl⟩ := eq_ofFn hν
    exact ⟨_, integrateMonomialSimplex_eq ν' v⟩
  let w : List Nat → ℝ := fun ν => match integrateMonomialSimplex ν v with | .ok w => w | .error _ => 0
  have hw : ∀ ν : Fin n → ℕ, w (List.ofFn ν) = ∫ x in Spec.simplex v, ∏ i, x i ^ ν i := by
    intro ν; simp only [w, integrateMonomialSimplex_eq]
  rw [sumLoop_eq _ (fun e => w e.1 • c e.1)]
  · rw [sum_zipIdx_map (mis n r) (fun ν => w ν • c ν), zero_add, sum_mis]
    congr 1
    exact Finset.sum_congr rfl (fun ν _ => by rw [hw])
  · intro e he
    obtain ⟨h2, h3, _⟩ := mem_zipIdx_mis he
    right
    obtain ⟨u, hu⟩ := h1 e.1 h3
    have : w e.1 = u := by simp only [w, hu]
    rw [getE_tab c h2, hu, this]; rfl

end Verif.Integration
