import Verif.Spec.RandomDiscrete
import Verif.Model.RandomDiscrete
import Verif.Props.Permutations
import Verif.Props.MultiIndex
import Mathlib.MeasureTheory.Measure.Real
import Mathlib.Data.List.Permutation
import Mathlib.Probability.UniformOn
import Mathlib.Probability.Independence.InfinitePi
import Mathlib.Data.Nat.Choose.Basic
/-!
# C86: random permutations, subsets and multi-indices are uniformly distributed
-/

namespace Verif.Props
open Verif Verif.Perm Verif.Spec Verif.Random MeasureTheory ProbabilityTheory

variable {Ω : Type} [MeasurableSpace Ω] {P : Measure Ω} [IsProbabilityMeasure P] {rnd : ℕ → ℕ → ℕ → Ω → ℕ}

/-- The draws of the shuffle. -/
def drawsOf (rnd : ℕ → ℕ → ℕ → Ω → ℕ) (n : ℕ) (ω : Ω) : List ℕ := (List.range (n - 1)).map fun i => rnd i 0 (n - 1 - i) ω

theorem prod_inv_factorial (n : ℕ) : ∏ i ∈ Finset.range (n - 1), (1 / ((n - 1 - i - 0 + 1 : ℕ) : ℝ)) = 1 / (n.factorial : ℝ) := by
  cases n with
  | zero => simp
  | succ n =>
    simp only [Nat.add_sub_cancel, Nat.sub_zero]
    have h := Finset.prod_range_reflect (fun i => 1 / ((i + 2 : ℕ) : ℝ)) n
    have h2 : ∏ i ∈ Finset.range n, (1 / ((n - i + 1 : ℕ) : ℝ)) = ∏ i ∈ Finset.range n, (1 / ((n - 1 - i + 2 : ℕ) : ℝ)) := by
      refine Finset.prod_congr rfl fun i hi => ?_
      have := Finset.mem_range.1 hi
      rw [show n - i + 1 = n - 1 - i + 2 by omega]
    rw [h2, h]
    clear h h2
    induction n with
    | zero => simp
    | succ n ih =>
      rw [Finset.prod_range_succ, ih, Nat.factorial_succ (n + 1)]
      push_cast
      field_simp
      ring

omit [MeasurableSpace Ω] in
theorem event_draws (n : ℕ) (ds : List ℕ) (hlen : ds.length = n - 1) :
    {ω : Ω | drawsOf rnd n ω = ds} = ⋂ i ∈ Finset.range (n - 1), rnd i 0 (n - 1 - i) ⁻¹' {ds.getD i 0} := by
  ext ω
  simp only [drawsOf, Set.mem_ofPred_eq, Set.mem_iInter, Set.mem_preimage, Set.mem_singleton_iff, Finset.mem_range]
  constructor
  · rintro rfl i hi
    simp [hi]
  · intro h
    refine List.ext_getElem (by simp [hlen]) fun i h1 h2 => ?_
    rw [List.getElem_map, List.getElem_range, h i (by omega)]
    simp [h2]

omit [IsProbabilityMeasure P] in
theorem prob_draws (h : IsRandint P rnd) (n : ℕ) (ds : List ℕ) (hds : AdmissibleDraws n ds) : P.real {ω | drawsOf rnd n ω = ds} = 1 / (n.factorial : ℝ) := by
  rw [event_draws n ds hds.1, measureReal_def, (h.indep (fun _ => 0) fun i => n - 1 - i).measure_inter_preimage_eq_mul _ fun i _ => measurableSet_singleton _, ENNReal.toReal_prod,
    ← prod_inv_factorial]
  refine Finset.prod_congr rfl fun i hi => ?_
  have hi := Finset.mem_range.1 hi
  have hlt : i < ds.length := by rw [hds.1]; exact hi
  have h1 := h.uniform i 0 (n - 1 - i) (ds.getD i 0) (Nat.zero_le _) (by
    have := hds.2 i hlt
    rw [List.getD_eq_getElem?_getD, List.getElem?_eq_getElem hlt, Option.getD_some]
    omega)
  exact h1

theorem draws_admissible (h : IsRandint P rnd) (n : ℕ) : ∀ᵐ ω ∂P, AdmissibleDraws n (drawsOf rnd n ω) := by
  have h1 : ∀ i, ∀ᵐ ω ∂P, rnd i 0 (n - 1 - i) ω ≤ n - 1 - i := fun i => by
    have hdisj : P.real {ω | rnd i 0 (n - 1 - i) ω ≤ n - 1 - i} = 1 := by
      have hset : {ω | rnd i 0 (n - 1 - i) ω ≤ n - 1 - i} = ⋃ j ∈ Finset.range (n - 1 - i + 1), {ω | rnd i 0 (n - 1 - i) ω = j} := by
        ext ω
        simp
      rw [hset, measureReal_biUnion_finset]
      · rw [Finset.sum_congr rfl fun j hj => h.uniform i 0 (n - 1 - i) j (Nat.zero_le _) (Nat.lt_succ_iff.1 (Finset.mem_range.1 hj))]
        simp
        field_simp
      · intro a _ b _ hab
        exact Set.disjoint_left.2 fun ω h1 h2 => hab (h1.symm.trans h2)
      · intro j _
        exact h.measurable i 0 _ (measurableSet_singleton j)
    have hs : MeasurableSet {ω | rnd i 0 (n - 1 - i) ω ≤ n - 1 - i} := h.measurable i 0 _ (measurableSet_Iic)
    rw [measureReal_def, ENNReal.toReal_eq_one_iff] at hdisj
    exact (prob_compl_eq_zero_iff hs).2 hdisj
  have h2 := ae_all_iff.2 h1
  filter_upwards [h2] with ω hω
  refine ⟨by simp [drawsOf], fun i hi => ?_⟩
  have := hω i
  simp only [drawsOf, List.getElem_map, List.getElem_range]
  exact this

/-- **C86** `generate_random_permutation(n)`: all `n!` permutations are equally probable. -/
theorem C86_permutation (h : IsRandint P rnd) (n : ℕ) (p : List ℕ) (hp : p.Perm (List.range n)) :
    P.real {ω | generateRandomPermutation (fun i a b => rnd i a b ω) n = .ok p} = 1 / (n.factorial : ℝ) := by
  obtain ⟨ds, ⟨h1, h2⟩, h3⟩ := C18_uniform n p hp
  rw [← prob_draws h n ds h1]
  refine measureReal_congr ?_
  filter_upwards [draws_admissible h n] with ω hω
  refine propext ⟨fun h4 => h3 _ ⟨hω, h4⟩, fun h4 => ?_⟩
  have h4 : drawsOf rnd n ω = ds := h4
  show randomPermutation n (drawsOf rnd n ω) = .ok p
  rw [h4, h2]

omit [IsProbabilityMeasure P] in
theorem permutation_measurable (h : IsRandint P rnd) (n : ℕ) (p : List ℕ) : MeasurableSet {ω | generateRandomPermutation (fun i a b => rnd i a b ω) n = .ok p} := by
  have h1 : Measurable fun ω (i : Fin (n - 1)) => rnd i 0 (n - 1 - i) ω := measurable_pi_lambda _ fun i => h.measurable i 0 _
  have h2 : {ω | generateRandomPermutation (fun i a b => rnd i a b ω) n = .ok p} = (fun ω (i : Fin (n - 1)) => rnd i 0 (n - 1 - i) ω) ⁻¹' {d | randomPermutation n (List.ofFn d) = .ok p} := by
    ext ω
    simp only [Set.mem_ofPred_eq, Set.mem_preimage, generateRandomPermutation]
    have : (List.range (n - 1)).map (fun i => rnd i 0 (n - 1 - i) ω) = List.ofFn fun i : Fin (n - 1) => rnd i 0 (n - 1 - i) ω := by
      refine List.ext_getElem (by simp) fun i h1 h2 => by simp
    rw [this]
  rw [h2]
  exact h1 (Set.to_countable _).measurableSet

theorem permutation_certain (h : IsRandint P rnd) (n : ℕ) : ∀ᵐ ω ∂P, ∃ p, generateRandomPermutation (fun i a b => rnd i a b ω) n = .ok p ∧ p.Perm (List.range n) := by
  filter_upwards [draws_admissible h n] with ω hω
  exact C18_random_permutation n _ hω

/-- **C86** `generate_random_subset_permutation(n, k)`: all `n (n - 1) ⋯ (n - k + 1)` arrangements of `k` different numbers are equally probable. -/
theorem C86_subset (h : IsRandint P rnd) (n k : ℕ) (t : List ℕ) (hlen : t.length = k) (hnd : t.Nodup) (hlt : ∀ x ∈ t, x < n) :
    P.real {ω | generateRandomSubsetPermutation (fun i a b => rnd i a b ω) n k = .ok t} = 1 / (n.descFactorial k : ℝ) := by
  subst hlen
  set rest := (List.range n).filter (· ∉ t) with hrest
  have hsplit : (t ++ rest).Perm (List.range n) := by
    refine (List.perm_ext_iff_of_nodup ?_ List.nodup_range).2 fun x => ?_
    · refine hnd.append (List.nodup_range.filter _) fun x h1 h2 => ?_
      simp only [hrest, List.mem_filter, decide_eq_true_eq] at h2
      exact h2.2 h1
    · simp only [hrest, List.mem_append, List.mem_filter, List.mem_range, decide_eq_true_eq]
      have := hlt x
      tauto
  have hset : {ω | generateRandomSubsetPermutation (fun i a b => rnd i a b ω) n t.length = .ok t} =ᵐ[P]
      ((⋃ s ∈ rest.permutations.toFinset, {ω | generateRandomPermutation (fun i a b => rnd i a b ω) n = .ok (t ++ s)} : Set Ω)) := by
    filter_upwards [permutation_certain h n] with ω hω
    obtain ⟨p, h1, h2⟩ := hω
    refine propext ?_
    show generateRandomSubsetPermutation (fun i a b => rnd i a b ω) n t.length = .ok t ↔ ω ∈ (⋃ s ∈ rest.permutations.toFinset, {ω | generateRandomPermutation (fun i a b => rnd i a b ω) n = .ok (t ++ s)} : Set Ω)
    simp only [Set.mem_iUnion, Set.mem_ofPred_eq, generateRandomSubsetPermutation, h1, Py.bind_ok, Py.pure_eq, Except.ok.injEq, List.mem_toFinset, List.mem_permutations, exists_prop]
    constructor
    · intro h3
      have h5 : t ++ p.drop t.length = p := by
        have := List.take_append_drop t.length p
        rwa [h3] at this
      refine ⟨p.drop t.length, (List.perm_append_left_iff t).1 ?_, h5.symm⟩
      rw [h5]
      exact h2.trans hsplit.symm
    · rintro ⟨s, hs, rfl⟩
      simp
  rw [measureReal_congr hset, measureReal_biUnion_finset]
  · have h1 : ∀ s ∈ rest.permutations.toFinset, P.real {ω | generateRandomPermutation (fun i a b => rnd i a b ω) n = .ok (t ++ s)} = 1 / (n.factorial : ℝ) := fun s hs => by
      rw [List.mem_toFinset, List.mem_permutations] at hs
      exact C86_permutation h n _ (((List.perm_append_left_iff t).2 hs).trans hsplit)
    have hrn : rest.Nodup := List.nodup_range.filter _
    have hlen := hsplit.length_eq
    rw [List.length_append, List.length_range] at hlen
    rw [Finset.sum_congr rfl h1, Finset.sum_const, List.toFinset_card_of_nodup (List.nodup_permutations _ hrn), List.length_permutations, nsmul_eq_mul]
    have h2 := Nat.factorial_mul_descFactorial (n := n) (k := t.length) (by omega)
    rw [show rest.length = n - t.length by omega, ← h2]
    push_cast
    field_simp
  · intro a _ b _ hab
    refine Set.disjoint_left.2 fun ω h1 h2 => hab ?_
    have h3 := Except.ok.inj ((show _ = _ from h1).symm.trans h2)
    exact List.append_cancel_left h3
  · intro s _
    exact permutation_measurable h n _

/-- **C86** `generate_random_increasing_subset_permutation(n, k)`: all `n choose k` increasing tuples (subsets of size `k`) are equally probable. -/
theorem C86_increasing (h : IsRandint P rnd) (n k : ℕ) (u : List ℕ) (hlen : u.length = k) (hinc : u.Pairwise (· < ·)) (hlt : ∀ x ∈ u, x < n) :
    P.real {ω | generateRandomIncreasingSubsetPermutation (fun i a b => rnd i a b ω) n k = .ok u} = 1 / (n.choose k : ℝ) := by
  have hnd : u.Nodup := hinc.imp fun h => Nat.ne_of_lt h
  have hset : {ω | generateRandomIncreasingSubsetPermutation (fun i a b => rnd i a b ω) n k = .ok u} =
      ((⋃ t ∈ u.permutations.toFinset, {ω | generateRandomSubsetPermutation (fun i a b => rnd i a b ω) n k = .ok t} : Set Ω)) := by
    ext ω
    simp only [Set.mem_iUnion, Set.mem_ofPred_eq, generateRandomIncreasingSubsetPermutation, List.mem_toFinset, List.mem_permutations, exists_prop]
    cases h1 : generateRandomSubsetPermutation (fun i a b => rnd i a b ω) n k with
    | error e => simp
    | ok p =>
      simp only [Py.bind_ok, Py.pure_eq, Except.ok.injEq]
      constructor
      · rintro rfl
        exact ⟨p, (List.perm_insertionSort _ _).symm, rfl⟩
      · rintro ⟨t, ht, rfl⟩
        exact ((List.perm_insertionSort (· ≤ ·) p).trans ht).eq_of_pairwise (fun a b _ _ => Nat.le_antisymm) (List.pairwise_insertionSort (· ≤ ·) p) (hinc.imp Nat.le_of_lt)
  have hmeas : ∀ t, MeasurableSet {ω | generateRandomSubsetPermutation (fun i a b => rnd i a b ω) n k = .ok t} := fun t => by
    have : {ω | generateRandomSubsetPermutation (fun i a b => rnd i a b ω) n k = .ok t} =
        ⋃ p : List ℕ, ⋃ _ : p.take k = t, {ω | generateRandomPermutation (fun i a b => rnd i a b ω) n = .ok p} := by
      ext ω
      simp only [Set.mem_iUnion, Set.mem_ofPred_eq, generateRandomSubsetPermutation]
      cases generateRandomPermutation (fun i a b => rnd i a b ω) n <;> simp
    rw [this]
    exact MeasurableSet.iUnion fun p => MeasurableSet.iUnion fun _ => permutation_measurable h n p
  rw [hset, measureReal_biUnion_finset]
  · have h1 : ∀ t ∈ u.permutations.toFinset, P.real {ω | generateRandomSubsetPermutation (fun i a b => rnd i a b ω) n k = .ok t} = 1 / (n.descFactorial k : ℝ) := fun t ht => by
      rw [List.mem_toFinset, List.mem_permutations] at ht
      exact C86_subset h n k t (ht.length_eq.trans hlen) (ht.nodup_iff.2 hnd) fun x hx => hlt x (ht.mem_iff.1 hx)
    rw [Finset.sum_congr rfl h1, Finset.sum_const, List.toFinset_card_of_nodup (List.nodup_permutations _ hnd), List.length_permutations, nsmul_eq_mul, hlen,
      Nat.descFactorial_eq_factorial_mul_choose]
    push_cast
    have : (k.factorial : ℝ) ≠ 0 := by positivity
    field_simp
  · intro a _ b _ hab
    exact Set.disjoint_left.2 fun ω h1 h2 => hab (Except.ok.inj ((show _ = _ from h1).symm.trans h2))
  · intro t _
    exact hmeas t

omit [IsProbabilityMeasure P] in
/-- **C86** `random_multiindex(n, r)`: all multi-indices of dimension `n` with norm at most `r` are equally probable. -/
theorem C86_multiindex (h : IsNumpyRandint P rnd) (n r : ℕ) (α : List ℕ) (hlen : α.length = n) (hsum : α.sum ≤ r) :
    P.real {ω | MI.randomMultiindexCall (fun i a b => rnd i a b ω) n r = .ok α} = 1 / ((n + r).choose r : ℝ) := by
  subst hlen
  obtain ⟨i, hi, h1, h2⟩ := (C04_get_index_total α r).1 (by exact_mod_cast hsum)
  simp only [Int.toNat_natCast] at hi h2
  have h3 := h.uniform 0 0 ((α.length + r).choose r) i (Nat.zero_le _) hi
  rw [Nat.sub_zero] at h3
  rw [← h3]
  congr 1
  ext ω
  simp only [Set.mem_ofPred_eq, MI.randomMultiindexCall, MI.numMultiindices]
  constructor
  · intro h4
    by_cases h5 : rnd 0 0 ((α.length + r).choose r) ω < (α.length + r).choose r
    · obtain ⟨mi, h6, -, -, h7⟩ := C04_get_index_of_generate _ _ _ h5
      rw [h4] at h6
      obtain rfl := Except.ok.inj h6
      rw [h1] at h7
      exact (Except.ok.inj h7).symm
    · rw [C04_generate_past_end _ _ _ (not_lt.1 h5)] at h4
      cases h4
  · intro h4
    rw [h4, h2]

/-! ### There are such generators, and the smallest cases -/

/-- The uniform distribution on the integers from `a` to `b` (on `{a}` if `b < a`). -/
noncomputable def uniformInt (c : ℕ × ℕ × ℕ) : Measure ℕ := uniformOn (Finset.Icc c.2.1 (max c.2.1 c.2.2) : Set ℕ)

instance uniformInt_prob (c : ℕ × ℕ × ℕ) : IsProbabilityMeasure (uniformInt c) :=
  isProbabilityMeasure_uniformOn (Finset.finite_toSet _) ⟨c.2.1, by simp⟩

/-- A generator satisfying the specification of `random.randint` exists. -/
theorem randint_exists : IsRandint (Measure.infinitePi uniformInt) fun i a b ω => ω (i, a, b) where
  measurable := fun i a b => measurable_pi_apply _
  uniform := fun i a b j h1 h2 => by
    have h3 := Measure.infinitePi_map_eval uniformInt (i, a, b)
    have h4 : (Measure.infinitePi uniformInt).real {ω | ω (i, a, b) = j} = (uniformInt (i, a, b)).real {j} := by
      rw [← h3, map_measureReal_apply (measurable_pi_apply _) (measurableSet_singleton _)]
      rfl
    rw [h4, uniformInt, measureReal_def, show ({j} : Set ℕ) = ((({j} : Finset ℕ)) : Set ℕ) by simp, uniformOn_apply_finset]
    have h5 : Finset.Icc a (max a b) ∩ {j} = {j} := by
      ext x
      simp only [Finset.mem_inter, Finset.mem_Icc, Finset.mem_singleton]
      omega
    rw [h5, Finset.card_singleton, Nat.card_Icc, show max a b + 1 - a = b - a + 1 by omega, ENNReal.toReal_div, ENNReal.toReal_natCast, ENNReal.toReal_natCast, Nat.cast_one]
  indep := fun a b => (iIndepFun_infinitePi (P := uniformInt) (X := fun _ x => x) fun _ => measurable_id).precomp (g := fun i => (i, a i, b i))
    fun i j h => congrArg Prod.fst h

/-- A generator satisfying the specification of NumPy's `randint` exists. -/
theorem numpyRandint_exists : IsNumpyRandint (Measure.infinitePi uniformInt) fun i a b ω => ω (i, a, b - 1) where
  measurable := fun i a b => measurable_pi_apply _
  uniform := fun i a b j h1 h2 => by
    rw [randint_exists.uniform i a (b - 1) j h1 (by omega), show b - 1 - a + 1 = b - a by omega]

example : (Measure.infinitePi uniformInt).real {ω | generateRandomPermutation (fun i a b => ω (i, a, b)) 3 = .ok [2, 0, 1]} = 1 / 6 := by
  rw [C86_permutation randint_exists 3 [2, 0, 1] (by decide)]
  norm_num [Nat.factorial]

example : (Measure.infinitePi uniformInt).real {ω | generateRandomSubsetPermutation (fun i a b => ω (i, a, b)) 4 2 = .ok [3, 1]} = 1 / 12 := by
  rw [C86_subset randint_exists 4 2 [3, 1] rfl (by decide) (by decide)]
  norm_num [Nat.descFactorial]

example : (Measure.infinitePi uniformInt).real {ω | generateRandomIncreasingSubsetPermutation (fun i a b => ω (i, a, b)) 4 2 = .ok [1, 3]} = 1 / 6 := by
  rw [C86_increasing randint_exists 4 2 [1, 3] rfl (by decide) (by decide)]
  norm_num [Nat.choose]

example : (Measure.infinitePi uniformInt).real {ω | MI.randomMultiindexCall (fun i a b => ω (i, a, b - 1)) 2 3 = .ok [1, 2]} = 1 / 10 := by
  rw [C86_multiindex numpyRandint_exists 2 3 [1, 2] rfl (by decide)]
  norm_num [Nat.choose]

end Verif.Props
