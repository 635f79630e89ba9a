import Verif.Spec.Random
/-!
# Rejection sampling

A general sampler that draws values until enough of them are accepted, and the distribution of its results.
-/

namespace Verif.Random
open MeasureTheory ProbabilityTheory Filter Topology

variable {α β : Type}

/-- `k` accepted values, one after the other. -/
def reject (acc : α → Option β) : ℕ → List α → Option (List β × List α)
  | 0, rs => some ([], rs)
  | _ + 1, [] => none
  | k + 1, r :: rs =>
    match acc r with
    | none => reject acc (k + 1) rs
    | some y => (reject acc k rs).map fun p => (y :: p.1, p.2)

/-- The results are in the given sets. -/
def Hits (ys : List β) (Bs : List (Set β)) : Prop := List.Forall₂ (· ∈ ·) ys Bs

/-- The sampler returns results in the given sets. -/
def Good (acc : α → Option β) (Bs : List (Set β)) (rs : List α) : Prop := ∃ p, reject acc Bs.length rs = some p ∧ Hits p.1 Bs

theorem good_nil (acc : α → Option β) (rs : List α) : Good acc [] rs := ⟨([], rs), by cases rs <;> rfl, List.Forall₂.nil⟩

theorem good_cons_nil (acc : α → Option β) (B : Set β) (Bs : List (Set β)) : ¬ Good acc (B :: Bs) [] := by
  rintro ⟨p, h, -⟩
  cases h

theorem good_cons (acc : α → Option β) (B : Set β) (Bs : List (Set β)) (r : α) (rs : List α) :
    Good acc (B :: Bs) (r :: rs) ↔ (∃ y ∈ B, acc r = some y ∧ Good acc Bs rs) ∨ (acc r = none ∧ Good acc (B :: Bs) rs) := by
  unfold Good
  simp only [List.length_cons, reject]
  cases h : acc r with
  | none => simp
  | some y =>
    simp only [Option.map_eq_some_iff, reduceCtorEq, false_and, or_false]
    constructor
    · rintro ⟨p, ⟨q, h1, rfl⟩, h2⟩
      cases h2 with
      | cons h3 h4 => exact ⟨y, h3, rfl, q, h1, h4⟩
    · rintro ⟨z, hz, hy, q, h1, h2⟩
      obtain rfl := Option.some.inj hy
      exact ⟨(y :: q.1, q.2), ⟨q, h1, rfl⟩, List.Forall₂.cons hz h2⟩

/-- Further numbers do not change the results. -/
theorem good_append (acc : α → Option β) (Bs : List (Set β)) (rs more : List α) (h : Good acc Bs rs) : Good acc Bs (rs ++ more) := by
  induction rs generalizing Bs with
  | nil =>
    cases Bs with
    | nil => exact good_nil _ _
    | cons B Bs => exact absurd h (good_cons_nil _ _ _)
  | cons r rs ih =>
    cases Bs with
    | nil => exact good_nil _ _
    | cons B Bs =>
      rw [List.cons_append, good_cons] at *
      rcases h with ⟨y, h1, h2, h3⟩ | ⟨h1, h2⟩
      · exact Or.inl ⟨y, h1, h2, ih Bs h3⟩
      · exact Or.inr ⟨h1, ih (B :: Bs) h2⟩

/-- The values that are accepted with a result in `B`. -/
def Accepted (acc : α → Option β) (B : Set β) : Set α := {a | ∃ y ∈ B, acc a = some y}

/-- The values that are rejected. -/
def Rejected (acc : α → Option β) : Set α := {a | acc a = none}

theorem rejected_eq (acc : α → Option β) : Rejected acc = (Accepted acc Set.univ)ᶜ := by
  ext a
  cases h : acc a <;> simp [Rejected, Accepted, h]

section Finite
variable [MeasurableSpace α]

/-- The first `N` values lead to results in the given sets. -/
def event (acc : α → Option β) (N : ℕ) (Bs : List (Set β)) : Set (Fin N → α) := {v | Good acc Bs (List.ofFn v)}

theorem event_succ (acc : α → Option β) (N : ℕ) (B : Set β) (Bs : List (Set β)) :
    event acc (N + 1) (B :: Bs) = (MeasurableEquiv.piFinSuccAbove (fun _ : Fin (N + 1) => α) 0) ⁻¹'
      ((Accepted acc B ×ˢ event acc N Bs) ∪ (Rejected acc ×ˢ event acc N (B :: Bs))) := by
  ext v
  simp only [event, Set.mem_ofPred_eq, Set.mem_preimage, Set.mem_union, Set.mem_prod, MeasurableEquiv.piFinSuccAbove_apply, Fin.insertNthEquiv_zero, Fin.consEquiv_symm_apply,
    List.ofFn_succ, good_cons, Accepted, Rejected]
  constructor
  · rintro (⟨y, h1, h2, h3⟩ | h)
    · exact Or.inl ⟨⟨y, h1, h2⟩, h3⟩
    · exact Or.inr h
  · rintro (⟨⟨y, h1, h2⟩, h3⟩ | h)
    · exact Or.inl ⟨y, h1, h2, h3⟩
    · exact Or.inr h

theorem event_measurable {acc : α → Option β} (N : ℕ) (Bs : List (Set β)) (hacc : MeasurableSet (Accepted acc Set.univ))
    (hB : ∀ B ∈ Bs, MeasurableSet (Accepted acc B)) : MeasurableSet (event acc N Bs) := by
  induction N generalizing Bs with
  | zero => exact Set.Finite.measurableSet (Set.toFinite _)
  | succ N ih =>
    cases Bs with
    | nil =>
      have : event acc (N + 1) [] = Set.univ := Set.eq_univ_of_forall fun v => good_nil _ _
      rw [this]
      exact MeasurableSet.univ
    | cons B Bs =>
      rw [event_succ]
      refine (MeasurableEquiv.measurable _) ?_
      refine MeasurableSet.union ?_ ?_
      · exact (hB B (by simp)).prod (ih Bs fun C hC => hB C (List.mem_cons_of_mem _ hC))
      · rw [rejected_eq]
        exact hacc.compl.prod (ih (B :: Bs) hB)

variable {μ : Measure α} [IsProbabilityMeasure μ] {acc : α → Option β}

theorem event_real_succ (hacc : MeasurableSet (Accepted acc Set.univ)) (N : ℕ) (B : Set β) (Bs : List (Set β)) (hB : ∀ C ∈ B :: Bs, MeasurableSet (Accepted acc C)) :
    (Measure.pi fun _ => μ).real (event acc (N + 1) (B :: Bs)) = μ.real (Accepted acc B) * (Measure.pi fun _ => μ).real (event acc N Bs) +
      (1 - μ.real (Accepted acc Set.univ)) * (Measure.pi fun _ => μ).real (event acc N (B :: Bs)) := by
  have h1 := event_measurable N Bs hacc fun C hC => hB C (List.mem_cons_of_mem _ hC)
  have h2 := event_measurable N (B :: Bs) hacc hB
  have h3 : MeasurableSet (Rejected acc) := by rw [rejected_eq]; exact hacc.compl
  rw [event_succ, measureReal_def, (measurePreserving_piFinSuccAbove (fun _ : Fin (N + 1) => μ) 0).measure_preimage
    (((hB B (by simp)).prod h1).union (h3.prod h2)).nullMeasurableSet]
  rw [← measureReal_def, measureReal_union (Set.disjoint_left.2 fun x hx hx' => ?_) (h3.prod h2), measureReal_prod_prod, measureReal_prod_prod, rejected_eq,
    probReal_compl_eq_one_sub hacc]
  obtain ⟨y, -, hy⟩ := hx.1
  have h4 : acc x.1 = none := hx'.1
  rw [h4] at hy
  cases hy

/-- The probability that the first `N` values suffice tends to the product of the conditional probabilities. -/
theorem event_tendsto (hacc : MeasurableSet (Accepted acc Set.univ)) (hp : 0 < μ.real (Accepted acc Set.univ)) (Bs : List (Set β))
    (hB : ∀ C ∈ Bs, MeasurableSet (Accepted acc C)) (hmono : ∀ Bs : List (Set β), (∀ C ∈ Bs, MeasurableSet (Accepted acc C)) →
      Monotone fun N => (Measure.pi fun _ : Fin N => μ).real (event acc N Bs)) :
    Tendsto (fun N => (Measure.pi fun _ : Fin N => μ).real (event acc N Bs)) atTop
      (𝓝 (Bs.map fun B => μ.real (Accepted acc B) / μ.real (Accepted acc Set.univ)).prod) := by
  induction Bs with
  | nil =>
    have : ∀ N, event acc N ([] : List (Set β)) = Set.univ := fun N => Set.eq_univ_of_forall fun v => good_nil _ _
    simp [this]
  | cons B Bs ih =>
    have ih := ih fun C hC => hB C (List.mem_cons_of_mem _ hC)
    have hm := hmono (B :: Bs) hB
    have hlim := tendsto_atTop_ciSup hm ⟨1, by rintro _ ⟨N, rfl⟩; exact measureReal_le_one⟩
    set L := ⨆ N, (Measure.pi fun _ : Fin N => μ).real (event acc N (B :: Bs))
    have h1 := (tendsto_add_atTop_iff_nat 1).2 hlim
    simp only [event_real_succ hacc _ B Bs hB] at h1
    have h2 := (ih.const_mul (μ.real (Accepted acc B))).add (hlim.const_mul (1 - μ.real (Accepted acc Set.univ)))
    have h3 := tendsto_nhds_unique h1 h2
    have h4 : L = (List.map (fun B => μ.real (Accepted acc B) / μ.real (Accepted acc Set.univ)) (B :: Bs)).prod := by
      rw [List.map_cons, List.prod_cons, div_mul_eq_mul_div, eq_div_iff hp.ne']
      linarith
    rw [← h4]
    exact hlim

end Finite

section Source
variable [MeasurableSpace α] {Ω : Type} [MeasurableSpace Ω] {P : Measure Ω} [IsProbabilityMeasure P] {X : ℕ → Ω → α} {μ : Measure α}

theorem IsSource.isProb (h : IsSource P X μ) : IsProbabilityMeasure μ := by
  rw [← h.law 0]
  exact Measure.isProbabilityMeasure_map (h.measurable 0).aemeasurable

theorem IsSource.law_prefix (h : IsSource P X μ) (N : ℕ) : P.map (fun ω (i : Fin N) => X i ω) = Measure.pi fun _ => μ := by
  have h1 : iIndepFun (fun i : Fin N => X i) P := h.indep.precomp (g := fun i : Fin N => (i : ℕ)) Fin.val_injective
  rw [iIndepFun_iff_map_fun_eq_pi_map fun i : Fin N => (h.measurable i).aemeasurable] at h1
  rw [h1]
  congr 1
  funext i
  exact h.law i

omit [MeasurableSpace α] in
theorem prefix_eq (x : ℕ → α) (N : ℕ) : (List.range N).map x = List.ofFn fun i : Fin N => x i := by
  refine List.ext_getElem (by simp) fun i h1 h2 => by simp

omit [MeasurableSpace α] in
theorem map_range_le (x : ℕ → α) {N M : ℕ} (h : N ≤ M) : ∃ more, (List.range M).map x = (List.range N).map x ++ more := by
  obtain ⟨k, rfl⟩ := Nat.exists_eq_add_of_le h
  exact ⟨((List.range k).map (N + ·)).map x, by rw [List.range_add, List.map_append]⟩

/-- The distribution of the results of rejection sampling. -/
theorem reject_law (h : IsSource P X μ) {acc : α → Option β} (hacc : MeasurableSet (Accepted acc Set.univ)) (hp : 0 < μ.real (Accepted acc Set.univ))
    (Bs : List (Set β)) (hB : ∀ C ∈ Bs, MeasurableSet (Accepted acc C)) :
    P.real {ω | ∃ ys, Returns (reject acc Bs.length) (X · ω) ys ∧ Hits ys Bs} =
      (Bs.map fun B => μ.real (Accepted acc B) / μ.real (Accepted acc Set.univ)).prod := by
  have := h.isProb
  have hset : ∀ Bs : List (Set β), (∀ C ∈ Bs, MeasurableSet (Accepted acc C)) → ∀ N,
      (Measure.pi fun _ : Fin N => μ).real (event acc N Bs) = P.real {ω | Good acc Bs ((List.range N).map (X · ω))} := by
    intro Bs hB N
    rw [← h.law_prefix N, measureReal_def, Measure.map_apply (measurable_pi_lambda _ fun i : Fin N => h.measurable i) (event_measurable N Bs hacc hB), measureReal_def]
    congr 2
    ext ω
    simp only [Set.mem_preimage, event, Set.mem_ofPred_eq]
    rw [prefix_eq]
  have hmonoSet : ∀ Bs : List (Set β), Monotone fun N => {ω | Good acc Bs ((List.range N).map (X · ω))} := by
    intro Bs N M hNM ω hω
    obtain ⟨more, hm⟩ := map_range_le (X · ω) hNM
    simp only [Set.mem_ofPred_eq] at hω ⊢
    rw [hm]
    exact good_append _ _ _ _ hω
  have hmono : ∀ Bs : List (Set β), (∀ C ∈ Bs, MeasurableSet (Accepted acc C)) → Monotone fun N => (Measure.pi fun _ : Fin N => μ).real (event acc N Bs) := by
    intro Bs hB N M hNM
    simp only [hset Bs hB]
    exact measureReal_mono (hmonoSet Bs hNM)
  have h1 := event_tendsto hacc hp Bs hB hmono
  have h2 := tendsto_measure_iUnion_atTop (μ := P) (hmonoSet Bs)
  have h3 : {ω | ∃ ys, Returns (reject acc Bs.length) (X · ω) ys ∧ Hits ys Bs} = ⋃ N, {ω | Good acc Bs ((List.range N).map (X · ω))} := by
    ext ω
    simp only [Set.mem_ofPred_eq, Set.mem_iUnion, Returns, Good]
    constructor
    · rintro ⟨ys, ⟨N, rest, h4⟩, h5⟩
      exact ⟨N, (ys, rest), h4, h5⟩
    · rintro ⟨N, ⟨ys, rest⟩, h4, h5⟩
      exact ⟨ys, ⟨N, rest, h4⟩, h5⟩
  rw [h3]
  have h4 : Tendsto (fun N => P.real {ω | Good acc Bs ((List.range N).map (X · ω))}) atTop (𝓝 (P.real (⋃ N, {ω | Good acc Bs ((List.range N).map (X · ω))}))) :=
    (ENNReal.tendsto_toReal (measure_ne_top P _)).comp h2
  simp only [hset Bs hB] at h1
  exact tendsto_nhds_unique h4 h1

end Source

end Verif.Random
