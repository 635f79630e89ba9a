import Verif.Model.Sampling
import Verif.Lemmas.RandomRows
import Mathlib.MeasureTheory.Measure.Lebesgue.EqHaar
import Mathlib.Tactic.Linarith
/-!
# C84: the random samplers are uniform and independent

If the numbers of the generator are independent and uniformly distributed, then the samplers return with probability one, and their results are independent and uniformly distributed in
the domain. Here for the samplers of intervals, cubes, balls and simplices; for the sphere see `SamplingSphere`.
-/

namespace Verif.Sampling
open Verif Verif.Random MeasureTheory ProbabilityTheory

variable {Ω : Type} [MeasurableSpace Ω] {P : Measure Ω} [IsProbabilityMeasure P]

/-! ## The samplers as rejection sampling -/

theorem sampling_eq_reject {K : Type} {s : List K → Option (K × List K)} {acc : K → Option K} (h0 : s [] = none)
    (h1 : ∀ x xs, s (x :: xs) = match acc x with | none => s xs | some y => some (y, xs)) (k : ℕ) (rs : List K) :
    sampling s k rs = reject acc k rs := by
  induction rs generalizing k with
  | nil =>
    cases k with
    | zero => rfl
    | succ k => simp [sampling, reject, h0]
  | cons x xs ih =>
    cases k with
    | zero => rfl
    | succ k =>
      rw [sampling, reject, h1]
      cases h : acc x with
      | none =>
        have := ih (k + 1)
        rw [sampling] at this
        exact this
      | some y =>
        simp only
        rw [ih k]
        cases reject acc k xs <;> rfl

/-- The acceptance rules. -/
noncomputable def accClosed (x : ℝ) : Option ℝ := if x > 7 / 8 then none else some (x / (7 / 8))

noncomputable def accOpen (x : ℝ) : Option ℝ := if x ≤ 1 / 8 then none else some ((x - 1 / 8) / (7 / 8))

theorem closed_eq (k : ℕ) (rs : List ℝ) : sampling closedUnitIntervalSample k rs = reject accClosed k rs :=
  sampling_eq_reject rfl (fun x xs => by
    rw [closedUnitIntervalSample, accClosed]
    split <;> rfl) k rs

theorem open_eq (k : ℕ) (rs : List ℝ) : sampling openUnitIntervalSample k rs = reject accOpen k rs :=
  sampling_eq_reject rfl (fun x xs => by
    rw [openUnitIntervalSample, accOpen]
    split <;> rfl) k rs

theorem right_eq (k : ℕ) (rs : List ℝ) : sampling rightClosedIntervalSample k rs = reject (fun x => some (x * -1 + 1)) k rs :=
  sampling_eq_reject rfl (fun _ _ => rfl) k rs

theorem left_eq (k : ℕ) (rs : List ℝ) : sampling leftClosedIntervalSample k rs = reject some k rs :=
  sampling_eq_reject rfl (fun _ _ => rfl) k rs

theorem unit_eq (k : ℕ) (rs : List ℝ) : unitIntervalSampling k rs = reject some k rs := by
  induction rs generalizing k with
  | nil => cases k <;> simp [unitIntervalSampling, reject]
  | cons x xs ih =>
    cases k with
    | zero => simp [unitIntervalSampling, reject]
    | succ k =>
      rw [reject]
      simp only [← ih k, unitIntervalSampling, List.length_cons, Nat.add_le_add_iff_right, List.take_succ_cons, List.drop_succ_cons]
      split <;> rfl

/-! ## Intervals -/

theorem rand_real (B : Set ℝ) (hB : MeasurableSet B) : rand.real B = volume.real (B ∩ Set.Ico 0 1) := by
  rw [rand, measureReal_def, Measure.restrict_apply hB, measureReal_def]

theorem volume_scale (B : Set ℝ) (a : ℝ) {c : ℝ} (hc : c ≠ 0) : volume.real ((fun x => (x - a) / c) ⁻¹' B) = |c| * volume.real B := by
  have : (fun x => (x - a) / c) ⁻¹' B = (fun x => x + -a) ⁻¹' ((fun x => c⁻¹ * x) ⁻¹' B) := by
    ext x
    simp [div_eq_inv_mul, sub_eq_add_neg]
  rw [this, measureReal_def, measure_preimage_add_right, Real.volume_preimage_mul_left (inv_ne_zero hc), inv_inv, ENNReal.toReal_mul, ENNReal.toReal_ofReal (abs_nonneg _), measureReal_def]

theorem law_of {α β γ : Type} [MeasurableSpace α] {X : ℕ → Ω → α} {μ : Measure α} (h : IsSource P X μ) {acc : α → Option β} [MeasureSpace β]
    {E : Set β} {c : ℝ} (hc : 0 < c) (hE : 0 < volume.real E) (code : β → γ) (hcode : Function.Injective code) {results : ℕ → Ω → List γ → Prop}
    (hr : ∀ k ω ys, results k ω ys ↔ ∃ zs, ys = zs.map code ∧ Returns (reject acc k) (X · ω) zs)
    (hm : ∀ B, MeasurableSet B → MeasurableSet (Accepted acc B)) (hv : ∀ B, MeasurableSet B → μ.real (Accepted acc B) = c * volume.real (B ∩ E)) :
    Uniform P E code results := by
  intro Bs hB
  have h1 := hv Set.univ MeasurableSet.univ
  rw [Set.univ_inter] at h1
  have h2 := reject_law h (hm _ MeasurableSet.univ) (by rw [h1]; positivity) Bs fun B hB' => hm B (hB B hB')
  have h3 : {ω | ∃ ys, results Bs.length ω ys ∧ List.Forall₂ (fun y C => ∃ x ∈ C, y = code x) ys Bs} =
      {ω | ∃ ys, Returns (reject acc Bs.length) (X · ω) ys ∧ Hits ys Bs} := by
    ext ω
    simp only [Set.mem_ofPred_eq, hr]
    constructor
    · rintro ⟨_, ⟨zs, rfl, h4⟩, h5⟩
      refine ⟨zs, h4, ?_⟩
      rw [List.forall₂_map_left_iff] at h5
      exact h5.imp fun a b ⟨x, hx, he⟩ => by rwa [hcode he]
    · rintro ⟨zs, h4, h5⟩
      refine ⟨zs.map code, ⟨zs, rfl, h4⟩, ?_⟩
      rw [List.forall₂_map_left_iff]
      exact List.Forall₂.imp (fun a b hab => ⟨a, hab, rfl⟩) h5
  rw [h3, h2]
  congr 1
  refine List.map_congr_left fun B hB' => ?_
  rw [hv B (hB B hB'), h1, share, mul_div_mul_left _ _ hc.ne']

variable {X : ℕ → Ω → ℝ}

/-- **C84** `closed_unit_interval_sampling`: independent numbers, uniformly distributed in `[0, 1]`. -/
theorem C84_closed (h : IsSource P X rand) : Uniform P (Set.Icc 0 1) id fun k ω ys => Returns (sampling closedUnitIntervalSample k) (X · ω) ys := by
  have hset : ∀ B, Accepted accClosed B = (fun x => (x - 0) / (7 / 8)) ⁻¹' B ∩ Set.Iic (7 / 8) := by
    intro B
    ext x
    simp only [Accepted, accClosed, Set.mem_ofPred_eq, Set.mem_inter_iff, Set.mem_preimage, Set.mem_Iic, sub_zero]
    by_cases hx : x > 7 / 8
    · simp [hx, not_le.2 hx]
    · simp [hx, not_lt.1 hx]
  refine law_of h (acc := accClosed) (c := 7 / 8) (by norm_num) (by simp) id Function.injective_id (fun k ω ys => ?_) (fun B hB => ?_) (fun B hB => ?_)
  · simp only [List.map_id]
    unfold Returns
    simp [closed_eq]
  · rw [hset]
    exact (measurable_id.sub_const 0 |>.div_const _ hB).inter measurableSet_Iic
  · rw [rand_real _ (by rw [hset]; exact (measurable_id.sub_const 0 |>.div_const _ hB).inter measurableSet_Iic), hset]
    have : (fun x : ℝ => (x - 0) / (7 / 8)) ⁻¹' B ∩ Set.Iic (7 / 8) ∩ Set.Ico 0 1 = (fun x => (x - 0) / (7 / 8)) ⁻¹' (B ∩ Set.Icc 0 1) := by
      ext x
      simp only [Set.mem_inter_iff, Set.mem_preimage, Set.mem_Iic, Set.mem_Ico, Set.mem_Icc, sub_zero]
      constructor
      · rintro ⟨⟨h1, h2⟩, h3, h4⟩
        exact ⟨h1, by positivity, (div_le_one (by norm_num)).2 h2⟩
      · rintro ⟨h1, h2, h3⟩
        rw [div_le_one (by norm_num)] at h3
        have h4 := mul_nonneg h2 (by norm_num : (0 : ℝ) ≤ 7 / 8)
        rw [div_mul_cancel₀ _ (by norm_num)] at h4
        exact ⟨⟨h1, h3⟩, h4, by linarith⟩
    rw [this, volume_scale _ _ (by norm_num), abs_of_pos (by norm_num)]

/-- **C84** `open_unit_interval_sampling`: independent numbers, uniformly distributed in `(0, 1)`. -/
theorem C84_open (h : IsSource P X rand) : Uniform P (Set.Ioo 0 1) id fun k ω ys => Returns (sampling openUnitIntervalSample k) (X · ω) ys := by
  have hset : ∀ B, Accepted accOpen B = (fun x => (x - 1 / 8) / (7 / 8)) ⁻¹' B ∩ Set.Ioi (1 / 8) := by
    intro B
    ext x
    simp only [Accepted, accOpen, Set.mem_ofPred_eq, Set.mem_inter_iff, Set.mem_preimage, Set.mem_Ioi]
    by_cases hx : x ≤ 1 / 8
    · rw [if_pos hx]
      exact ⟨(by rintro ⟨y, -, h⟩; cases h), fun h => absurd h.2 (not_lt.2 hx)⟩
    · rw [if_neg hx]
      exact ⟨by rintro ⟨y, hy, h⟩; obtain rfl := Option.some.inj h; exact ⟨hy, not_le.1 hx⟩, fun h => ⟨_, h.1, rfl⟩⟩
  refine law_of h (acc := accOpen) (c := 7 / 8) (by norm_num) (by simp) id Function.injective_id (fun k ω ys => ?_) (fun B hB => ?_) (fun B hB => ?_)
  · simp only [List.map_id]
    unfold Returns
    simp [open_eq]
  · rw [hset]
    exact (measurable_id.sub_const _ |>.div_const _ hB).inter measurableSet_Ioi
  · rw [rand_real _ (by rw [hset]; exact (measurable_id.sub_const _ |>.div_const _ hB).inter measurableSet_Ioi), hset]
    have : (fun x : ℝ => (x - 1 / 8) / (7 / 8)) ⁻¹' B ∩ Set.Ioi (1 / 8) ∩ Set.Ico 0 1 = (fun x => (x - 1 / 8) / (7 / 8)) ⁻¹' (B ∩ Set.Ioo 0 1) := by
      ext x
      simp only [Set.mem_inter_iff, Set.mem_preimage, Set.mem_Ioi, Set.mem_Ico, Set.mem_Ioo]
      constructor
      · rintro ⟨⟨h1, h2⟩, h3, h4⟩
        exact ⟨h1, div_pos (by linarith) (by norm_num), (div_lt_one (by norm_num)).2 (by linarith)⟩
      · rintro ⟨h1, h2, h3⟩
        rw [div_lt_one (by norm_num)] at h3
        have h4 := mul_pos h2 (by norm_num : (0 : ℝ) < 7 / 8)
        rw [div_mul_cancel₀ _ (by norm_num)] at h4
        exact ⟨⟨h1, by linarith⟩, by linarith, by linarith⟩
    rw [this, volume_scale _ _ (by norm_num), abs_of_pos (by norm_num)]

/-- **C84** `unit_interval_sampling` and `left_closed_unit_interval_sampling`: independent numbers, uniformly distributed in `[0, 1)`. -/
theorem C84_left_closed (h : IsSource P X rand) : Uniform P (Set.Ico 0 1) id fun k ω ys => Returns (unitIntervalSampling k) (X · ω) ys := by
  have hset : ∀ B : Set ℝ, Accepted some B = B := by
    intro B
    ext x
    simp [Accepted]
  refine law_of h (acc := some) (c := 1) (by norm_num) (by simp) id Function.injective_id (fun k ω ys => ?_) (fun B hB => ?_) (fun B hB => ?_)
  · simp only [List.map_id]
    unfold Returns
    simp [unit_eq]
  · rwa [hset]
  · rw [hset, rand_real _ hB, one_mul]

/-- **C84** `right_closed_unit_interval_sampling`: independent numbers, uniformly distributed in `(0, 1]`. -/
theorem C84_right_closed (h : IsSource P X rand) : Uniform P (Set.Ioc 0 1) id fun k ω ys => Returns (sampling rightClosedIntervalSample k) (X · ω) ys := by
  have hset : ∀ B : Set ℝ, Accepted (fun x : ℝ => some (x * -1 + 1)) B = (fun x => (x - 1) / -1) ⁻¹' B := by
    intro B
    ext x
    simp [Accepted, neg_add_eq_sub, div_neg]
  refine law_of h (acc := fun x : ℝ => some (x * -1 + 1)) (c := 1) (by norm_num) (by simp) id Function.injective_id (fun k ω ys => ?_) (fun B hB => ?_) (fun B hB => ?_)
  · simp only [List.map_id]
    unfold Returns
    simp [right_eq]
  · rw [hset]
    exact measurable_id.sub_const _ |>.div_const _ hB
  · rw [rand_real _ (by rw [hset]; exact measurable_id.sub_const _ |>.div_const _ hB), hset]
    have : (fun x : ℝ => (x - 1) / -1) ⁻¹' B ∩ Set.Ico 0 1 = (fun x => (x - 1) / -1) ⁻¹' (B ∩ Set.Ioc 0 1) := by
      ext x
      simp only [Set.mem_inter_iff, Set.mem_preimage, Set.mem_Ico, Set.mem_Ioc, div_neg, div_one, neg_sub]
      constructor
      · rintro ⟨h1, h2, h3⟩
        exact ⟨h1, by linarith, by linarith⟩
      · rintro ⟨h1, h2, h3⟩
        exact ⟨h1, by linarith, by linarith⟩
    rw [this, volume_scale _ _ (by norm_num)]
    norm_num

theorem sampling_one {K : Type} (s : List K → Option (K × List K)) (rs : List K) :
    sampling s 1 rs = (s rs).map fun p => ([p.1], p.2) := by
  simp only [sampling]
  cases s rs <;> rfl

omit [IsProbabilityMeasure P] in
theorem uniform_one {E : Set ℝ} {s : List ℝ → Option (ℝ × List ℝ)} (h : Uniform P E id fun k ω ys => Returns (sampling s k) (X · ω) ys)
    (B : Set ℝ) (hB : MeasurableSet B) : P.real {ω | ∃ x ∈ B, Returns s (X · ω) x} = share E B := by
  have h1 := h [B] (by simpa using hB)
  simp only [List.map_cons, List.map_nil, List.prod_cons, List.prod_nil, mul_one, List.length_cons, List.length_nil, zero_add] at h1
  rw [← h1]
  congr 1
  ext ω
  simp only [Set.mem_ofPred_eq, Returns, sampling_one, Option.map_eq_some_iff]
  constructor
  · rintro ⟨x, hx, N, rest, h2⟩
    exact ⟨[x], ⟨N, rest, (x, rest), h2, rfl⟩, by simpa using hx⟩
  · rintro ⟨ys, ⟨N, rest, p, h2, h3⟩, h4⟩
    obtain ⟨rfl, rfl⟩ := Prod.mk.inj h3
    refine ⟨p.1, by simpa using h4, N, p.2, h2⟩

/-- **C84** A single number: `closed_unit_interval_sample`, `open_unit_interval_sample`, `left_closed_interval_sample` and `right_closed_interval_sample` are uniformly
distributed in their intervals. -/
theorem C84_single (h : IsSource P X rand) (B : Set ℝ) (hB : MeasurableSet B) :
    P.real {ω | ∃ x ∈ B, Returns closedUnitIntervalSample (X · ω) x} = share (Set.Icc 0 1) B ∧
    P.real {ω | ∃ x ∈ B, Returns openUnitIntervalSample (X · ω) x} = share (Set.Ioo 0 1) B ∧
    P.real {ω | ∃ x ∈ B, Returns leftClosedIntervalSample (X · ω) x} = share (Set.Ico 0 1) B ∧
    P.real {ω | ∃ x ∈ B, Returns rightClosedIntervalSample (X · ω) x} = share (Set.Ioc 0 1) B := by
  refine ⟨uniform_one (C84_closed h) B hB, uniform_one (C84_open h) B hB, uniform_one ?_ B hB, uniform_one (C84_right_closed h) B hB⟩
  have h1 := C84_left_closed h
  have e : (unitIntervalSampling : ℕ → List ℝ → _) = sampling leftClosedIntervalSample := by
    funext k rs
    rw [unit_eq, left_eq]
  rw [e] at h1
  exact h1

/-! ## Balls and simplices -/

variable {n : ℕ}

theorem randVec_eq (n : ℕ) : (Measure.pi fun _ : Fin n => rand) = randVec n := by
  unfold randVec rand
  rw [← Measure.restrict_pi_pi, volume_pi]
  congr 1
  ext x
  simp

/-- Acceptance of a point of the cube, for the ball. -/
noncomputable def accBall (r : Fin n → ℝ) : Option (Fin n → ℝ) := if ∑ i, (r i * 2 - 1) * (r i * 2 - 1) ≤ 1 then some fun i => r i * 2 - 1 else none

/-- Acceptance of a point of the cube, for the simplex. -/
noncomputable def accSimplex (r : Fin n → ℝ) : Option (Fin n → ℝ) := if ∑ i, r i ≤ 1 then some r else none

theorem nsphere_eq (k : ℕ) (rs : List (Fin n → ℝ)) :
    nsphereSampling k (rs.map List.ofFn) = (reject accBall k rs).map fun p => (p.1.map List.ofFn, p.2.map List.ofFn) := by
  induction rs generalizing k with
  | nil => cases k <;> simp [nsphereSampling, reject]
  | cons r rs ih =>
    cases k with
    | zero => simp [nsphereSampling, reject]
    | succ k =>
      have h1 : (List.ofFn r).map (fun x => x * 2 - 1) = List.ofFn fun i => r i * 2 - 1 := by
        rw [List.map_ofFn]
        rfl
      have h2 : dotSelf (List.ofFn fun i => r i * 2 - 1) = ∑ i, (r i * 2 - 1) * (r i * 2 - 1) := by
        rw [dotSelf, List.map_ofFn, List.sum_ofFn]
        rfl
      rw [List.map_cons, nsphereSampling, reject, accBall]
      simp only [h1, h2, ih, not_lt]
      split
      · cases reject accBall k rs <;> rfl
      · rfl

theorem nsimplex_eq (k : ℕ) (rs : List (Fin n → ℝ)) :
    nsimplexSampling k (rs.map List.ofFn) = (reject accSimplex k rs).map fun p => (p.1.map List.ofFn, p.2.map List.ofFn) := by
  induction rs generalizing k with
  | nil => cases k <;> simp [nsimplexSampling, simplexSample, reject]
  | cons r rs ih =>
    cases k with
    | zero => simp [nsimplexSampling, reject]
    | succ k =>
      have h3 := ih (k + 1)
      rw [nsimplexSampling] at h3
      rw [List.map_cons, nsimplexSampling, simplexSample, reject, accSimplex, List.sum_ofFn]
      by_cases h : ∑ i, r i ≤ 1
      · rw [if_neg (not_lt.2 h), if_pos h]
        simp only [ih]
        cases reject accSimplex k rs <;> rfl
      · rw [if_pos (not_le.1 h), if_neg h]
        exact h3

theorem returns_map {α β γ δ : Type} {f : List α → Option (List β × List α)} {g : List γ → Option (List δ × List γ)} {c : α → γ} {d : β → δ}
    (h : ∀ rs, g (rs.map c) = (f rs).map fun p => (p.1.map d, p.2.map c)) (x : ℕ → α) (ys : List δ) :
    Returns g (fun i => c (x i)) ys ↔ ∃ zs, ys = zs.map d ∧ Returns f x zs := by
  have h1 : ∀ N, (List.range N).map (fun i => c (x i)) = ((List.range N).map x).map c := fun N => by rw [List.map_map]; rfl
  simp only [Returns, h1, h, Option.map_eq_some_iff]
  constructor
  · rintro ⟨N, rest, ⟨zs, rest'⟩, h2, h3⟩
    obtain ⟨rfl, rfl⟩ := Prod.mk.inj h3
    exact ⟨zs, rfl, N, rest', h2⟩
  · rintro ⟨zs, rfl, N, rest, h2⟩
    exact ⟨N, rest.map c, (zs, rest), h2, rfl⟩

/-- The unit ball. -/
def Ball (n : ℕ) : Set (Fin n → ℝ) := {x | ∑ i, x i ^ 2 ≤ 1}

/-- The unit simplex. -/
def UnitSimplex (n : ℕ) : Set (Fin n → ℝ) := {x | (∀ i, 0 ≤ x i) ∧ ∑ i, x i ≤ 1}

theorem randVec_real (B : Set (Fin n → ℝ)) (hB : MeasurableSet B) : (randVec n).real B = volume.real (B ∩ {x | ∀ i, x i ∈ Set.Ico (0 : ℝ) 1}) := by
  rw [randVec, measureReal_def, Measure.restrict_apply hB, measureReal_def]

theorem null_faces (n : ℕ) (c : ℝ) : volume {x : Fin n → ℝ | ∃ i, x i = c} = 0 := by
  have : {x : Fin n → ℝ | ∃ i, x i = c} = ⋃ i, {x | x i = c} := by ext x; simp
  rw [this, measure_iUnion_null_iff]
  intro i
  rw [volume_pi]
  exact Measure.pi_hyperplane (α := fun _ : Fin n => ℝ) (fun _ => volume) i c

theorem measurable_ball (n : ℕ) : MeasurableSet (Ball n) :=
  measurableSet_le (by fun_prop) measurable_const

theorem measurable_simplex (n : ℕ) : MeasurableSet (UnitSimplex n) := by
  have : UnitSimplex n = (⋂ i, {x | 0 ≤ x i}) ∩ {x | ∑ i, x i ≤ 1} := by
    ext x
    simp [UnitSimplex]
  rw [this]
  exact (MeasurableSet.iInter fun i => measurableSet_le measurable_const (by fun_prop)).inter (measurableSet_le (by fun_prop) measurable_const)

theorem real_inter_eq {S C : Set (Fin n → ℝ)} (h : ∀ x ∈ S, x ∉ C → ∃ i, x i = 1) : volume.real (S ∩ C) = volume.real S := by
  refine measureReal_congr ?_
  rw [Filter.eventuallyEq_set]
  have := (measure_eq_zero_iff_ae_notMem.1 (null_faces n 1))
  filter_upwards [this] with x hx
  constructor
  · exact fun h => h.1
  · refine fun hS => ⟨hS, ?_⟩
    by_contra hC
    exact hx (h x hS hC)

theorem volume_ball_map (S : Set (Fin n → ℝ)) : volume.real ((fun (r : Fin n → ℝ) i => r i * 2 - 1) ⁻¹' S) = (1 / 2) ^ n * volume.real S := by
  have : (fun (r : Fin n → ℝ) i => r i * 2 - 1) ⁻¹' S = ((2 : ℝ) • ·) ⁻¹' ((· + fun _ => -1) ⁻¹' S) := by
    ext r
    simp only [Set.mem_preimage]
    have : (fun i => r i * 2 - 1) = ((2 : ℝ) • r + fun _ => -1) := by
      funext i
      simp [mul_comm, sub_eq_add_neg]
    rw [this]
  rw [this, measureReal_def, Measure.addHaar_preimage_smul volume (by norm_num : (2 : ℝ) ≠ 0), measure_preimage_add_right, ENNReal.toReal_mul,
    ENNReal.toReal_ofReal (abs_nonneg _), measureReal_def, Module.finrank_fin_fun, abs_of_pos (by positivity), ← inv_pow]
  norm_num

theorem volume_pos_of {S : Set (Fin n → ℝ)} (c : Fin n → ℝ) {ε : ℝ} (hε : 0 < ε) (h : ∀ x, (∀ i, |x i - c i| < ε) → x ∈ S)
    (hf : ∀ x ∈ S, ∀ i, |x i| ≤ 1) : 0 < volume.real S := by
  have h1 : Metric.ball c ε ⊆ S := fun x hx => h x fun i => by
    rw [← Real.dist_eq]
    exact (dist_pi_lt_iff hε).1 (Metric.mem_ball.1 hx) i
  have h2 : S ⊆ Metric.closedBall 0 1 := fun x hx => by
    rw [Metric.mem_closedBall, dist_pi_le_iff (by norm_num)]
    intro i
    rw [Real.dist_eq, Pi.zero_apply, sub_zero]
    exact hf x hx i
  refine ENNReal.toReal_pos ?_ ?_
  · exact (lt_of_lt_of_le (Metric.measure_ball_pos volume c hε) (measure_mono h1)).ne'
  · exact (lt_of_le_of_lt (measure_mono h2) measure_closedBall_lt_top).ne

theorem ball_coord {x : Fin n → ℝ} (hx : x ∈ Ball n) (i : Fin n) : |x i| ≤ 1 := by
  rw [← abs_one, ← sq_le_sq, one_pow]
  exact (Finset.single_le_sum (f := fun i => x i ^ 2) (fun i _ => sq_nonneg _) (Finset.mem_univ i)).trans hx

theorem simplex_coord {x : Fin n → ℝ} (hx : x ∈ UnitSimplex n) (i : Fin n) : x i ≤ 1 :=
  (Finset.single_le_sum (f := fun i => x i) (fun i _ => hx.1 i) (Finset.mem_univ i)).trans hx.2

theorem volume_ball_pos (n : ℕ) : 0 < volume.real (Ball n) := by
  refine volume_pos_of 0 (ε := 1 / (n + 1)) (by positivity) (fun x hx => ?_) fun x hx i => ball_coord hx i
  have h1 : ∀ i, x i ^ 2 ≤ 1 / (n + 1 : ℝ) := fun i => by
    have h2 := hx i
    simp only [Pi.zero_apply, sub_zero] at h2
    have h3 : (1 : ℝ) / (n + 1) ≤ 1 := by rw [div_le_one (by positivity)]; linarith [Nat.cast_nonneg (α := ℝ) n]
    rw [← sq_abs, sq]
    calc |x i| * |x i| ≤ |x i| * 1 := by gcongr; linarith
      _ ≤ 1 / (n + 1 : ℝ) := by rw [mul_one]; exact h2.le
  calc ∑ i, x i ^ 2 ≤ ∑ _i : Fin n, 1 / (n + 1 : ℝ) := Finset.sum_le_sum fun i _ => h1 i
    _ = n / (n + 1 : ℝ) := by simp [div_eq_mul_inv]
    _ ≤ 1 := by rw [div_le_one (by positivity)]; linarith

theorem volume_simplex_pos (n : ℕ) : 0 < volume.real (UnitSimplex n) := by
  refine volume_pos_of (fun _ => 1 / (2 * (n + 1))) (ε := 1 / (2 * (n + 1))) (by positivity) (fun x hx => ?_) fun x hx i => ?_
  · have h1 : ∀ i, 0 < x i ∧ x i < 1 / (n + 1 : ℝ) := fun i => by
      have h2 := abs_lt.1 (hx i)
      have h3 : 1 / (n + 1 : ℝ) = 1 / (2 * (n + 1)) + 1 / (2 * (n + 1)) := by field_simp; norm_num
      rw [h3]
      constructor <;> linarith
    refine ⟨fun i => (h1 i).1.le, ?_⟩
    calc ∑ i, x i ≤ ∑ _i : Fin n, 1 / (n + 1 : ℝ) := Finset.sum_le_sum fun i _ => (h1 i).2.le
      _ = n / (n + 1 : ℝ) := by simp [div_eq_mul_inv]
      _ ≤ 1 := by rw [div_le_one (by positivity)]; linarith
  · rw [abs_of_nonneg (hx.1 i)]
    exact simplex_coord hx i

/-- **C84** `nsphere_sampling` (and `unit_disc_sampling`, which is the case `n = 2`): independent points, uniformly distributed in the unit ball, in every dimension. -/
theorem C84_ball (h : IsSource P X rand) (n : ℕ) :
    Uniform P (Ball n) List.ofFn fun k ω ys => Returns (nsphereSampling k) (fun i => List.ofFn (row n (X · ω) i)) ys := by
  have hset : ∀ B : Set (Fin n → ℝ), Accepted accBall B = (fun (r : Fin n → ℝ) i => r i * 2 - 1) ⁻¹' (B ∩ Ball n) := by
    intro B
    ext r
    have e : ∑ i, (r i * 2 - 1) * (r i * 2 - 1) = ∑ i, (r i * 2 - 1) ^ 2 := by simp only [sq]
    simp only [Accepted, accBall, Set.mem_ofPred_eq, Set.mem_inter_iff, Set.mem_preimage, Ball, e]
    by_cases hx : ∑ i, (r i * 2 - 1) ^ 2 ≤ 1
    · rw [if_pos hx]
      exact ⟨by rintro ⟨y, hy, h⟩; obtain rfl := Option.some.inj h; exact ⟨hy, hx⟩, fun h => ⟨_, h.1, rfl⟩⟩
    · rw [if_neg hx]
      exact ⟨(by rintro ⟨y, -, h⟩; cases h), fun h => absurd h.2 hx⟩
  have hmeas : ∀ B : Set (Fin n → ℝ), MeasurableSet B → MeasurableSet (Accepted accBall B) := fun B hB => by
    rw [hset]
    exact (by fun_prop : Measurable fun (r : Fin n → ℝ) i => r i * 2 - 1) (hB.inter (measurable_ball n))
  refine law_of (h.rows n) (acc := accBall) (c := (1 / 2) ^ n) (by positivity) (volume_ball_pos n) List.ofFn List.ofFn_injective (fun k ω ys => ?_) hmeas (fun B hB => ?_)
  · exact returns_map (nsphere_eq k) _ _
  · rw [randVec_eq, randVec_real _ (hmeas B hB), hset, real_inter_eq, volume_ball_map]
    intro x hx hn
    have h1 := fun i => abs_le.1 (ball_coord hx.2 i)
    rw [Set.mem_ofPred_eq, not_forall] at hn
    obtain ⟨i, hi⟩ := hn
    refine ⟨i, ?_⟩
    have h2 := h1 i
    simp only at h2
    by_contra hne
    refine hi ⟨by linarith, lt_of_le_of_ne (by linarith) hne⟩

/-- **C84** `nsimplex_sampling`: independent points, uniformly distributed in the unit simplex, in every dimension. -/
theorem C84_simplex (h : IsSource P X rand) (n : ℕ) :
    Uniform P (UnitSimplex n) List.ofFn fun k ω ys => Returns (nsimplexSampling k) (fun i => List.ofFn (row n (X · ω) i)) ys := by
  have hset : ∀ B : Set (Fin n → ℝ), Accepted accSimplex B = B ∩ {x | ∑ i, x i ≤ 1} := by
    intro B
    ext r
    simp only [Accepted, accSimplex, Set.mem_ofPred_eq, Set.mem_inter_iff]
    by_cases hx : ∑ i, r i ≤ 1
    · rw [if_pos hx]
      exact ⟨by rintro ⟨y, hy, h⟩; obtain rfl := Option.some.inj h; exact ⟨hy, hx⟩, fun h => ⟨_, h.1, rfl⟩⟩
    · rw [if_neg hx]
      exact ⟨(by rintro ⟨y, -, h⟩; cases h), fun h => absurd h.2 hx⟩
  have hmeas : ∀ B : Set (Fin n → ℝ), MeasurableSet B → MeasurableSet (Accepted accSimplex B) := fun B hB => by
    rw [hset]
    exact hB.inter (measurableSet_le (by fun_prop) measurable_const)
  refine law_of (h.rows n) (acc := accSimplex) (c := 1) (by positivity) (volume_simplex_pos n) List.ofFn List.ofFn_injective (fun k ω ys => ?_) hmeas (fun B hB => ?_)
  · exact returns_map (nsimplex_eq k) _ _
  · rw [randVec_eq, randVec_real _ (hmeas B hB), hset, one_mul, ← real_inter_eq (S := B ∩ UnitSimplex n) (C := {x | ∀ i, x i ∈ Set.Ico (0 : ℝ) 1})]
    · congr 1
      ext x
      simp only [Set.mem_inter_iff, Set.mem_ofPred_eq, UnitSimplex]
      constructor
      · rintro ⟨⟨h1, h2⟩, h3⟩
        exact ⟨⟨h1, fun i => (h3 i).1, h2⟩, h3⟩
      · rintro ⟨⟨h1, -, h2⟩, h3⟩
        exact ⟨⟨h1, h2⟩, h3⟩
    · intro x hx hn
      rw [Set.mem_ofPred_eq, not_forall] at hn
      obtain ⟨i, hi⟩ := hn
      refine ⟨i, ?_⟩
      by_contra hne
      exact hi ⟨hx.2.1 i, lt_of_le_of_ne (simplex_coord hx.2 i) hne⟩

theorem chunks_rows (n k : ℕ) (x : ℕ → ℝ) : chunks n k ((List.range (n * k)).map x) = (List.range k).map fun i => List.ofFn (row n x i) := by
  induction k generalizing x with
  | zero => rfl
  | succ k ih =>
    have h1 : n * (k + 1) = n + n * k := by ring
    rw [chunks, h1, List.range_add, List.map_append, List.take_append_of_le_length (by simp), List.take_of_length_le (by simp), List.drop_append_of_le_length (by simp),
      List.drop_of_length_le (by simp), List.nil_append, List.map_map, List.range_succ_eq_map, List.map_cons]
    congr 1
    · refine List.ext_getElem (by simp) fun i h1 h2 => by simp [row]
    · rw [show (x ∘ fun y => n + y) = fun j => x (n + j) from rfl, ih, List.map_map]
      refine List.map_congr_left fun i _ => ?_
      simp only [Function.comp_apply]
      congr 1
      funext j
      simp only [row]
      congr 1
      simp only [Nat.succ_eq_add_one]
      ring

/-- **C84** `ncube_sampling` (and `unit_square_sampling`, which is the case `n = 2`): independent points, uniformly distributed in the unit cube. -/
theorem C84_cube (h : IsSource P X rand) (n : ℕ) :
    Uniform P {x : Fin n → ℝ | ∀ i, x i ∈ Set.Ico (0 : ℝ) 1} List.ofFn fun k ω ys => ys = ncubeSampling n k ((List.range (n * k)).map (X · ω)) := by
  have hset : ∀ B : Set (Fin n → ℝ), Accepted some B = B := by
    intro B
    ext x
    simp [Accepted]
  have hrej : ∀ (k : ℕ) (rs : List (Fin n → ℝ)), reject some k rs = if k ≤ rs.length then some (rs.take k, rs.drop k) else none := by
    intro k rs
    induction rs generalizing k with
    | nil => cases k <;> simp [reject]
    | cons x xs ih =>
      cases k with
      | zero => simp [reject]
      | succ k =>
        rw [reject]
        simp only [ih k, List.length_cons, Nat.add_le_add_iff_right, List.take_succ_cons, List.drop_succ_cons]
        split <;> rfl
  have hvol : volume.real {x : Fin n → ℝ | ∀ i, x i ∈ Set.Ico (0 : ℝ) 1} = 1 := by
    have h1 := (h.rows n).isProb
    rw [randVec_eq] at h1
    have h2 := randVec_real (n := n) Set.univ MeasurableSet.univ
    rw [Set.univ_inter] at h2
    rw [← h2]
    exact probReal_univ
  refine law_of (h.rows n) (acc := some) (c := 1) (by positivity) (by rw [hvol]; norm_num) List.ofFn List.ofFn_injective (fun k ω ys => ?_) (fun B hB => by rwa [hset]) (fun B hB => ?_)
  · rw [ncubeSampling, chunks_rows]
    constructor
    · rintro rfl
      refine ⟨(List.range k).map (row n (X · ω)), by rw [List.map_map]; rfl, k, [], ?_⟩
      rw [hrej, if_pos (by simp)]
      simp
    · rintro ⟨zs, rfl, N, rest, h1⟩
      rw [hrej] at h1
      split at h1
      · rename_i hk
        obtain ⟨rfl, -⟩ := Prod.mk.inj (Option.some.inj h1)
        rw [List.length_map, List.length_range] at hk
        rw [← List.map_take, List.take_range, Nat.min_eq_left hk, List.map_map]
        rfl
      · cases h1
  · rw [hset, randVec_eq, randVec_real _ hB, one_mul]

/-! ## Certainty -/

theorem forall₂_replicate {β γ : Type} {E : Set β} {code : β → γ} (k : ℕ) (ys : List γ) :
    List.Forall₂ (fun y C => ∃ x ∈ C, y = code x) ys (List.replicate k E) ↔ ys.length = k ∧ ∀ y ∈ ys, ∃ x ∈ E, y = code x := by
  induction ys generalizing k with
  | nil => cases k <;> simp
  | cons y ys ih =>
    cases k with
    | zero => simp
    | succ k =>
      simp only [List.length_cons, List.replicate_succ, List.forall₂_cons, List.mem_cons, forall_eq_or_imp, Nat.add_right_cancel_iff, ih k]
      tauto

omit [IsProbabilityMeasure P] in
/-- **C84** A sampler whose results are uniformly distributed returns with probability one, with as many points as asked for, all of them in the domain. -/
theorem C84_almost_surely {β γ : Type} [MeasureSpace β] {E : Set β} {code : β → γ} {results : ℕ → Ω → List γ → Prop} (h : Uniform P E code results)
    (hE : MeasurableSet E) (hpos : 0 < volume.real E) (k : ℕ) :
    P.real {ω | ∃ ys, results k ω ys ∧ ys.length = k ∧ ∀ y ∈ ys, ∃ x ∈ E, y = code x} = 1 := by
  have h1 := h (List.replicate k E) fun C hC => by rw [List.eq_of_mem_replicate hC]; exact hE
  have h2 : share E E = 1 := by rw [share, Set.inter_self, div_self hpos.ne']
  rw [List.map_replicate, List.prod_replicate, h2, one_pow, List.length_replicate] at h1
  rw [← h1]
  congr 1
  ext ω
  simp only [Set.mem_ofPred_eq]
  exact exists_congr fun ys => and_congr_right fun _ => (forall₂_replicate k ys).symm

/-! ## The hypotheses can be met -/

/-- For every distribution there is a sequence of independent random numbers with this distribution. -/
theorem exists_source {α : Type} [MeasurableSpace α] (μ : Measure α) [IsProbabilityMeasure μ] :
    IsSource (Measure.infinitePi fun _ : ℕ => μ) (fun i ω => ω i) μ :=
  ⟨fun i => measurable_pi_apply i, iIndepFun_infinitePi (P := fun _ : ℕ => μ) (X := fun _ x => x) fun _ => measurable_id,
    fun i => Measure.infinitePi_map_eval (fun _ : ℕ => μ) i⟩

theorem rand_prob : IsProbabilityMeasure rand := ⟨by simp [rand]⟩

/-- So C84 is not empty: there is a source of uniform random numbers, and the probability that the first of two points in the unit disc is in the upper half and the second in the
left half is the product of the shares of the two half discs. -/
example : ∃ (Ω : Type) (_ : MeasurableSpace Ω) (P : Measure Ω) (_ : IsProbabilityMeasure P) (X : ℕ → Ω → ℝ), IsSource P X rand ∧
    P.real {ω | ∃ ys, Returns (nsphereSampling 2) (fun i => List.ofFn (row 2 (X · ω) i)) ys ∧
      List.Forall₂ (fun y C => ∃ x ∈ C, y = List.ofFn x) ys [{x : Fin 2 → ℝ | 0 < x 1}, {x | x 0 < 0}]} =
      share (Ball 2) {x : Fin 2 → ℝ | 0 < x 1} * share (Ball 2) {x : Fin 2 → ℝ | x 0 < 0} := by
  have := rand_prob
  refine ⟨ℕ → ℝ, inferInstance, Measure.infinitePi fun _ => rand, inferInstance, fun i ω => ω i, exists_source rand, ?_⟩
  have h := C84_ball (exists_source rand) 2 [{x : Fin 2 → ℝ | 0 < x 1}, {x | x 0 < 0}] (by
    simp only [List.mem_cons, List.not_mem_nil, or_false, forall_eq_or_imp, forall_eq]
    exact ⟨measurableSet_lt measurable_const (measurable_pi_apply 1), measurableSet_lt (measurable_pi_apply 0) measurable_const⟩)
  simpa using h

/-- The share of the left half of the interval. -/
example : share (Set.Icc (0 : ℝ) 1) (Set.Iio (1 / 2)) = 1 / 2 := by
  have : Set.Iio (1 / 2 : ℝ) ∩ Set.Icc 0 1 = Set.Ico 0 (1 / 2) := by
    ext x
    simp only [Set.mem_inter_iff, Set.mem_Iio, Set.mem_Icc, Set.mem_Ico]
    constructor
    · rintro ⟨h1, h2, h3⟩
      exact ⟨h2, h1⟩
    · rintro ⟨h1, h2⟩
      exact ⟨h2, h1, by linarith⟩
  rw [share, this]
  simp

end Verif.Sampling
