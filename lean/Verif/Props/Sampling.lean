import Verif.Model.Sampling
import Mathlib.Algebra.Order.BigOperators.Group.List
import Mathlib.Algebra.BigOperators.Ring.List
import Mathlib.Tactic.Linarith
import Mathlib.Tactic.FieldSimp
import Mathlib.Tactic.Ring
import Mathlib.Tactic.NormNum
/-!
# C55: random samplers stay in their domain, for every outcome of the generator
-/

namespace Verif.Sampling
open Verif

section Field
variable {K : Type} [Field K] [LinearOrder K] [IsStrictOrderedRing K]

/-- Outcomes of `np.random.rand`: numbers in [0, 1). -/
def Outcome (x : K) : Prop := 0 ≤ x ∧ x < 1

theorem closedSample_spec (rs : List K) (hrs : ∀ r ∈ rs, Outcome r) :
    (∀ x rest, closedUnitIntervalSample rs = some (x, rest) → 0 ≤ x ∧ x ≤ 1 ∧ (∃ used, rs = used ++ rest) ∧ x * (7 / 8) ∈ rs) ∧
      ((∃ r ∈ rs, r ≤ 7 / 8) → ∃ x rest, closedUnitIntervalSample rs = some (x, rest)) := by
  induction rs with
  | nil => simp [closedUnitIntervalSample]
  | cons r rs ih =>
    obtain ⟨ih1, ih2⟩ := ih (fun x hx => hrs x (List.mem_cons_of_mem _ hx))
    have hr := hrs r List.mem_cons_self
    simp only [closedUnitIntervalSample]
    split
    · rename_i h
      refine ⟨fun x rest hx => ?_, ?_⟩
      · obtain ⟨a, b, ⟨u, c⟩, d⟩ := ih1 x rest hx
        exact ⟨a, b, ⟨r :: u, by rw [c]; rfl⟩, List.mem_cons_of_mem _ d⟩
      · rintro ⟨y, hy, hy'⟩
        rcases List.mem_cons.1 hy with rfl | hy
        · exact absurd hy' (not_le.2 h)
        · exact ih2 ⟨y, hy, hy'⟩
    · rename_i h
      rw [not_lt] at h
      refine ⟨fun x rest hx => ?_, fun _ => ⟨_, _, rfl⟩⟩
      obtain ⟨rfl, rfl⟩ := Prod.mk.inj (Option.some.inj hx)
      refine ⟨div_nonneg hr.1 (by norm_num), (div_le_one (by norm_num)).2 h, ⟨[r], rfl⟩, ?_⟩
      rw [div_mul_cancel₀ _ (by norm_num)]
      exact List.mem_cons_self

/-- **C55** `closed_unit_interval_sample` returns a number in `[0, 1]` for every outcome of the generator, and it does return as soon as the
generator produces a number not greater than 0.875. -/
theorem C55_closed (rs : List K) (hrs : ∀ r ∈ rs, Outcome r) :
    (∀ x rest, closedUnitIntervalSample rs = some (x, rest) → 0 ≤ x ∧ x ≤ 1) ∧
      ((∃ r ∈ rs, r ≤ 7 / 8) → ∃ x rest, closedUnitIntervalSample rs = some (x, rest)) :=
  ⟨fun x rest h => ⟨((closedSample_spec rs hrs).1 x rest h).1, ((closedSample_spec rs hrs).1 x rest h).2.1⟩, (closedSample_spec rs hrs).2⟩

/-- **C55** Every number of `[0, 1]`, both end points included, is the result for some outcome of the generator. -/
theorem C55_closed_onto (x : K) (h0 : 0 ≤ x) (h1 : x ≤ 1) : ∃ r, Outcome r ∧ closedUnitIntervalSample [r] = some (x, []) := by
  refine ⟨x * (7 / 8), ⟨by positivity, by linarith⟩, ?_⟩
  simp only [closedUnitIntervalSample]
  rw [if_neg (by linarith), mul_div_cancel_right₀ _ (by norm_num)]

theorem openSample_spec (rs : List K) (hrs : ∀ r ∈ rs, Outcome r) :
    (∀ x rest, openUnitIntervalSample rs = some (x, rest) → 0 < x ∧ x < 1 ∧ (∃ used, rs = used ++ rest)) ∧
      ((∃ r ∈ rs, 1 / 8 < r) → ∃ x rest, openUnitIntervalSample rs = some (x, rest)) := by
  induction rs with
  | nil => simp [openUnitIntervalSample]
  | cons r rs ih =>
    obtain ⟨ih1, ih2⟩ := ih (fun x hx => hrs x (List.mem_cons_of_mem _ hx))
    have hr := hrs r List.mem_cons_self
    simp only [openUnitIntervalSample]
    split
    · rename_i h
      refine ⟨fun x rest hx => ?_, ?_⟩
      · obtain ⟨a, b, u, c⟩ := ih1 x rest hx
        exact ⟨a, b, r :: u, by rw [c]; rfl⟩
      · rintro ⟨y, hy, hy'⟩
        rcases List.mem_cons.1 hy with rfl | hy
        · exact absurd h (not_le.2 hy')
        · exact ih2 ⟨y, hy, hy'⟩
    · rename_i h
      rw [not_le] at h
      refine ⟨fun x rest hx => ?_, fun _ => ⟨_, _, rfl⟩⟩
      obtain ⟨rfl, rfl⟩ := Prod.mk.inj (Option.some.inj hx)
      refine ⟨div_pos (by linarith) (by norm_num), (div_lt_one (by norm_num)).2 (by linarith [hr.2]), ⟨[r], rfl⟩⟩

/-- **C55** `open_unit_interval_sample` returns a number in `(0, 1)`, as soon as the generator produces a number greater than 0.125. -/
theorem C55_open (rs : List K) (hrs : ∀ r ∈ rs, Outcome r) :
    (∀ x rest, openUnitIntervalSample rs = some (x, rest) → 0 < x ∧ x < 1) ∧
      ((∃ r ∈ rs, 1 / 8 < r) → ∃ x rest, openUnitIntervalSample rs = some (x, rest)) :=
  ⟨fun x rest h => ⟨((openSample_spec rs hrs).1 x rest h).1, ((openSample_spec rs hrs).1 x rest h).2.1⟩, (openSample_spec rs hrs).2⟩

/-- **C55** Every number of `(0, 1)` is the result for some outcome of the generator. -/
theorem C55_open_onto (x : K) (h0 : 0 < x) (h1 : x < 1) : ∃ r, Outcome r ∧ openUnitIntervalSample [r] = some (x, []) := by
  refine ⟨x * (7 / 8) + 1 / 8, ⟨by positivity, by linarith⟩, ?_⟩
  simp only [openUnitIntervalSample]
  rw [if_neg (by linarith), add_sub_cancel_right, mul_div_cancel_right₀ _ (by norm_num)]

/-- **C55** The half open samplers return on every outcome, numbers in `[0, 1)` and `(0, 1]` respectively. -/
theorem C55_half_open (r : K) (rs : List K) (hr : Outcome r) :
    (∃ x, leftClosedIntervalSample (r :: rs) = some (x, rs) ∧ 0 ≤ x ∧ x < 1) ∧
      ∃ x, rightClosedIntervalSample (r :: rs) = some (x, rs) ∧ 0 < x ∧ x ≤ 1 :=
  ⟨⟨r, rfl, hr⟩, ⟨r * -1 + 1, rfl, by linarith [hr.2], by linarith [hr.1]⟩⟩

/-- **C55** Every number of the half open intervals is the result for some outcome of the generator. -/
theorem C55_half_open_onto (x : K) :
    (0 ≤ x → x < 1 → ∃ r, Outcome r ∧ leftClosedIntervalSample [r] = some (x, [])) ∧
      (0 < x → x ≤ 1 → ∃ r, Outcome r ∧ rightClosedIntervalSample [r] = some (x, [])) :=
  ⟨fun h0 h1 => ⟨x, ⟨h0, h1⟩, rfl⟩, fun h0 h1 => ⟨1 - x, ⟨by linarith, by linarith⟩, by simp [rightClosedIntervalSample]⟩⟩

theorem sampling_spec (sample : List K → Option (K × List K)) (P : K → Prop)
    (h : ∀ rs, (∀ r ∈ rs, Outcome r) → ∀ x rest, sample rs = some (x, rest) → P x ∧ ∃ used, rs = used ++ rest) (n : Nat) (rs : List K)
    (hrs : ∀ r ∈ rs, Outcome r) : ∀ ps rest, sampling sample n rs = some (ps, rest) → ps.length = n ∧ ∀ p ∈ ps, P p := by
  induction n generalizing rs with
  | zero =>
    intro ps rest hp
    obtain ⟨rfl, rfl⟩ := Prod.mk.inj (Option.some.inj hp)
    simp
  | succ n ih =>
    intro ps rest hp
    simp only [sampling] at hp
    cases hs : sample rs with
    | none => rw [hs] at hp; simp at hp
    | some v =>
      obtain ⟨x, rs'⟩ := v
      rw [hs] at hp
      simp only at hp
      obtain ⟨hx, used, hu⟩ := h rs hrs x rs' hs
      have hrs' : ∀ r ∈ rs', Outcome r := fun r hr => hrs r (by rw [hu]; exact List.mem_append_right _ hr)
      cases ht : sampling sample n rs' with
      | none => rw [ht] at hp; simp at hp
      | some w =>
        obtain ⟨xs, rs''⟩ := w
        rw [ht] at hp
        simp only at hp
        obtain ⟨rfl, rfl⟩ := Prod.mk.inj (Option.some.inj hp)
        obtain ⟨h1, h2⟩ := ih rs' hrs' xs rs'' ht
        refine ⟨by simp [h1], fun p hp => ?_⟩
        rcases List.mem_cons.1 hp with rfl | hp
        · exact hx
        · exact h2 p hp

/-- **C55** The array samplers return `num_points` numbers, all in their interval. -/
theorem C55_intervals (n : Nat) (rs : List K) (hrs : ∀ r ∈ rs, Outcome r) (ps rest : List K) :
    (sampling closedUnitIntervalSample n rs = some (ps, rest) → ps.length = n ∧ ∀ p ∈ ps, 0 ≤ p ∧ p ≤ 1) ∧
      (sampling openUnitIntervalSample n rs = some (ps, rest) → ps.length = n ∧ ∀ p ∈ ps, 0 < p ∧ p < 1) ∧
      (sampling rightClosedIntervalSample n rs = some (ps, rest) → ps.length = n ∧ ∀ p ∈ ps, 0 < p ∧ p ≤ 1) := by
  refine ⟨fun h => ?_, fun h => ?_, fun h => ?_⟩
  · refine sampling_spec _ (fun p => 0 ≤ p ∧ p ≤ 1) (fun rs hrs x rest h => ?_) n rs hrs ps rest h
    obtain ⟨a, b, c, -⟩ := (closedSample_spec rs hrs).1 x rest h
    exact ⟨⟨a, b⟩, c⟩
  · refine sampling_spec _ (fun p => 0 < p ∧ p < 1) (fun rs hrs x rest h => ?_) n rs hrs ps rest h
    obtain ⟨a, b, c⟩ := (openSample_spec rs hrs).1 x rest h
    exact ⟨⟨a, b⟩, c⟩
  · refine sampling_spec _ (fun p => 0 < p ∧ p ≤ 1) (fun rs hrs x rest h => ?_) n rs hrs ps rest h
    cases rs with
    | nil => simp [rightClosedIntervalSample] at h
    | cons r rs =>
      obtain ⟨y, hy, h1, h2⟩ := (C55_half_open r rs (hrs r List.mem_cons_self)).2
      rw [hy] at h
      obtain ⟨rfl, rfl⟩ := Prod.mk.inj (Option.some.inj h)
      exact ⟨⟨h1, h2⟩, [r], rfl⟩

omit [IsStrictOrderedRing K] in
/-- **C55** `ncube_sampling` and `unit_square_sampling`: `num_points` points with `n` coordinates in `[0, 1)`; point `i` consists of the numbers
`i n, …, i n + n - 1` of the generator. -/
theorem C55_cube (n k : Nat) (rs : List K) (hlen : rs.length = n * k) (hrs : ∀ r ∈ rs, Outcome r) :
    (ncubeSampling n k rs).length = k ∧ (∀ p ∈ ncubeSampling n k rs, p.length = n ∧ ∀ x ∈ p, Outcome x) ∧ (ncubeSampling n k rs).flatten = rs := by
  unfold ncubeSampling
  induction k generalizing rs with
  | zero =>
    have : rs = [] := List.length_eq_zero_iff.1 (by simpa using hlen)
    subst this
    simp [chunks]
  | succ k ih =>
    have hn : n ≤ rs.length := by rw [hlen]; exact Nat.le_mul_of_pos_right n (by omega)
    obtain ⟨h1, h2, h3⟩ := ih (rs.drop n) (by rw [List.length_drop, hlen, Nat.mul_succ]; omega)
      (fun r hr => hrs r (List.mem_of_mem_drop hr))
    refine ⟨by simp [chunks, h1], ?_, by simp [chunks, h3]⟩
    intro p hp
    simp only [chunks] at hp
    rcases List.mem_cons.1 hp with rfl | hp
    · exact ⟨by simpa using hn, fun x hx => hrs x (List.mem_of_mem_take hx)⟩
    · exact h2 p hp

/-- The squared distance of a point from the origin. -/
def sqNorm (p : List K) : K := (p.map (fun x => x ^ 2)).sum

omit [IsStrictOrderedRing K] [LinearOrder K] in
theorem dotSelf_eq (p : List K) : dotSelf p = sqNorm p := by
  unfold dotSelf sqNorm
  simp [pow_two]

omit [IsStrictOrderedRing K] in
/-- **C55** `nsphere_sampling` and `unit_disc_sampling`: `num_points` points with `n` coordinates inside the closed unit ball; and the sampler
returns if the generator produces sufficiently many acceptable points. -/
theorem C55_ball (n k : Nat) (rs : List (List K)) (hn : ∀ r ∈ rs, r.length = n) :
    (∀ ps rest, nsphereSampling k rs = some (ps, rest) → ps.length = k ∧ ∀ p ∈ ps, p.length = n ∧ sqNorm p ≤ 1) ∧
      (k ≤ (rs.filter (fun r => decide (sqNorm (r.map (fun x => 2 * x - 1)) ≤ 1))).length → ∃ ps rest, nsphereSampling k rs = some (ps, rest)) := by
  induction rs generalizing k with
  | nil =>
    cases k with
    | zero =>
      refine ⟨fun ps rest h => ?_, fun _ => ⟨_, _, rfl⟩⟩
      obtain ⟨rfl, rfl⟩ := Prod.mk.inj (Option.some.inj h)
      simp
    | succ k => exact ⟨fun ps rest h => by simp [nsphereSampling] at h, fun h => by simp at h⟩
  | cons r rs ih =>
    have hn' : ∀ r ∈ rs, r.length = n := fun x hx => hn x (List.mem_cons_of_mem _ hx)
    cases k with
    | zero =>
      refine ⟨fun ps rest h => ?_, fun _ => ⟨_, _, rfl⟩⟩
      obtain ⟨rfl, rfl⟩ := Prod.mk.inj (Option.some.inj h)
      simp
    | succ k =>
      have hcomm : (r.map (fun x => x * 2 - 1)) = r.map (fun x => 2 * x - 1) := by simp [mul_comm]
      simp only [nsphereSampling]
      rw [dotSelf_eq, hcomm]
      split
      · rename_i hle
        rw [not_lt] at hle
        obtain ⟨h1, h2⟩ := ih k hn'
        refine ⟨fun ps rest h => ?_, fun h => ?_⟩
        · cases ht : nsphereSampling k rs with
          | none => rw [ht] at h; simp at h
          | some w =>
            obtain ⟨qs, rs'⟩ := w
            rw [ht] at h
            simp only at h
            obtain ⟨rfl, rfl⟩ := Prod.mk.inj (Option.some.inj h)
            obtain ⟨h3, h4⟩ := h1 qs rs' ht
            refine ⟨by simp [h3], fun p hp => ?_⟩
            rcases List.mem_cons.1 hp with rfl | hp
            · exact ⟨by simp [hn r List.mem_cons_self], hle⟩
            · exact h4 p hp
        · rw [List.filter_cons_of_pos (by simpa using hle)] at h
          obtain ⟨ps, rest, h5⟩ := h2 (by simpa using h)
          rw [h5]
          exact ⟨_, _, rfl⟩
      · rename_i hgt
        rw [not_not] at hgt
        obtain ⟨h1, h2⟩ := ih (k + 1) hn'
        refine ⟨h1, fun h => h2 ?_⟩
        rwa [List.filter_cons_of_neg (by simpa using hgt)] at h

omit [IsStrictOrderedRing K] in
theorem simplexSample_spec (n : Nat) (rs : List (List K)) (hn : ∀ r ∈ rs, r.length = n ∧ ∀ x ∈ r, Outcome x) :
    (∀ p rest, simplexSample rs = some (p, rest) →
      p.length = n ∧ (∀ x ∈ p, 0 ≤ x) ∧ p.sum ≤ 1 ∧ (∃ used, rs = used ++ rest) ∧
        (rest.filter (fun r => decide (r.sum ≤ 1))).length + 1 = (rs.filter (fun r => decide (r.sum ≤ 1))).length) ∧
      (1 ≤ (rs.filter (fun r => decide (r.sum ≤ 1))).length → ∃ p rest, simplexSample rs = some (p, rest)) := by
  induction rs with
  | nil => simp [simplexSample]
  | cons r rs ih =>
    have hr := hn r List.mem_cons_self
    obtain ⟨h1, h2⟩ := ih (fun x hx => hn x (List.mem_cons_of_mem _ hx))
    simp only [simplexSample]
    split
    · rename_i h
      refine ⟨fun p rest hp => ?_, fun h' => h2 (by rwa [List.filter_cons_of_neg (by simpa using h)] at h')⟩
      obtain ⟨a, b, c, ⟨u, d⟩, e⟩ := h1 p rest hp
      refine ⟨a, b, c, ⟨r :: u, by rw [d]; rfl⟩, ?_⟩
      rw [List.filter_cons_of_neg (by simpa using h), e]
    · rename_i h
      rw [not_lt] at h
      refine ⟨fun p rest hp => ?_, fun _ => ⟨_, _, rfl⟩⟩
      obtain ⟨rfl, rfl⟩ := Prod.mk.inj (Option.some.inj hp)
      refine ⟨hr.1, fun x hx => (hr.2 x hx).1, h, ⟨[r], rfl⟩, ?_⟩
      rw [List.filter_cons_of_pos (by simpa using h)]
      rfl

omit [IsStrictOrderedRing K] in
/-- **C55** `nsimplex_sampling`: `num_points` points in the closed unit simplex (coordinates non-negative, sum at most one); the sampler returns
if the generator produces sufficiently many acceptable points. -/
theorem C55_simplex (n k : Nat) (rs : List (List K)) (hn : ∀ r ∈ rs, r.length = n ∧ ∀ x ∈ r, Outcome x) :
    (∀ ps rest, nsimplexSampling k rs = some (ps, rest) →
      ps.length = k ∧ ∀ p ∈ ps, p.length = n ∧ (∀ x ∈ p, 0 ≤ x) ∧ p.sum ≤ 1) ∧
      (k ≤ (rs.filter (fun r => decide (r.sum ≤ 1))).length → ∃ ps rest, nsimplexSampling k rs = some (ps, rest)) := by
  induction k generalizing rs with
  | zero =>
    refine ⟨fun ps rest h => ?_, fun _ => ⟨_, _, rfl⟩⟩
    obtain ⟨rfl, rfl⟩ := Prod.mk.inj (Option.some.inj h)
    simp
  | succ k ih =>
    obtain ⟨h1, h2⟩ := simplexSample_spec n rs hn
    simp only [nsimplexSampling]
    cases hs : simplexSample rs with
    | none =>
      refine ⟨fun ps rest h => by simp at h, fun h => ?_⟩
      obtain ⟨p, rest, hp⟩ := h2 (by omega)
      rw [hs] at hp
      simp at hp
    | some w =>
      obtain ⟨p, rs'⟩ := w
      obtain ⟨a, b, c, ⟨u, d⟩, e⟩ := h1 p rs' hs
      obtain ⟨h3, h4⟩ := ih rs' (fun x hx => hn x (by rw [d]; exact List.mem_append_right _ hx))
      simp only
      refine ⟨fun ps rest h => ?_, fun h => ?_⟩
      · cases ht : nsimplexSampling k rs' with
        | none => rw [ht] at h; simp at h
        | some w =>
          obtain ⟨qs, rs''⟩ := w
          rw [ht] at h
          simp only at h
          obtain ⟨rfl, rfl⟩ := Prod.mk.inj (Option.some.inj h)
          obtain ⟨h5, h6⟩ := h3 qs rs'' ht
          refine ⟨by simp [h5], fun q hq => ?_⟩
          rcases List.mem_cons.1 hq with rfl | hq
          · exact ⟨a, b, c⟩
          · exact h6 q hq
      · obtain ⟨qs, rest, hq⟩ := h4 (by omega)
        rw [hq]
        exact ⟨_, _, rfl⟩

example : (∀ r ∈ ([9 / 10, 1 / 2, 0] : List ℚ), Outcome r) ∧ closedUnitIntervalSample ([9 / 10, 1 / 2, 0] : List ℚ) = some (4 / 7, [0]) := by
  refine ⟨?_, ?_⟩
  · intro r hr
    simp at hr
    rcases hr with rfl | rfl | rfl <;> constructor <;> norm_num
  · simp only [closedUnitIntervalSample]
    norm_num

example : nsimplexSampling 1 ([[3 / 4, 1 / 2], [1 / 4, 1 / 2]] : List (List ℚ)) = some ([[1 / 4, 1 / 2]], []) := by
  simp only [nsimplexSampling, simplexSample]
  norm_num

example : nsphereSampling 1 ([[0, 0], [1 / 4, 1 / 2]] : List (List ℚ)) = some ([[-1 / 2, 0]], []) := by
  simp [nsphereSampling, dotSelf]
  norm_num

end Field

/-- **C55** `nsphere_surface_sampling` and `unit_circle_sampling`: points on the unit sphere, for every outcome of the generator without a
vanishing row. -/
theorem C55_sphere (n : Nat) (rs : List (List ℝ)) (hn : ∀ r ∈ rs, r.length = n) (hz : ∀ r ∈ rs, ∃ x ∈ r, x ≠ 0) :
    (nsphereSurfaceSampling rs).length = rs.length ∧ ∀ p ∈ nsphereSurfaceSampling rs, p.length = n ∧ sqNorm p = 1 := by
  refine ⟨by simp [nsphereSurfaceSampling], ?_⟩
  intro p hp
  obtain ⟨r, hr, rfl⟩ := List.mem_map.1 hp
  refine ⟨by simpa using hn r hr, ?_⟩
  obtain ⟨x, hx, hx0⟩ := hz r hr
  have hpos : 0 < dotSelf r := by
    unfold dotSelf
    refine lt_of_lt_of_le (mul_self_pos.2 hx0) ?_
    exact List.single_le_sum (by intro y hy; obtain ⟨z, -, rfl⟩ := List.mem_map.1 hy; exact mul_self_nonneg z) _ (List.mem_map.2 ⟨x, hx, rfl⟩)
  have hsq := Real.mul_self_sqrt hpos.le
  have hsp := Real.sqrt_pos.2 hpos
  unfold sqNorm
  rw [List.map_map]
  have e : ((fun x : ℝ => x ^ 2) ∘ fun x => x / √(dotSelf r)) = fun x => (x * x) * (1 / dotSelf r) := by
    funext y
    simp only [Function.comp]
    generalize √(dotSelf r) = s at hsq hsp
    rw [← hsq]
    field_simp
  rw [e, List.sum_map_mul_right, show (r.map (fun x => x * x)).sum = dotSelf r from rfl]
  field_simp

example : ∀ r ∈ ([[3, 4], [0, -2]] : List (List ℝ)), ∃ x ∈ r, x ≠ 0 := by
  intro r hr
  simp at hr
  rcases hr with rfl | rfl
  · exact ⟨3, by simp, by norm_num⟩
  · exact ⟨-2, by simp, by norm_num⟩

end Verif.Sampling
