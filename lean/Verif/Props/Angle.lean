import Verif.Model.Angle
import Mathlib.Analysis.Real.Pi.Bounds
import Mathlib.Tactic.Linarith
import Mathlib.Tactic.Ring
import Mathlib.Tactic.FieldSimp
import Mathlib.Tactic.NormNum
/-!
# C52: periodic reduction, clamping, distance and direction between angles, the dial
-/

namespace Verif.Angle
open Verif

/-! ## Specification -/

/-- `a` and `b` differ by an integer multiple of `t`. -/
def SameModulo {K : Type} [Field K] (t a b : K) : Prop := ∃ k : ℤ, a = b + k * t

/-- A sequence of total positions that starts in `start`, shows the given angles (up to full turns), and turns in every step by the shortest
signed turn, i.e. by an angle in `[-π, π)`. -/
inductive Unwraps : ℝ → List ℝ → ℝ → Prop
  | nil (x : ℝ) : Unwraps x [] x
  | cons {x y z a : ℝ} {as : List ℝ} (hmod : SameModulo (2 * Real.pi) y a) (hlo : -Real.pi ≤ y - x) (hhi : y - x < Real.pi)
      (h : Unwraps y as z) : Unwraps x (a :: as) z

section RealInterval
variable {K : Type} [Field K] [LinearOrder K] [IsStrictOrderedRing K] [FloorRing K]

omit [Field K] [IsStrictOrderedRing K] [FloorRing K] in
/-- **C52** `constrain_to_range` returns the element itself inside the range, the nearest end point outside. -/
theorem C52_constrain_to_range (s lo hi : K) (h : lo ≤ hi) :
    (lo ≤ constrainToRange s lo hi ∧ constrainToRange s lo hi ≤ hi) ∧ (lo ≤ s → s ≤ hi → constrainToRange s lo hi = s) ∧
      (s < lo → constrainToRange s lo hi = lo) ∧ (hi < s → constrainToRange s lo hi = hi) := by
  unfold constrainToRange
  refine ⟨⟨le_max_right _ _, max_le (min_le_right _ _) h⟩, fun h1 h2 => by rw [min_eq_left h2, max_eq_left h1], fun h1 => ?_, fun h1 => ?_⟩
  · exact max_eq_right ((min_le_left _ _).trans h1.le)
  · rw [min_eq_right h1.le, max_eq_left h]

omit [Field K] [IsStrictOrderedRing K] [FloorRing K] in
/-- **C52** The range tests. -/
theorem C52_in_range (s lo hi : K) :
    (inClosedRange s lo hi = true ↔ s ∈ Set.Icc lo hi) ∧ (inOpenRange s lo hi = true ↔ s ∈ Set.Ioo lo hi) ∧
      (inLeftClosedRange s lo hi = true ↔ s ∈ Set.Ico lo hi) ∧ (inRightClosedRange s lo hi = true ↔ s ∈ Set.Ioc lo hi) := by
  simp [inClosedRange, inOpenRange, inLeftClosedRange, inRightClosedRange]

theorem fmod_pos {x t : K} (ht : 0 < t) (hx : 0 ≤ x) : ∃ b, fmod x t = .ok b ∧ 0 ≤ b ∧ b < t ∧ SameModulo t b x := by
  refine ⟨x - t * ((⌊x / t⌋ : Int) : K), ?_, ?_, ?_, -⌊x / t⌋, ?_⟩
  · unfold fmod
    rw [if_neg ht.ne', if_pos (div_nonneg hx ht.le)]
  · have h1 := Int.floor_le (x / t)
    rw [le_div_iff₀ ht] at h1
    linarith [mul_comm t ((⌊x / t⌋ : Int) : K)]
  · have h1 := Int.lt_floor_add_one (x / t)
    rw [div_lt_iff₀ ht] at h1
    nlinarith
  · push_cast
    ring

/-- **C52** For every real `a` and period `t > 0`, `equivalent_periodic_element(a, t)` returns the element of `[0, t)` that differs from `a`
by an integer multiple of `t`. -/
theorem C52_equivalent_periodic_element (a t : K) (ht : 0 < t) :
    ∃ b, equivalentPeriodicElement a t = .ok b ∧ 0 ≤ b ∧ b < t ∧ SameModulo t b a := by
  unfold equivalentPeriodicElement
  split
  · rename_i h
    rw [(C52_in_range a 0 t).2.2.1] at h
    exact ⟨a, rfl, h.1, h.2, 0, by simp⟩
  · split
    · rename_i h
      obtain ⟨b, hb, h0, h1, k, hk⟩ := fmod_pos (x := a + (((⌊-a / t⌋ : Int) : K) + 1) * t) ht (by
        have h1 := Int.lt_floor_add_one (-a / t)
        rw [div_lt_iff₀ ht] at h1
        linarith)
      refine ⟨b, ?_, h0, h1, k + (⌊-a / t⌋ + 1), ?_⟩
      · unfold floorDiv
        rw [if_neg ht.ne', Py.bind_ok, hb]
      · rw [hk]
        push_cast
        ring
    · rename_i h
      obtain ⟨b, hb, h0, h1, h2⟩ := fmod_pos ht (not_lt.1 h)
      exact ⟨b, hb, h0, h1, h2⟩

omit [FloorRing K] [LinearOrder K] [IsStrictOrderedRing K] in
theorem SameModulo.trans {t a b c : K} (h : SameModulo t a b) (h' : SameModulo t b c) : SameModulo t a c := by
  obtain ⟨k, hk⟩ := h
  obtain ⟨l, hl⟩ := h'
  exact ⟨k + l, by rw [hk, hl]; push_cast; ring⟩

omit [FloorRing K] in
/-- There is only one such element, so that C52_equivalent_periodic_element determines the result. -/
theorem SameModulo.unique {t a b : K} (h : SameModulo t a b) (h1 : |a - b| < t) : a = b := by
  obtain ⟨k, hk⟩ := h
  have ht : 0 < t := (abs_nonneg _).trans_lt h1
  have h2 : a - b = k * t := by rw [hk]; ring
  rw [h2, abs_mul, abs_of_pos ht] at h1
  have h3 : |(k : K)| < 1 := by
    by_contra h4
    nlinarith [not_lt.1 h4]
  have h5 : |k| < 1 := by exact_mod_cast h3
  have h6 : k = 0 := Int.abs_lt_one_iff.1 h5
  rw [hk, h6]; simp

/-- **C52** The result of `equivalent_periodic_element` is the same for all representatives, and `0` period is an error. -/
theorem C52_equivalent_periodic_element_unique (a a' t : K) (ht : 0 < t) (h : SameModulo t a a') :
    equivalentPeriodicElement a t = equivalentPeriodicElement a' t := by
  obtain ⟨b, hb, h0, h1, k, h2⟩ := C52_equivalent_periodic_element a t ht
  obtain ⟨b', hb', h0', h1', k', h2'⟩ := C52_equivalent_periodic_element a' t ht
  obtain ⟨l, hl⟩ := h
  rw [hb, hb', SameModulo.unique (t := t) (a := b) (b := b') ⟨k + l - k', ?_⟩ ?_]
  · rw [h2, h2', hl]
    push_cast
    ring
  · rw [abs_lt]
    constructor <;> linarith

omit [IsStrictOrderedRing K] in
/-- **C52** The period `0` is rejected. -/
theorem C52_period_zero (a : K) :
    equivalentPeriodicElement a 0 = .error (if a < 0 then .zeroDivision else .value) := by
  unfold equivalentPeriodicElement
  rw [if_neg (by rw [(C52_in_range a 0 0).2.2.1]; simp)]
  split
  · simp [floorDiv, Py.bind_error]
  · simp [fmod]

/-- **C52** For a negative period the result has the sign of `a` (or is zero), and its absolute value is less than that of the period. -/
theorem C52_negative_period (a t : K) (ht : t < 0) :
    ∃ b, equivalentPeriodicElement a t = .ok b ∧ SameModulo t b a ∧ (0 ≤ a → 0 ≤ b ∧ b < -t) ∧ (a < 0 → t < b ∧ b ≤ 0) := by
  unfold equivalentPeriodicElement
  rw [if_neg (by rw [(C52_in_range a 0 t).2.2.1]; exact fun h => absurd (h.1.trans_lt h.2) (not_lt.2 ht.le))]
  split
  · rename_i h
    unfold floorDiv
    rw [if_neg ht.ne, Py.bind_ok]
    set k := ⌊-a / t⌋ with hk
    have h1 : (k : K) ≤ -a / t := Int.floor_le _
    have h2 : -a / t < (k : K) + 1 := Int.lt_floor_add_one _
    rw [le_div_iff_of_neg ht] at h1
    rw [div_lt_iff_of_neg ht] at h2
    set x := a + ((k : K) + 1) * t with hx
    have hx0 : x < 0 := by rw [hx]; linarith
    have hxt : t ≤ x := by rw [hx]; linarith [add_mul (k : K) 1 t]
    have hq : 0 ≤ x / t := div_nonneg_of_nonpos hx0.le ht.le
    unfold fmod
    rw [if_neg ht.ne, if_pos hq]
    refine ⟨_, rfl, ⟨(k + 1) - ⌊x / t⌋, ?_⟩, fun h' => absurd h (not_lt.2 h'), fun _ => ?_⟩
    · rw [hx]
      push_cast
      ring
    · have h3 : (⌊x / t⌋ : K) ≤ x / t := Int.floor_le _
      have h4 : x / t < (⌊x / t⌋ : K) + 1 := Int.lt_floor_add_one _
      rw [le_div_iff_of_neg ht] at h3
      rw [div_lt_iff_of_neg ht] at h4
      constructor
      · linarith [add_mul (⌊x / t⌋ : K) 1 t, mul_comm t (⌊x / t⌋ : K)]
      · linarith [mul_comm t (⌊x / t⌋ : K)]
  · rename_i h
    have h0 := not_lt.1 h
    unfold fmod
    rw [if_neg ht.ne]
    by_cases hq : 0 ≤ a / t
    · have ha : a = 0 := by
        rcases h0.eq_or_lt with h1 | h1
        · exact h1.symm
        · exact absurd hq (not_le.2 (div_neg_of_pos_of_neg h1 ht))
      rw [if_pos hq, ha]
      simp only [zero_div, Int.floor_zero, Int.cast_zero, mul_zero, sub_zero]
      exact ⟨0, rfl, ⟨0, by simp⟩, fun _ => ⟨le_rfl, by linarith⟩, fun h => absurd h (lt_irrefl _)⟩
    · rw [if_neg hq]
      refine ⟨_, rfl, ⟨-⌈a / t⌉, ?_⟩, fun _ => ?_, fun h' => absurd h' h⟩
      · push_cast
        ring
      · have h3 : a / t ≤ (⌈a / t⌉ : K) := Int.le_ceil _
        have h4 : (⌈a / t⌉ : K) < a / t + 1 := Int.ceil_lt_add_one _
        rw [div_le_iff_of_neg ht] at h3
        have h5 : (⌈a / t⌉ : K) - 1 < a / t := by linarith
        rw [lt_div_iff_of_neg ht] at h5
        constructor
        · linarith [mul_comm t (⌈a / t⌉ : K)]
        · linarith [mul_comm t (⌈a / t⌉ : K), sub_mul (⌈a / t⌉ : K) 1 t]

example : equivalentPeriodicElement (-7 : ℚ) 3 = .ok 2 := by
  obtain ⟨b, hb, h0, h1, k, hk⟩ := C52_equivalent_periodic_element (-7 : ℚ) 3 (by norm_num)
  rw [hb, SameModulo.unique (t := (3 : ℚ)) (a := b) (b := 2) ⟨k - 3, by rw [hk]; push_cast; ring⟩ (by rw [abs_lt]; constructor <;> linarith)]
example : (0 : ℚ) < 3 := by norm_num

end RealInterval

open Real

/-- **C52** Degrees and radians convert back and forth, and a full turn is 360 degrees. -/
theorem C52_degrees (a : ℝ) :
    radiansToDegrees (degreesToRadians a) = a ∧ degreesToRadians (radiansToDegrees a) = a ∧ degreesToRadians 360 = 2 * π := by
  have := pi_ne_zero
  unfold radiansToDegrees degreesToRadians
  refine ⟨by field_simp, by field_simp, by ring⟩

/-- **C52** Every angle has a representative in `[0, 2 π)` and `to_positive_angle_interval` returns it. -/
theorem C52_positive_interval (a : ℝ) :
    ∃ b, toPositiveAngleInterval a = .ok b ∧ 0 ≤ b ∧ b < 2 * π ∧ SameModulo (2 * π) b a :=
  C52_equivalent_periodic_element a (2 * π) (by positivity)

/-- **C52** Every angle has a representative in `[-π, π)` and `to_centered_angle_interval` returns it. -/
theorem C52_centered_interval (a : ℝ) :
    ∃ b, toCenteredAngleInterval a = .ok b ∧ -π ≤ b ∧ b < π ∧ SameModulo (2 * π) b a := by
  have hpi := pi_pos
  obtain ⟨b, hb, h0, h1, k, hk⟩ := C52_positive_interval a
  unfold toCenteredAngleInterval
  simp only [hb, Py.bind_ok]
  split
  · rename_i h
    exact ⟨b - 2 * π, rfl, by linarith, by linarith, k - 1, by rw [hk]; push_cast; ring⟩
  · rename_i h
    exact ⟨b, rfl, by linarith, by linarith [not_le.1 h], k, hk⟩

/-- The representative in `[-π, π)` is unique. -/
theorem centered_eq {a b : ℝ} (h0 : -π ≤ b) (h1 : b < π) (h : SameModulo (2 * π) b a) : toCenteredAngleInterval a = .ok b := by
  obtain ⟨c, hc, h2, h3, l, hl⟩ := C52_centered_interval a
  obtain ⟨k, hk⟩ := h
  rw [hc, SameModulo.unique (t := 2 * π) (a := c) (b := b) ⟨l - k, by rw [hl, hk]; push_cast; ring⟩
    (by rw [abs_lt]; constructor <;> linarith)]

theorem inRange_iff (a : ℝ) : inLeftClosedRange a (-π) π = true ↔ -π ≤ a ∧ a < π := (C52_in_range a (-π) π).2.2.1

/-- **C52** `distance(a0, a1)` is the length of the shortest turn from `a0` to `a1`: it is the least of the numbers `|a0 - a1 + 2 π k|`. -/
theorem C52_distance (a0 a1 : ℝ) (h0 : -π ≤ a0 ∧ a0 < π) (h1 : -π ≤ a1 ∧ a1 < π) :
    ∃ d, distance a0 a1 = .ok d ∧ distance a1 a0 = .ok d ∧ 0 ≤ d ∧ d ≤ π ∧
      (∃ k : ℤ, d = |a1 - a0 + k * (2 * π)|) ∧ ∀ k : ℤ, d ≤ |a1 - a0 + k * (2 * π)| := by
  have hpi := pi_pos
  have hd : |a0 - a1| < 2 * π := by rw [abs_lt]; constructor <;> linarith [h0.1, h0.2, h1.1, h1.2]
  have e : ∀ x y : ℝ, (-π ≤ x ∧ x < π) → (-π ≤ y ∧ y < π) → distance x y = .ok (min |x - y| (2 * π - |x - y|)) := by
    intro x y hx hy
    unfold distance
    rw [(inRange_iff x).2 hx, (inRange_iff y).2 hy]
    rfl
  refine ⟨min |a0 - a1| (2 * π - |a0 - a1|), e _ _ h0 h1, by rw [e _ _ h1 h0, abs_sub_comm], le_min (abs_nonneg _) (by linarith), ?_, ?_, ?_⟩
  · rcases le_total |a0 - a1| π with h | h
    · exact (min_le_left _ _).trans h
    · exact (min_le_right _ _).trans (by linarith)
  · rcases le_total |a0 - a1| (2 * π - |a0 - a1|) with h | h
    · exact ⟨0, by rw [min_eq_left h, abs_sub_comm]; simp⟩
    · rcases le_total a0 a1 with h2 | h2
      · refine ⟨-1, ?_⟩
        rw [min_eq_right h, abs_of_nonpos (by linarith), abs_of_nonpos]
        · push_cast; ring
        · rw [abs_of_nonpos (by linarith)] at hd
          push_cast; linarith
      · refine ⟨1, ?_⟩
        rw [min_eq_right h, abs_of_nonneg (by linarith), abs_of_nonneg]
        · push_cast; ring
        · rw [abs_of_nonneg (by linarith)] at hd
          push_cast; linarith
  · intro k
    by_cases hk : k = 0
    · rw [hk, abs_sub_comm]; simp
    · refine (min_le_right _ _).trans ?_
      have h2 : (1 : ℝ) ≤ |(k : ℝ)| := by
        have : 1 ≤ |k| := Int.one_le_abs hk
        exact_mod_cast this
      have h3 : |(k : ℝ) * (2 * π)| = |(k : ℝ)| * (2 * π) := by rw [abs_mul, abs_of_pos (by linarith : (0 : ℝ) < 2 * π)]
      have h4 := abs_sub_abs_le_abs_sub ((k : ℝ) * (2 * π)) (-(a1 - a0))
      rw [abs_neg, abs_sub_comm a1 a0] at h4
      have h5 : (k : ℝ) * (2 * π) - -(a1 - a0) = a1 - a0 + k * (2 * π) := by ring
      rw [h5] at h4
      nlinarith

/-- **C52** `distance` rejects angles outside `[-π, π)`. -/
theorem C52_distance_error (a0 a1 : ℝ) (h : ¬((-π ≤ a0 ∧ a0 < π) ∧ (-π ≤ a1 ∧ a1 < π))) : distance a0 a1 = .error .assertion := by
  unfold distance
  by_cases h0 : inLeftClosedRange a0 (-π) π = true
  · have h1 : inLeftClosedRange a1 (-π) π = false := by
      rw [Bool.eq_false_iff]
      intro h1
      exact h ⟨(inRange_iff a0).1 h0, (inRange_iff a1).1 h1⟩
    rw [h0, h1]; rfl
  · rw [Bool.not_eq_true] at h0
    rw [h0]; rfl

/-- **C52** `direction(a0, a1)` is `1` or `-1`, and turning from `a0` in this direction by `distance(a0, a1)` leads to `a1`. -/
theorem C52_direction (a0 a1 : ℝ) (h0 : -π ≤ a0 ∧ a0 < π) (h1 : -π ≤ a1 ∧ a1 < π) :
    ∃ (s : ℤ) (d : ℝ), direction a0 a1 = .ok s ∧ distance a0 a1 = .ok d ∧ (s = 1 ∨ s = -1) ∧ SameModulo (2 * π) (a0 + s * d) a1 := by
  have hpi := pi_pos
  obtain ⟨d, hd, -⟩ := C52_distance a0 a1 h0 h1
  have hd' : d = min |a0 - a1| (2 * π - |a0 - a1|) := by
    unfold distance at hd
    rw [(inRange_iff a0).2 h0, (inRange_iff a1).2 h1] at hd
    exact (Except.ok.inj hd).symm
  -- no wrap around
  have near : ∀ (n : Nat) (x y : ℝ), (-π ≤ x ∧ x < π) → (-π ≤ y ∧ y < π) → |x - y| ≤ 2 * π - |x - y| →
      directionRec (n + 1) x y = .ok (if x > y then -1 else 1) := by
    intro n x y hx hy h
    simp only [directionRec]
    rw [(inRange_iff x).2 hx, (inRange_iff y).2 hy, if_pos h]
    split <;> rfl
  by_cases h : |a0 - a1| ≤ 2 * π - |a0 - a1|
  · refine ⟨_, d, near 999 a0 a1 h0 h1 h, hd, by split <;> simp, 0, ?_⟩
    rw [hd', min_eq_left h]
    split
    · rename_i h2
      rw [abs_of_pos (by linarith)]; push_cast; ring
    · rename_i h2
      rw [abs_of_nonpos (by linarith [not_lt.1 h2])]; push_cast; ring
  · -- the shortest path passes the cut: both angles are moved by half a turn
    have hrec' : ∀ (n : Nat) (x0 x1 : ℝ), toCenteredAngleInterval (a0 + π) = .ok x0 → toCenteredAngleInterval (a1 + π) = .ok x1 →
        directionRec (n + 1) a0 a1 = directionRec n x0 x1 := by
      intro n x0 x1 e0 e1
      simp only [directionRec]
      rw [(inRange_iff a0).2 h0, (inRange_iff a1).2 h1, if_neg h, e0, e1]
      rfl
    have hrec : ∀ x0 x1 : ℝ, toCenteredAngleInterval (a0 + π) = .ok x0 → toCenteredAngleInterval (a1 + π) = .ok x1 →
        direction a0 a1 = directionRec 999 x0 x1 := fun x0 x1 e0 e1 => hrec' 999 x0 x1 e0 e1
    rw [not_le] at h
    rcases le_total a0 a1 with h2 | h2
    · rw [abs_of_nonpos (by linarith)] at h hd'
      have e0 : toCenteredAngleInterval (a0 + π) = .ok (a0 + π) :=
        centered_eq (by linarith) (by linarith) ⟨0, by simp⟩
      have e1 : toCenteredAngleInterval (a1 + π) = .ok (a1 - π) :=
        centered_eq (by linarith) (by linarith) ⟨-1, by push_cast; ring⟩
      have hab : |a0 + π - (a1 - π)| = 2 * π - (a1 - a0) := by rw [abs_of_nonneg (by linarith)]; ring
      refine ⟨-1, d, ?_, hd, Or.inr rfl, -1, ?_⟩
      · rw [hrec _ _ e0 e1, near 998 _ _ (by constructor <;> linarith) (by constructor <;> linarith) (by rw [hab]; linarith),
          if_pos (by linarith)]
      · rw [hd', min_eq_right (by linarith)]
        push_cast; ring
    · rw [abs_of_nonneg (by linarith)] at h hd'
      have e0 : toCenteredAngleInterval (a0 + π) = .ok (a0 - π) :=
        centered_eq (by linarith) (by linarith) ⟨-1, by push_cast; ring⟩
      have e1 : toCenteredAngleInterval (a1 + π) = .ok (a1 + π) :=
        centered_eq (by linarith) (by linarith) ⟨0, by simp⟩
      have hab : |a0 - π - (a1 + π)| = 2 * π - (a0 - a1) := by rw [abs_of_nonpos (by linarith)]; ring
      refine ⟨1, d, ?_, hd, Or.inl rfl, 1, ?_⟩
      · rw [hrec _ _ e0 e1, near 998 _ _ (by constructor <;> linarith) (by constructor <;> linarith) (by rw [hab]; linarith),
          if_neg (by linarith)]
      · rw [hd', min_eq_right (by linarith)]
        push_cast; ring

example : -π ≤ (3 : ℝ) ∧ (3 : ℝ) < π ∧ -π ≤ (-3 : ℝ) ∧ (-3 : ℝ) < π := by
  have := pi_gt_three
  refine ⟨?_, ?_, ?_, ?_⟩ <;> linarith

theorem update_ok (s : Dial) (h0 : -π ≤ s.anglePos) (h1 : s.anglePos < π) (a : ℝ) :
    ∃ s', updatePosition s a = .ok s' ∧ -π ≤ s'.anglePos ∧ s'.anglePos < π ∧ SameModulo (2 * π) s'.anglePos a ∧
      -π ≤ getTotalPosition s' - getTotalPosition s ∧ getTotalPosition s' - getTotalPosition s < π := by
  have hpi := pi_pos
  obtain ⟨d, hd, hd0, hd1, k, hk⟩ := C52_centered_interval (a - s.anglePos)
  unfold updatePosition
  simp only [hd, Py.bind_ok]
  by_cases h2 : s.anglePos + d ≥ π
  · rw [centered_eq (a := s.anglePos + d) (b := s.anglePos + d - 2 * π) (by linarith) (by linarith) ⟨-1, by push_cast; ring⟩,
      if_pos h2, if_neg (by linarith)]
    refine ⟨⟨s.anglePos + d - 2 * π, s.numLaps + 1⟩, rfl, by simp only; linarith, by simp only; linarith, ⟨k - 1, ?_⟩, ?_, ?_⟩
    · simp only
      rw [hk]; push_cast; ring
    · simp only [getTotalPosition]; push_cast; linarith
    · simp only [getTotalPosition]; push_cast; linarith
  · by_cases h3 : s.anglePos + d < -π
    · rw [centered_eq (a := s.anglePos + d) (b := s.anglePos + d + 2 * π) (by linarith) (by linarith) ⟨1, by push_cast; ring⟩,
        if_neg h2, if_pos h3]
      refine ⟨⟨s.anglePos + d + 2 * π, s.numLaps - 1⟩, rfl, by simp only; linarith, by simp only; linarith, ⟨k + 1, ?_⟩, ?_, ?_⟩
      · simp only
        rw [hk]; push_cast; ring
      · simp only [getTotalPosition]; push_cast; linarith
      · simp only [getTotalPosition]; push_cast; linarith
    · rw [centered_eq (a := s.anglePos + d) (b := s.anglePos + d) (by linarith) (by linarith) ⟨0, by simp⟩, if_neg h2, if_neg h3]
      refine ⟨⟨s.anglePos + d, s.numLaps⟩, rfl, by simp only; linarith, by simp only; linarith, ⟨k, ?_⟩, ?_, ?_⟩
      · simp only
        rw [hk]; push_cast; ring
      · simp only [getTotalPosition]; linarith
      · simp only [getTotalPosition]; linarith

theorem total_mod (s : Dial) : SameModulo (2 * π) (getTotalPosition s) s.anglePos := ⟨s.numLaps, by unfold getTotalPosition; ring⟩

theorem updateAll_ok (as : List ℝ) (s : Dial) (h0 : -π ≤ s.anglePos) (h1 : s.anglePos < π) :
    ∃ s', updateAll s as = .ok s' ∧ -π ≤ s'.anglePos ∧ s'.anglePos < π ∧ Unwraps (getTotalPosition s) as (getTotalPosition s') := by
  induction as generalizing s with
  | nil => exact ⟨s, rfl, h0, h1, .nil _⟩
  | cons a as ih =>
    obtain ⟨s1, e1, h2, h3, h4, h5, h6⟩ := update_ok s h0 h1 a
    obtain ⟨s2, e2, h7, h8, h9⟩ := ih s1 h2 h3
    refine ⟨s2, ?_, h7, h8, .cons ((total_mod s1).trans h4) h5 h6 h9⟩
    simp only [updateAll, e1, Py.bind_ok, e2]

/-- **C52** After every history of updates the angle of a dial is in `[-π, π)`, and its total position is reached from 0 by turning in every
step by the shortest signed turn to the new position. -/
theorem C52_dial (as : List ℝ) :
    ∃ s, updateAll newDial as = .ok s ∧ -π ≤ s.anglePos ∧ s.anglePos < π ∧ Unwraps 0 as (getTotalPosition s) := by
  have hpi := pi_pos
  have := updateAll_ok as newDial (by simp only [newDial]; linarith) (by simp only [newDial]; linarith)
  have e : getTotalPosition newDial = 0 := by simp [getTotalPosition, newDial]
  rwa [e] at this

/-- **C52** The specification determines the total position. -/
theorem C52_unwraps_unique (as : List ℝ) (x z z' : ℝ) (h : Unwraps x as z) (h' : Unwraps x as z') : z = z' := by
  induction h with
  | nil => cases h'; rfl
  | cons hmod hlo hhi h ih =>
    cases h' with
    | cons hmod' hlo' hhi' h' =>
      obtain ⟨k, hk⟩ := hmod
      obtain ⟨l, hl⟩ := hmod'
      rename_i x y z a as y'
      have : y' = y := SameModulo.unique (t := 2 * π) ⟨l - k, by rw [hl, hk]; push_cast; ring⟩ (by rw [abs_lt]; constructor <;> linarith)
      subst this
      exact ih h'

/-- **C52** After a non-empty history the total position is congruent to the last position given. -/
theorem C52_dial_last (as : List ℝ) (a : ℝ) :
    ∃ s, updateAll newDial (as ++ [a]) = .ok s ∧ SameModulo (2 * π) (getTotalPosition s) a ∧ SameModulo (2 * π) s.anglePos a := by
  obtain ⟨s, hs, -, -, hu⟩ := C52_dial (as ++ [a])
  refine ⟨s, hs, ?_⟩
  have key : ∀ (l : List ℝ) (x z : ℝ), Unwraps x (l ++ [a]) z → SameModulo (2 * π) z a := by
    intro l
    induction l with
    | nil =>
      intro x z h
      cases h with
      | cons hmod _ _ h => cases h; exact hmod
    | cons b l ih =>
      intro x z h
      cases h with
      | cons _ _ _ h => exact ih _ _ h
  obtain ⟨k, hk⟩ := key as 0 _ hu
  exact ⟨⟨k, hk⟩, k - s.numLaps, by
    have : s.anglePos = getTotalPosition s - s.numLaps * 2 * π := by unfold getTotalPosition; ring
    rw [this, hk]; push_cast; ring⟩

/-- The turns of a motion with the given positions are smaller than half a turn. -/
def SmallSteps : ℝ → List ℝ → Prop
  | _, [] => True
  | x, y :: ys => |y - x| < π ∧ SmallSteps y ys

/-- **C52** A dial counts: if a motion that starts in 0 and visits the positions `θ₁, θ₂, …` (any real numbers, so many laps) never turns by
half a turn or more between two updates, and every update reports the position up to whole turns only, then the total position is the true
position. -/
theorem C52_dial_counts (ths as : List ℝ) (h : List.Forall₂ (SameModulo (2 * π)) ths as) (hs : SmallSteps 0 ths) :
    ∃ s, updateAll newDial as = .ok s ∧ getTotalPosition s = (0 :: ths).getLast (by simp) := by
  obtain ⟨s, e, -, -, hu⟩ := C52_dial as
  refine ⟨s, e, C52_unwraps_unique as 0 _ _ hu ?_⟩
  clear hu e s
  generalize (0 : ℝ) = x at hs ⊢
  induction h generalizing x with
  | nil => exact .nil _
  | cons hm _ ih =>
    rename_i y a ys as _
    have h1 := abs_lt.1 hs.1
    rw [List.getLast_cons (by simp)]
    exact .cons hm h1.1.le h1.2 (ih _ hs.2)

example : SmallSteps 0 [3, 6, 9] ∧ List.Forall₂ (SameModulo (2 * π)) [3, 6, 9] [3, 6 - 2 * π, 9 + 4 * π] := by
  have := pi_gt_three
  refine ⟨⟨?_, ?_, ?_, trivial⟩, .cons ⟨0, by simp⟩ (.cons ⟨1, by push_cast; ring⟩ (.cons ⟨-2, by push_cast; ring⟩ .nil))⟩ <;>
    norm_num <;> exact this

end Verif.Angle
