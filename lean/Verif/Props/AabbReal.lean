import Verif.Model.AabbReal
import Verif.Props.Aabb
import Verif.Lemmas.Equality
/-!
# Property C40: approximate equality and diameter of axis aligned bounding boxes
-/

namespace Verif.Props
open Verif Verif.Aabb Verif.Equality Verif.Spec

/-- The Euclidean distance of two points. -/
noncomputable def distance (p q : List ℝ) : ℝ := Real.sqrt ((List.zipWith (fun x y => (x - y) ^ 2) p q).sum)

theorem equalLoop_ok {n : Nat} {a b : Box ℝ} (ha : BoxDim a n) (hb : n ≤ b.1.length ∧ n ≤ b.2.length) {relTol absTol : ℝ} (hr : 0 ≤ relTol) (ht : 0 ≤ absTol)
    (l : List Nat) (hl : ∀ i ∈ l, i < n) : ∃ r, equalLoop a b relTol absTol l = .ok r ∧
      (r = true ↔ ∀ i ∈ l, Close relTol absTol (a.1.getD i 0) (b.1.getD i 0) ∧ Close relTol absTol (a.2.getD i 0) (b.2.getD i 0)) := by
  obtain ⟨a1, a2⟩ := ha
  obtain ⟨b1, b2⟩ := hb
  induction l with
  | nil => exact ⟨true, rfl, by simp⟩
  | cons i l ih =>
    obtain ⟨r, hr1, hr2⟩ := ih (fun j hj => hl j (by simp [hj]))
    have hi := hl i (by simp)
    unfold equalLoop
    obtain ⟨c0, e0, k0⟩ := isclose_eq hr ht (a.1.getD i 0) (b.1.getD i 0)
    obtain ⟨c1, e1, k1⟩ := isclose_eq hr ht (a.2.getD i 0) (b.2.getD i 0)
    rw [List.getD_eq_getElem _ _ (show i < a.1.length by omega), List.getD_eq_getElem _ _ (show i < b.1.length by omega)] at e0
    rw [List.getD_eq_getElem _ _ (show i < a.2.length by omega), List.getD_eq_getElem _ _ (show i < b.2.length by omega)] at e1
    rw [getE_ok (show i < a.1.length by omega), getE_ok (show i < b.1.length by omega), getE_ok (show i < a.2.length by omega),
      getE_ok (show i < b.2.length by omega)]
    simp only [Py.bind_ok, e0, e1, Py.pure_eq, List.forall_mem_cons]
    cases c0 with
    | false =>
      refine ⟨false, rfl, ?_⟩
      have : ¬ Close relTol absTol (a.1.getD i 0) (b.1.getD i 0) := fun h => by simpa using k0.2 h
      simp only [Bool.false_eq_true, false_iff]
      exact fun h => this h.1.1
    | true =>
      cases c1 with
      | false =>
        refine ⟨false, rfl, ?_⟩
        have : ¬ Close relTol absTol (a.2.getD i 0) (b.2.getD i 0) := fun h => by simpa using k1.2 h
        simp only [Bool.false_eq_true, false_iff]
        exact fun h => this h.1.2
      | true =>
        refine ⟨r, hr1, ?_⟩
        rw [hr2]
        exact ⟨fun h => ⟨⟨k0.1 rfl, k1.1 rfl⟩, h⟩, fun h => h.2⟩

/-- C40: `is_equal` is true exactly if all coordinates of the minimum points and of the maximum points are close. -/
theorem C40_is_equal {n : Nat} {a b : Box ℝ} (ha : BoxDim a n) (hb : BoxDim b n) {relTol absTol : ℝ} (hr : 0 ≤ relTol) (ht : 0 ≤ absTol) :
    ∃ r, isEqual a b relTol absTol = .ok r ∧
      (r = true ↔ ∀ i < n, Close relTol absTol (a.1.getD i 0) (b.1.getD i 0) ∧ Close relTol absTol (a.2.getD i 0) (b.2.getD i 0)) := by
  obtain ⟨r, h1, h2⟩ := equalLoop_ok ha ⟨hb.1.ge, hb.2.ge⟩ hr ht (List.range a.1.length) (fun i hi => by rw [List.mem_range, ha.1] at hi; exact hi)
  refine ⟨r, h1, ?_⟩
  rw [h2, ha.1]
  simp only [List.mem_range]

/-- C40: `is_equal` is reflexive and symmetric on boxes of the same dimension; with tolerances zero it is equality. -/
theorem C40_is_equal_laws {n : Nat} {a b : Box ℝ} (ha : BoxDim a n) (hb : BoxDim b n) {relTol absTol : ℝ} (hr : 0 ≤ relTol) (ht : 0 ≤ absTol) :
    isEqual a a relTol absTol = .ok true ∧ isEqual a b relTol absTol = isEqual b a relTol absTol ∧ (isEqual a b 0 0 = .ok true ↔ a = b) := by
  have close_refl : ∀ {r t : ℝ}, 0 ≤ t → ∀ x, Close r t x x := fun h x => by
    unfold Close
    rw [sub_self, abs_zero]
    exact le_max_of_le_right h
  have close_symm : ∀ x y, Close relTol absTol x y ↔ Close relTol absTol y x := fun x y => by
    unfold Close
    rw [abs_sub_comm, max_comm |x| |y|]
  obtain ⟨r1, h1, k1⟩ := C40_is_equal ha ha hr ht
  obtain ⟨r2, h2, k2⟩ := C40_is_equal ha hb hr ht
  obtain ⟨r3, h3, k3⟩ := C40_is_equal hb ha hr ht
  obtain ⟨r4, h4, k4⟩ := C40_is_equal ha hb (le_refl 0) (le_refl 0)
  refine ⟨?_, ?_, ?_⟩
  · rw [h1, k1.2 fun i _ => ⟨close_refl ht _, close_refl ht _⟩]
  · rw [h2, h3]
    congr 1
    rw [Bool.eq_iff_iff, k2, k3]
    exact forall₂_congr fun i _ => and_congr (close_symm _ _) (close_symm _ _)
  · rw [h4, Except.ok.injEq, k4]
    constructor
    · intro h
      have hz : ∀ x y : ℝ, Close 0 0 x y → x = y := fun x y h => by
        unfold Close at h
        rw [zero_mul, max_self] at h
        exact sub_eq_zero.1 (abs_eq_zero.1 (le_antisymm h (abs_nonneg _)))
      refine Prod.ext (List.ext_getElem (by rw [ha.1, hb.1]) fun i i1 i2 => ?_) (List.ext_getElem (by rw [ha.2, hb.2]) fun i i1 i2 => ?_)
      · have := hz _ _ (h i (by rw [← ha.1]; exact i1)).1
        rwa [List.getD_eq_getElem _ _ i1, List.getD_eq_getElem _ _ i2] at this
      · have := hz _ _ (h i (by rw [← ha.2]; exact i1)).2
        rwa [List.getD_eq_getElem _ _ i1, List.getD_eq_getElem _ _ i2] at this
    · rintro rfl i _
      exact ⟨close_refl le_rfl _, close_refl le_rfl _⟩

/-- C40: negative tolerances are rejected with ValueError (if there is a coordinate to compare). -/
theorem C40_is_equal_error {n : Nat} {a b : Box ℝ} (ha : BoxDim a (n + 1)) (hb : BoxDim b (n + 1)) {relTol absTol : ℝ} (h : relTol < 0 ∨ absTol < 0) :
    isEqual a b relTol absTol = .error .value := by
  unfold isEqual
  rw [ha.1, List.range_succ_eq_map]
  unfold equalLoop
  rw [getE_ok (show 0 < a.1.length by rw [ha.1]; omega), getE_ok (show 0 < b.1.length by rw [hb.1]; omega)]
  simp only [Py.bind_ok]
  unfold isclose
  rw [if_pos h]
  rfl

/-- C40 (finding): `is_equal` only compares the coordinates of the first box: a box is equal to every box of larger dimension that has it as projection,
and in the other order the comparison fails with IndexError. -/
theorem C40_is_equal_dimension {n : Nat} {a b : Box ℝ} (ha : BoxDim a n) (hb : n < b.1.length) (hb2 : n < b.2.length) (h1 : b.1.take n = a.1) (h2 : b.2.take n = a.2)
    {relTol absTol : ℝ} (hr : 0 ≤ relTol) (ht : 0 ≤ absTol) :
    isEqual a b relTol absTol = .ok true ∧ isEqual b a relTol absTol = .error .index := by
  have close_refl : ∀ x, Close relTol absTol x x := fun x => by
    unfold Close
    rw [sub_self, abs_zero]
    exact le_max_of_le_right ht
  have g1 : ∀ i < n, a.1.getD i 0 = b.1.getD i 0 := fun i hi => by
    rw [← h1, List.getD_eq_getElem?_getD, List.getD_eq_getElem?_getD, List.getElem?_take, if_pos hi]
  have g2 : ∀ i < n, a.2.getD i 0 = b.2.getD i 0 := fun i hi => by
    rw [← h2, List.getD_eq_getElem?_getD, List.getD_eq_getElem?_getD, List.getElem?_take, if_pos hi]
  constructor
  · obtain ⟨r, e1, e2⟩ := equalLoop_ok ha ⟨hb.le, hb2.le⟩ hr ht (List.range a.1.length) (fun i hi => by rw [List.mem_range, ha.1] at hi; exact hi)
    unfold isEqual
    rw [e1, e2.2]
    intro i hi
    rw [List.mem_range, ha.1] at hi
    rw [g1 i hi, g2 i hi]
    exact ⟨close_refl _, close_refl _⟩
  · have key : ∀ l : List Nat, (∀ i ∈ l, i < n) → ∀ r, equalLoop b a relTol absTol (l ++ n :: r) = .error .index := by
      intro l
      induction l with
      | nil =>
        intro _ r
        rw [List.nil_append]
        unfold equalLoop
        rw [getE_ok hb, Py.bind_ok]
        unfold getE
        rw [List.getElem?_eq_none (by rw [ha.1])]
        rfl
      | cons i l ih =>
        intro hl r
        have hi := hl i (by simp)
        rw [List.cons_append]
        unfold equalLoop
        rw [getE_ok (show i < b.1.length by omega), getE_ok (show i < a.1.length by rw [ha.1]; exact hi), getE_ok (show i < b.2.length by omega),
          getE_ok (show i < a.2.length by rw [ha.2]; exact hi)]
        have k1 := g1 i hi
        have k2 := g2 i hi
        rw [List.getD_eq_getElem _ _ (by rw [ha.1]; exact hi), List.getD_eq_getElem _ _ (by omega)] at k1
        rw [List.getD_eq_getElem _ _ (by rw [ha.2]; exact hi), List.getD_eq_getElem _ _ (by omega)] at k2
        simp only [Py.bind_ok, k1, k2]
        obtain ⟨c0, e0, f0⟩ := isclose_eq hr ht b.1[i] b.1[i]
        obtain ⟨c1, e1, f1⟩ := isclose_eq hr ht b.2[i] b.2[i]
        rw [e0, e1, f0.2 (close_refl _), f1.2 (close_refl _)]
        exact ih (fun j hj => hl j (by simp [hj])) r
    unfold isEqual
    obtain ⟨r, hr'⟩ : ∃ r, List.range b.1.length = List.range n ++ n :: r := by
      obtain ⟨k, hk⟩ := Nat.exists_eq_add_of_lt hb
      refine ⟨(List.range k).map (fun i => n + 1 + i), ?_⟩
      rw [hk, show n + k + 1 = (n + 1) + k by omega, List.range_add, List.range_succ, List.append_assoc, List.singleton_append]
    rw [hr']
    exact key _ (fun i hi => List.mem_range.1 hi) r

/-- C40: the diameter of a box with points is the largest distance between two of its points; the diameter of a box without points is None. -/
theorem C40_diameter {n : Nat} {b : Box ℝ} (hb : BoxDim b n) :
    ((∃ p, InBox b p) → ∃ d, diameter b = .ok (some d) ∧ IsGreatest {s | ∃ p q, InBox b p ∧ InBox b q ∧ s = distance p q} d) ∧
    ((∀ p, ¬ InBox b p) → diameter b = .ok none) := by
  have b1 := hb.1; have b2 := hb.2
  constructor
  · rintro ⟨p, e1, e2, hp⟩
    have hle : ∀ i (h0 : i < b.1.length) (h1 : i < b.2.length), b.1[i] ≤ b.2[i] :=
      fun i h0 h1 => (hp i h0 (by omega) h1).1.trans (hp i h0 (by omega) h1).2
    refine ⟨distance b.2 b.1, ?_, ⟨b.2, b.1, ?_, ?_, rfl⟩, ?_⟩
    · unfold diameter
      rw [isValid_ok hb, decide_eq_true hle, Py.bind_ok]
      simp only [Bool.not_true, Bool.false_eq_true, if_false]
      rw [if_pos (by omega)]
      rfl
    · exact ⟨by omega, rfl, fun i h0 h h1 => ⟨hle i h0 h1, le_rfl⟩⟩
    · exact ⟨rfl, by omega, fun i h0 h h1 => ⟨le_rfl, hle i h0 h1⟩⟩
    · rintro s ⟨p, q, ⟨p1, p2, hp⟩, ⟨q1, q2, hq⟩, rfl⟩
      refine Real.sqrt_le_sqrt (List.Forall₂.sum_le_sum ?_)
      rw [List.forall₂_iff_get]
      refine ⟨by simp; omega, fun i i1 i2 => ?_⟩
      simp only [List.length_zipWith, lt_min_iff] at i1 i2
      simp only [List.get_eq_getElem, List.getElem_zipWith]
      have u := hp i (by omega) (by omega) (by omega)
      have v := hq i (by omega) (by omega) (by omega)
      apply sq_le_sq'
      · linarith [u.1, v.2]
      · linarith [u.2, v.1]
  · intro h
    have : ¬ ∀ i (h0 : i < b.1.length) (h1 : i < b.2.length), b.1[i] ≤ b.2[i] :=
      fun hc => h b.1 ⟨rfl, by omega, fun i h0 _ h1 => ⟨le_rfl, hc i h0 h1⟩⟩
    unfold diameter
    rw [isValid_ok hb, decide_eq_false this]
    rfl

/-- A box with points, a box without points, and two boxes of different dimension. -/
example : diameter ([0, 0], [3, 4]) = .ok (some 5) ∧ diameter ([0, 1], [3, 0]) = .ok none ∧
    isEqual ([0], [1]) ([0, 5], [1, 9]) 0 0 = .ok true ∧ isEqual ([0, 5], [1, 9]) ([0], [1]) 0 0 = .error .index ∧
    isEqual ([0], [1]) ([1 / 10], [1]) 0 (1 / 5) = .ok true ∧ isEqual ([0], [1]) ([1], [1]) 0 (1 / 5) = .ok false := by
  refine ⟨?_, ?_, ?_, ?_, ?_, ?_⟩
  · have hb : BoxDim (([0, 0], [3, 4]) : Box ℝ) 2 := ⟨rfl, rfl⟩
    have hv : ∀ i (h0 : i < (([0, 0], [3, 4]) : Box ℝ).1.length) (h1 : i < (([0, 0], [3, 4]) : Box ℝ).2.length),
        (([0, 0], [3, 4]) : Box ℝ).1[i] ≤ (([0, 0], [3, 4]) : Box ℝ).2[i] := by
      intro i h0 h1
      have : i = 0 ∨ i = 1 := by simp at h0; omega
      rcases this with rfl | rfl <;> norm_num
    unfold diameter
    rw [isValid_ok hb, decide_eq_true hv, Py.bind_ok]
    norm_num
    rw [show (25 : ℝ) = 5 ^ 2 by norm_num, Real.sqrt_sq (by norm_num)]
  · refine (C40_diameter ⟨rfl, rfl⟩ (n := 2)).2 ?_
    rintro p ⟨e1, e2, hp⟩
    have := hp 1 (by simp) (by rw [e1]; simp) (by simp)
    norm_num at this
    linarith [this.1, this.2]
  · exact (C40_is_equal_dimension (n := 1) ⟨rfl, rfl⟩ (by simp) (by simp) rfl rfl le_rfl le_rfl).1
  · exact (C40_is_equal_dimension (n := 1) ⟨rfl, rfl⟩ (by simp) (by simp) rfl rfl le_rfl le_rfl).2
  · obtain ⟨r, h1, h2⟩ := C40_is_equal (n := 1) (a := ([0], [1])) (b := ([1 / 10], [1])) ⟨rfl, rfl⟩ ⟨rfl, rfl⟩ (relTol := 0) (absTol := 1 / 5) le_rfl (by norm_num)
    rw [h1, h2.2]
    intro i hi
    obtain rfl : i = 0 := by omega
    norm_num [Close]
  · obtain ⟨r, h1, h2⟩ := C40_is_equal (n := 1) (a := ([0], [1])) (b := ([1], [1])) ⟨rfl, rfl⟩ ⟨rfl, rfl⟩ (relTol := 0) (absTol := 1 / 5) le_rfl (by norm_num)
    rw [h1]
    cases r with
    | false => rfl
    | true =>
      have := (h2.1 rfl 0 (by omega)).1
      norm_num [Close] at this

end Verif.Props
