import Verif.Lemmas.PointClouds
/-!
# Lemmas for the median and the splitting planes
-/

namespace Verif.PointCloud
open Verif

/-! ## The median -/

theorem countP_le_of_drop {s : List ℝ} {q : ℝ → Bool} {k : Nat} (h : ∀ i (hi : i < s.length), k ≤ i → q s[i] = false) : s.countP q ≤ k := by
  have e : s.countP q = (s.take k).countP q + (s.drop k).countP q := by rw [← List.countP_append, List.take_append_drop]
  have h0 : (s.drop k).countP q = 0 := by
    rw [List.countP_eq_zero]
    intro a ha
    obtain ⟨i, hi, rfl⟩ := List.mem_iff_getElem.1 ha
    rw [List.getElem_drop]
    rw [h (k + i) (by rw [List.length_drop] at hi; omega) (by omega)]
    simp
  rw [e, h0]
  exact (List.countP_le_length).trans (by simp)

theorem countP_le_of_take {s : List ℝ} {q : ℝ → Bool} {k : Nat} (h : ∀ i (hi : i < s.length), i < k → q s[i] = false) : s.countP q ≤ s.length - k := by
  have e : s.countP q = (s.take k).countP q + (s.drop k).countP q := by rw [← List.countP_append, List.take_append_drop]
  have h0 : (s.take k).countP q = 0 := by
    rw [List.countP_eq_zero]
    intro a ha
    obtain ⟨i, hi, rfl⟩ := List.mem_iff_getElem.1 ha
    rw [List.getElem_take]
    rw [h i (by rw [List.length_take] at hi; omega) (by rw [List.length_take] at hi; omega)]
    simp
  rw [e, h0, zero_add]
  exact (List.countP_le_length).trans (by simp)

/-- The median of sorted numbers lies between the numbers below and above the middle. -/
theorem sortedMedian_between {s : List ℝ} (hs : s.Pairwise (· ≤ ·)) (i : Nat) (hi : i < s.length) :
    (s.length / 2 ≤ i → sortedMedian s ≤ s[i]) ∧ (i < (s.length + 1) / 2 → s[i] ≤ sortedMedian s) := by
  have mono : ∀ a b (ha : a < s.length) (hb : b < s.length), a ≤ b → s[a] ≤ s[b] := by
    intro a b ha hb hab
    rcases Nat.lt_or_ge a b with h | h
    · exact List.pairwise_iff_getElem.1 hs a b ha hb h
    · obtain rfl : a = b := by omega
      exact le_rfl
  have get : ∀ a (ha : a < s.length), s.getD a 0 = s[a] := fun a ha => by simp [ha]
  unfold sortedMedian
  by_cases h : s.length % 2 = 1
  · rw [if_pos h, get _ (by omega)]
    exact ⟨fun h1 => mono _ _ _ _ h1, fun h1 => mono _ _ _ _ (by omega)⟩
  · rw [if_neg h, get _ (by omega), get _ (by omega)]
    have h2 := mono (s.length / 2 - 1) (s.length / 2) (by omega) (by omega) (by omega)
    refine ⟨fun h1 => ?_, fun h1 => ?_⟩
    · have h3 := mono (s.length / 2) i (by omega) hi h1
      linarith
    · have h3 := mono i (s.length / 2 - 1) hi (by omega) (by omega)
      linarith

theorem sortedMedian_count {s : List ℝ} (hs : s.Pairwise (· ≤ ·)) :
    2 * s.countP (fun x => decide (x < sortedMedian s)) ≤ s.length ∧ 2 * s.countP (fun x => decide (sortedMedian s < x)) ≤ s.length := by
  constructor
  · have := countP_le_of_drop (s := s) (q := fun x => decide (x < sortedMedian s)) (k := s.length / 2) fun i hi h =>
      decide_eq_false (not_lt.2 ((sortedMedian_between hs i hi).1 h))
    omega
  · have := countP_le_of_take (s := s) (q := fun x => decide (sortedMedian s < x)) (k := (s.length + 1) / 2) fun i hi h =>
      decide_eq_false (not_lt.2 ((sortedMedian_between hs i hi).2 h))
    omega

theorem sum_sign (s : List ℝ) (q : ℝ → Bool) : (s.map (fun x => if q x then (-1 : ℝ) else 1)).sum = s.length - 2 * s.countP q := by
  induction s with
  | nil => simp
  | cons a s ih =>
    rw [List.map_cons, List.sum_cons, ih, List.countP_cons, List.length_cons]
    by_cases h : q a = true
    · simp [h]; ring
    · simp [h]; ring

/-- A number with at most half of the numbers on each side minimises the sum of the distances. -/
theorem sum_abs_le {s : List ℝ} {a : ℝ} (h1 : 2 * s.countP (fun x => decide (x < a)) ≤ s.length) (h2 : 2 * s.countP (fun x => decide (a < x)) ≤ s.length)
    (c : ℝ) : (s.map (fun x => |x - a|)).sum ≤ (s.map (fun x => |x - c|)).sum := by
  have key : ∀ q : ℝ → Bool, 2 * s.countP q ≤ s.length → (∀ x, |x - a| + |c - a| * (if q x then -1 else 1) ≤ |x - c|) →
      (s.map (fun x => |x - a|)).sum ≤ (s.map (fun x => |x - c|)).sum := by
    intro q hq hx
    have e1 : (s.map (fun x => |x - a| + |c - a| * (if q x then -1 else 1))).sum ≤ (s.map (fun x => |x - c|)).sum :=
      List.sum_le_sum fun x _ => hx x
    rw [List.sum_map_add, List.sum_map_mul_left, sum_sign] at e1
    have e2 : (0 : ℝ) ≤ s.length - 2 * s.countP q := by
      have : ((2 * s.countP q : Nat) : ℝ) ≤ (s.length : ℝ) := by exact_mod_cast hq
      push_cast at this
      linarith
    nlinarith [abs_nonneg (c - a)]
  rcases le_total a c with h | h
  · refine key _ h2 fun x => ?_
    rw [abs_of_nonneg (sub_nonneg.2 h)]
    by_cases hx : a < x
    · rw [if_pos (by simpa using hx), abs_of_pos (sub_pos.2 hx)]
      have := le_abs_self (x - c)
      linarith
    · rw [if_neg (by simpa using hx), abs_of_nonpos (by linarith)]
      have := neg_abs_le (x - c)
      linarith
  · refine key _ h1 fun x => ?_
    rw [abs_of_nonpos (sub_nonpos.2 h)]
    by_cases hx : x < a
    · rw [if_pos (by simpa using hx), abs_of_neg (sub_neg.2 hx)]
      have := neg_abs_le (x - c)
      linarith
    · rw [if_neg (by simpa using hx), abs_of_nonneg (by linarith)]
      have := le_abs_self (x - c)
      linarith

variable {m : Nat}

open Classical in
theorem sorted_spec (l : List ℝ) : (l.mergeSort (fun a b => decide (a ≤ b))).Pairwise (· ≤ ·) ∧ (l.mergeSort (fun a b => decide (a ≤ b))).Perm l := by
  refine ⟨?_, List.mergeSort_perm _ _⟩
  have := List.pairwise_mergeSort (le := fun a b : ℝ => decide (a ≤ b)) (fun a b c h1 h2 => by simp at *; exact h1.trans h2)
    (fun a b => by simp; exact le_total a b) l
  exact this.imp fun h => by simpa using h

theorem median_count (l : List (Fin m → ℝ)) (j : Fin m) :
    2 * (l.map (fun p => p j)).countP (fun x => decide (x < median l j)) ≤ l.length ∧
    2 * (l.map (fun p => p j)).countP (fun x => decide (median l j < x)) ≤ l.length := by
  classical
  obtain ⟨h1, h2⟩ := sorted_spec (l.map (fun p => p j))
  have h3 := sortedMedian_count h1
  rw [h2.countP_eq, h2.countP_eq, h2.length_eq, List.length_map] at h3
  have e : median l j = sortedMedian ((l.map (fun p => p j)).mergeSort fun a b => decide (a ≤ b)) := by
    unfold median
    congr 1
  rw [e]
  exact h3

theorem median_abs (l : List (Fin m → ℝ)) (j : Fin m) (c : ℝ) : total l (fun p => |p j - median l j|) ≤ total l (fun p => |p j - c|) := by
  have h := median_count l j
  have := sum_abs_le (s := l.map (fun p => p j)) (a := median l j) (by rw [List.length_map]; exact h.1) (by rw [List.length_map]; exact h.2) c
  simpa [total, Function.comp_def] using this

theorem median_perm {l l' : List (Fin m → ℝ)} (h : l.Perm l') : median l = median l' := by
  classical
  funext j
  unfold median
  congr 1
  obtain ⟨h1, h2⟩ := sorted_spec (l.map (fun p => p j))
  obtain ⟨h3, h4⟩ := sorted_spec (l'.map (fun p => p j))
  exact (h2.trans ((h.map _).trans h4.symm)).eq_of_pairwise (fun _ _ _ _ => le_antisymm) h1 h3

/-! ## Splitting planes -/

theorem foldl_max (l : List ℝ) : ∀ a, (l.foldl max a = a ∨ l.foldl max a ∈ l) ∧ a ≤ l.foldl max a ∧ ∀ b ∈ l, b ≤ l.foldl max a := by
  induction l with
  | nil => intro a; simp
  | cons b l ih =>
    intro a
    obtain ⟨h1, h2, h3⟩ := ih (max a b)
    simp only [List.foldl_cons, List.mem_cons]
    refine ⟨?_, (le_max_left a b).trans h2, ?_⟩
    · rcases h1 with h | h
      · rw [h]
        rcases max_choice a b with h' | h'
        · exact Or.inl h'
        · exact Or.inr (Or.inl h')
      · exact Or.inr (Or.inr h)
    · rintro c (rfl | hc)
      · exact (le_max_right a c).trans h2
      · exact h3 c hc

theorem axisIndex_spec (hm : 0 < m) (pa : Fin m → ℝ) : ∃ i : Fin m, axisIndex pa = .ok i ∧ (∀ j, |pa j| ≤ |pa i|) ∧ ∀ j < i, |pa j| < |pa i| := by
  classical
  obtain ⟨m, rfl⟩ : ∃ k, m = k + 1 := ⟨m - 1, by omega⟩
  set l := List.ofFn (fun i => |pa i|) with hl
  obtain ⟨a, t, ht⟩ : ∃ a t, l = a :: t := ⟨_, _, List.ofFn_succ⟩
  have hmax : maxE l = .ok (t.foldl max a) := by rw [ht]; rfl
  obtain ⟨f1, f2, f3⟩ := foldl_max t a
  set M := t.foldl max a with hM
  have hmem : M ∈ l := by
    rw [ht]
    rcases f1 with h | h
    · rw [h]; exact List.mem_cons_self
    · exact List.mem_cons_of_mem _ h
  have hle : ∀ b ∈ l, b ≤ M := by
    intro b hb
    rw [ht] at hb
    rcases List.mem_cons.1 hb with rfl | h
    · exact f2
    · exact f3 b h
  have hidx : l.idxOf? M = some (l.idxOf M) := by
    rw [List.idxOf?_eq_some_iff]
    have hlt := List.idxOf_lt_length_iff.2 hmem
    refine ⟨hlt, by simp, fun j hj => ?_⟩
    have := List.not_of_lt_findIdx (p := (· == M)) (xs := l) (i := j) hj
    simpa using this
  have hlt : l.idxOf M < l.length := List.idxOf_lt_length_iff.2 hmem
  have hlen : l.length = m + 1 := by simp [hl]
  have hget' : ∀ j : Fin (m + 1), l[j.1]'(by omega) = |pa j| := fun j => by simp only [hl, List.getElem_ofFn]
  have hin : ∀ j : Fin (m + 1), |pa j| ∈ l := fun j => hget' j ▸ List.getElem_mem _
  have hget : |pa ⟨l.idxOf M, by omega⟩| = M := by
    rw [← hget' ⟨l.idxOf M, by omega⟩]
    exact List.getElem_idxOf hlt
  refine ⟨⟨l.idxOf M, by omega⟩, ?_, fun j => ?_, fun j hj => ?_⟩
  · unfold axisIndex
    rw [← hl]
    simp only [hmax, Py.bind_ok, hidx]
  · rw [hget]
    exact hle _ (hin j)
  · rw [hget]
    refine lt_of_le_of_ne (hle _ (hin j)) fun h => ?_
    have := List.not_of_lt_findIdx (p := (· == M)) (xs := l) (i := j) hj
    rw [hget' j] at this
    simp [h] at this

theorem centroids_ok {mesh : Kd.Mesh ℝ} (hk : ∃ v, mesh.vertices[0]? = some v) (hmesh : ∀ s ∈ mesh.simplices, s ≠ [] ∧ ∀ i ∈ s, i < mesh.vertices.length)
    (l : List Nat) (hl : ∀ i ∈ l, i < mesh.simplices.length) :
    simplexCentroids m mesh l = .ok (l.map fun i => listCentroid m ((mesh.simplices.getD i []).map fun j => mesh.vertices.getD j [])) := by
  unfold simplexCentroids
  refine mapM_eq_ok _ l fun i hi => ?_
  have h1 := hl i hi
  rw [getE_ok h1, Py.bind_ok]
  unfold Complex.simplexVertices
  obtain ⟨v, hv⟩ := hk
  have h0 : getE mesh.vertices 0 = .ok v := by simp [getE, hv]
  rw [h0, Py.bind_ok]
  have h2 := (hmesh _ (List.getElem_mem h1)).2
  rw [mapM_eq_ok (fun j => mesh.vertices.getD j []) _ fun j hj => ?_, Py.bind_ok]
  · simp [h1]
  · rw [getE_ok (h2 j hj)]
    simp [h2 j hj]

end Verif.PointCloud
