import Mathlib.Data.List.Basic
import Mathlib.Data.Nat.Bitwise
import Mathlib.Order.Lattice
import Mathlib.Tactic.Ring
import Mathlib.Tactic.FieldSimp
import Mathlib.Tactic.Linarith
import Mathlib.Algebra.Order.Field.Basic
import Mathlib.Algebra.BigOperators.Group.Finset.Basic
import Mathlib.Algebra.BigOperators.Fin
import Verif.Model.Aabb
/-!
# Property C40: axis aligned bounding boxes
-/

namespace Verif.Props
open Verif Verif.Aabb

section
variable {α : Type} [LinearOrder α]

/-- A box of dimension `n`. -/
def BoxDim (b : Box α) (n : Nat) : Prop := b.1.length = n ∧ b.2.length = n

/-- The set of points that a box stands for: between minimum and maximum in every coordinate. -/
def InBox (b : Box α) (p : List α) : Prop :=
  p.length = b.1.length ∧ p.length = b.2.length ∧
    ∀ (i : Nat) (h0 : i < b.1.length) (h : i < p.length) (h1 : i < b.2.length), b.1[i] ≤ p[i] ∧ p[i] ≤ b.2[i]

theorem validLoop_ok {n : Nat} {b : Box α} (hb : BoxDim b n) (l : List Nat) (hl : ∀ i ∈ l, i < n) :
    validLoop b l = .ok (decide (∀ i ∈ l, ∀ (h0 : i < b.1.length) (h1 : i < b.2.length), b.1[i] ≤ b.2[i])) := by
  obtain ⟨h1, h2⟩ := hb
  induction l with
  | nil => simp [validLoop]
  | cons i l ih =>
    have hi := hl i (by simp)
    unfold validLoop
    rw [getE_ok (by omega : i < b.1.length), getE_ok (by omega : i < b.2.length)]
    simp only [Py.bind_ok]
    split
    · rename_i h
      simp only [Py.pure_eq, Except.ok.injEq]
      symm
      rw [decide_eq_false_iff_not]
      intro hc
      exact absurd (hc i (by simp) (by omega) (by omega)) (not_le.2 h)
    · rename_i h
      rw [ih (fun j hj => hl j (by simp [hj]))]
      congr 1
      rw [decide_eq_decide]
      simp only [List.forall_mem_cons]
      constructor
      · intro hc; exact ⟨fun _ _ => not_lt.1 h, hc⟩
      · intro hc; exact hc.2

theorem isValid_ok {n : Nat} {b : Box α} (hb : BoxDim b n) :
    isValid b = .ok (decide (∀ i (h0 : i < b.1.length) (h1 : i < b.2.length), b.1[i] ≤ b.2[i])) := by
  unfold isValid
  rw [validLoop_ok hb _ (fun i hi => by rw [dimension, List.mem_range, hb.1] at hi; exact hi)]
  congr 1
  rw [decide_eq_decide]
  exact ⟨fun h i h0 h1 => h i (by rw [dimension, List.mem_range]; exact h0) h0 h1, fun h i _ => h i⟩

theorem insideLoop_ok {n : Nat} {b : Box α} (hb : BoxDim b n) {p : List α} (hp : p.length = n) (l : List Nat) (hl : ∀ i ∈ l, i < n) :
    insideLoop b p l = .ok (decide (∀ i ∈ l, ∀ (h0 : i < b.1.length) (h : i < p.length) (h1 : i < b.2.length), b.1[i] ≤ p[i] ∧ p[i] ≤ b.2[i])) := by
  obtain ⟨h1, h2⟩ := hb
  induction l with
  | nil => simp [insideLoop]
  | cons i l ih =>
    have hi := hl i (by simp)
    unfold insideLoop
    rw [getE_ok (by omega : i < b.1.length), getE_ok (by omega : i < b.2.length), getE_ok (by omega : i < p.length)]
    simp only [Py.bind_ok]
    split
    · rename_i h
      simp only [Py.pure_eq, Except.ok.injEq]
      symm
      rw [decide_eq_false_iff_not]
      intro hc
      have := hc i (by simp) (by omega) (by omega) (by omega)
      simp [inClosedRange, this] at h
    · rename_i h
      rw [ih (fun j hj => hl j (by simp [hj]))]
      simp only [inClosedRange, Bool.not_eq_true, Bool.not_eq_false', Bool.and_eq_true, decide_eq_true_eq] at h
      congr 1
      rw [decide_eq_decide]
      simp only [List.forall_mem_cons]
      constructor
      · intro hc; exact ⟨fun _ _ _ => h, hc⟩
      · intro hc; exact hc.2

/-- C40: `point_inside` decides whether the point is in the box. -/
theorem C40_point_inside {n : Nat} {b : Box α} (hb : BoxDim b n) {p : List α} (hp : p.length = n) :
    ∃ r, pointInside b p = .ok r ∧ (r = true ↔ InBox b p) := by
  refine ⟨_, insideLoop_ok hb hp _ (fun i hi => by rw [List.mem_range, hp] at hi; exact hi), ?_⟩
  rw [decide_eq_true_iff]
  exact ⟨fun h => ⟨by rw [hp, hb.1], by rw [hp, hb.2], fun i h0 h1 h2 => h i (List.mem_range.2 h1) h0 h1 h2⟩,
    fun h i _ h0 h1 h2 => h.2.2 i h0 h1 h2⟩

/-- C40: a point with more coordinates than the box raises IndexError, as soon as the common coordinates are inside. -/
theorem C40_point_inside_error {b : Box α} (p : List α) (h : InBox b (p.take b.1.length)) (hl : b.1.length < p.length) :
    pointInside b p = .error .index := by
  have hk : ∀ l : List Nat, (∀ i ∈ l, i < b.1.length) → ∀ r, insideLoop b p (l ++ b.1.length :: r) = .error .index := by
    intro l
    induction l with
    | nil =>
      intro _ r
      rw [List.nil_append]
      unfold insideLoop
      rw [getE_ok hl, getE_error (le_refl b.1.length)]; rfl
    | cons i l ih =>
      intro hi r
      have h0 := hi i (by simp)
      rw [List.cons_append]
      unfold insideLoop
      obtain ⟨e1, e2, h3⟩ := h
      rw [List.length_take] at e1 e2
      rw [getE_ok (by omega : i < p.length), getE_ok h0, getE_ok (by omega : i < b.2.length)]
      simp only [Py.bind_ok]
      have := h3 i h0 (by rw [List.length_take]; omega) (by omega)
      rw [List.getElem_take] at this
      simp only [inClosedRange, this.1, this.2, decide_true, Bool.and_self, Bool.not_true]
      exact ih (fun j hj => hi j (by simp [hj])) r
  unfold pointInside
  obtain ⟨c, hc⟩ : ∃ c, p.length = b.1.length + (1 + c) := ⟨p.length - b.1.length - 1, by omega⟩
  rw [hc, List.range_add]
  rw [show List.range (1 + c) = 0 :: (List.range c).map Nat.succ by rw [Nat.add_comm, List.range_succ_eq_map]]
  rw [List.map_cons]
  exact hk _ (fun i hi => List.mem_range.1 hi) _

/-- C40: `is_empty` is true exactly for the boxes that contain no point; `is_valid` is its negation. -/
theorem C40_is_empty [Sub α] [Mul α] [One α] {n : Nat} {b : Box α} (hb : BoxDim b n) :
    ∃ r, isEmpty b = .ok r ∧ isValid b = .ok (!r) ∧ (r = true ↔ ∀ p, ¬ InBox b p) := by
  have hvol : ∀ (v : α) (l : List Nat), (∀ i ∈ l, i < n) → ∃ w, l.foldlM (fun (vol : α) (i : Nat) => do
      let hi ← getE b.2 i
      let lo ← getE b.1 i
      return vol * (hi - lo)) v = (.ok w : Py α) := by
    intro v l hl
    induction l generalizing v with
    | nil => exact ⟨v, rfl⟩
    | cons i l ih =>
      rw [List.foldlM_cons, getE_ok (by have := hl i (by simp); have := hb.2; omega : i < b.2.length),
        getE_ok (by have := hl i (by simp); have := hb.1; omega : i < b.1.length)]
      exact ih _ (fun j hj => hl j (by simp [hj]))
  have hv := isValid_ok hb
  have hp : (∀ i (h0 : i < b.1.length) (h1 : i < b.2.length), b.1[i] ≤ b.2[i]) ↔ ∃ p, InBox b p := by
    constructor
    · intro h
      exact ⟨b.1, rfl, by rw [hb.1, hb.2], fun i h0 _ h1 => ⟨le_refl _, h i h0 h1⟩⟩
    · rintro ⟨p, e1, e2, h⟩ i h0 h1
      exact (h i h0 (by omega) h1).1.trans (h i h0 (by omega) h1).2
  unfold isEmpty volume
  rw [hv]
  simp only [Py.bind_ok]
  by_cases h : ∀ i (h0 : i < b.1.length) (h1 : i < b.2.length), b.1[i] ≤ b.2[i]
  · obtain ⟨w, hw⟩ := hvol 1 (List.range (dimension b)) (fun i hi => by rw [dimension, List.mem_range, hb.1] at hi; exact hi)
    rw [decide_eq_true h]
    simp only [Bool.not_true, Bool.false_eq_true, if_false, hw, Py.bind_ok]
    refine ⟨false, rfl, rfl, ?_⟩
    simp only [Bool.false_eq_true, false_iff, not_forall, not_not]
    exact hp.1 h
  · rw [decide_eq_false h]
    refine ⟨true, rfl, rfl, ?_⟩
    simp only [true_iff]
    rw [hp] at h
    exact fun p hpp => h ⟨p, hpp⟩

omit [LinearOrder α] in
theorem zipBox_ok {n : Nat} {a b : Box α} (ha : BoxDim a n) (hb : BoxDim b n) (f g : α → α → α) :
    (List.range (dimension a)).mapM (fun (i : Nat) => (do
      let a0 ← getE a.1 i
      let b0 ← getE b.1 i
      let a1 ← getE a.2 i
      let b1 ← getE b.2 i
      return (f a0 b0, g a1 b1) : Py (α × α))) = .ok ((List.zipWith f a.1 b.1).zip (List.zipWith g a.2 b.2)) := by
  obtain ⟨a1, a2⟩ := a
  obtain ⟨b1, b2⟩ := b
  obtain ⟨e1, e2⟩ := ha
  obtain ⟨e3, e4⟩ := hb
  simp only [dimension] at *
  induction n generalizing a1 a2 b1 b2 with
  | zero =>
    rw [List.length_eq_zero_iff] at e1 e2 e3 e4
    subst e1 e2 e3 e4; rfl
  | succ n ih =>
    obtain ⟨x1, a1, rfl⟩ := List.exists_cons_of_length_eq_add_one e1
    obtain ⟨x2, a2, rfl⟩ := List.exists_cons_of_length_eq_add_one e2
    obtain ⟨x3, b1, rfl⟩ := List.exists_cons_of_length_eq_add_one e3
    obtain ⟨x4, b2, rfl⟩ := List.exists_cons_of_length_eq_add_one e4
    simp only [List.length_cons, Nat.add_right_cancel_iff] at e1 e2 e3 e4
    rw [List.length_cons, List.range_succ_eq_map, List.mapM_cons, List.mapM_map]
    have := ih a1 a2 b1 b2 e1 e2 e3 e4
    simp only [getE, List.getElem?_cons_zero, List.getElem?_cons_succ, Py.bind_ok, Py.pure_eq, Function.comp_def] at this ⊢
    rw [this]; rfl

theorem union_ok {n : Nat} {a b : Box α} (ha : BoxDim a n) (hb : BoxDim b n) :
    union a b = .ok (List.zipWith min a.1 b.1, List.zipWith max a.2 b.2) := by
  unfold union
  rw [zipBox_ok ha hb min max]
  simp only [Py.bind_ok, Py.pure_eq]
  rw [List.map_fst_zip (by simp [ha.1, ha.2, hb.1, hb.2]), List.map_snd_zip (by simp [ha.1, ha.2, hb.1, hb.2])]

theorem intersection_ok {n : Nat} {a b : Box α} (ha : BoxDim a n) (hb : BoxDim b n) :
    intersection a b = .ok (List.zipWith max a.1 b.1, List.zipWith min a.2 b.2) := by
  unfold intersection
  rw [zipBox_ok ha hb max min]
  simp only [Py.bind_ok, Py.pure_eq]
  rw [List.map_fst_zip (by simp [ha.1, ha.2, hb.1, hb.2]), List.map_snd_zip (by simp [ha.1, ha.2, hb.1, hb.2])]

/-- C40: a point is in the intersection iff it is in both boxes. -/
theorem C40_intersection {n : Nat} {a b : Box α} (ha : BoxDim a n) (hb : BoxDim b n) :
    ∃ c, intersection a b = .ok c ∧ BoxDim c n ∧ ∀ p, InBox c p ↔ InBox a p ∧ InBox b p := by
  refine ⟨_, intersection_ok ha hb, ⟨by simp [ha.1, hb.1], by simp [ha.2, hb.2]⟩, ?_⟩
  intro p
  have := ha.1; have := ha.2; have := hb.1; have := hb.2
  simp only [InBox, List.length_zipWith, List.getElem_zipWith, max_le_iff, le_min_iff]
  constructor
  · rintro ⟨e1, e2, h⟩
    refine ⟨⟨by omega, by omega, ?_⟩, ⟨by omega, by omega, ?_⟩⟩
    · intro i h0 h1 h2; have := h i (by omega) h1 (by omega); exact ⟨this.1.1, this.2.1⟩
    · intro i h0 h1 h2; have := h i (by omega) h1 (by omega); exact ⟨this.1.2, this.2.2⟩
  · rintro ⟨⟨e1, e2, h⟩, ⟨e3, e4, h'⟩⟩
    refine ⟨by omega, by omega, ?_⟩
    intro i h0 h1 h2
    have g1 := h i (by omega) h1 (by omega)
    have g2 := h' i (by omega) h1 (by omega)
    exact ⟨⟨g1.1, g2.1⟩, g1.2, g2.2⟩

/-- C40: the union of two boxes contains both. If both contain a point, it is the smallest such box: it is contained in every box that
contains both. -/
theorem C40_union {n : Nat} {a b : Box α} (ha : BoxDim a n) (hb : BoxDim b n) :
    ∃ c, union a b = .ok c ∧ BoxDim c n ∧ (∀ p, InBox a p ∨ InBox b p → InBox c p) ∧
      ((∃ p, InBox a p) → (∃ p, InBox b p) → ∀ d, BoxDim d n → (∀ p, InBox a p ∨ InBox b p → InBox d p) → ∀ p, InBox c p → InBox d p) := by
  refine ⟨_, union_ok ha hb, ⟨by simp [ha.1, hb.1], by simp [ha.2, hb.2]⟩, ?_, ?_⟩
  · intro p hp
    have := ha.1; have := ha.2; have := hb.1; have := hb.2
    simp only [InBox, List.length_zipWith, List.getElem_zipWith, min_le_iff, le_max_iff] at hp ⊢
    rcases hp with ⟨e1, e2, h⟩ | ⟨e1, e2, h⟩
    · refine ⟨by omega, by omega, fun i h0 h1 h2 => ?_⟩
      have := h i (by omega) h1 (by omega); exact ⟨Or.inl this.1, Or.inl this.2⟩
    · refine ⟨by omega, by omega, fun i h0 h1 h2 => ?_⟩
      have := h i (by omega) h1 (by omega); exact ⟨Or.inr this.1, Or.inr this.2⟩
  · rintro ⟨p1, hp1⟩ ⟨p2, hp2⟩ d hd hsub p hp
    have a1 := ha.1; have a2 := ha.2; have b1 := hb.1; have b2 := hb.2; have d1 := hd.1; have d2 := hd.2
    have ext : ∀ (e : Box α), BoxDim e n → ∀ q, InBox e q → InBox e e.1 ∧ InBox e e.2 := by
      rintro e he q ⟨e1, e2, h⟩
      refine ⟨⟨rfl, by omega, fun i h0 _ h2 => ⟨le_refl _, ?_⟩⟩, ⟨by omega, rfl, fun i h0 _ h2 => ⟨?_, le_refl _⟩⟩⟩
      · exact (h i h0 (by omega) h2).1.trans (h i h0 (by omega) h2).2
      · exact (h i h0 (by omega) h2).1.trans (h i h0 (by omega) h2).2
    obtain ⟨_, _, k1⟩ := hsub _ (Or.inl (ext a ha p1 hp1).1)
    obtain ⟨_, _, k2⟩ := hsub _ (Or.inl (ext a ha p1 hp1).2)
    obtain ⟨_, _, k3⟩ := hsub _ (Or.inr (ext b hb p2 hp2).1)
    obtain ⟨_, _, k4⟩ := hsub _ (Or.inr (ext b hb p2 hp2).2)
    simp only [InBox, List.length_zipWith, List.getElem_zipWith, min_le_iff, le_max_iff] at hp ⊢
    obtain ⟨e1, e2, h⟩ := hp
    refine ⟨by omega, by omega, fun i h0 h1 h2 => ?_⟩
    obtain ⟨q1, q2⟩ := h i (by omega) h1 (by omega)
    constructor
    · rcases q1 with q | q
      · exact (k1 i h0 (by omega) h2).1.trans q
      · exact (k3 i h0 (by omega) h2).1.trans q
    · rcases q2 with q | q
      · exact q.trans (k2 i h0 (by omega) h2).2
      · exact q.trans (k4 i h0 (by omega) h2).2

/-- C40: the box `empty(n)` contains no point (n > 0) and is neutral for the union. -/
theorem C40_empty [BoundedOrder α] {n : Nat} {a : Box α} (ha : BoxDim a n) :
    union (empty n) a = .ok a ∧ union a (empty n) = .ok a ∧ (0 < n → ⊥ ≠ (⊤ : α) → ∀ p, ¬ InBox (empty n : Box α) p) := by
  have he : BoxDim (empty n : Box α) n := ⟨by simp [empty], by simp [empty]⟩
  have k : ∀ (l : List α), l.length = n → ∀ (f : α → α → α) (c : α), (∀ x, f c x = x) → List.zipWith f (List.replicate n c) l = l := by
    intro l hl f c hf
    apply List.ext_getElem
    · simp [hl]
    · intro i _ _; simp [hf]
  have k' : ∀ (l : List α), l.length = n → ∀ (f : α → α → α) (c : α), (∀ x, f x c = x) → List.zipWith f l (List.replicate n c) = l := by
    intro l hl f c hf
    apply List.ext_getElem
    · simp [hl]
    · intro i _ _; simp [hf]
  refine ⟨?_, ?_, ?_⟩
  · rw [union_ok he ha]
    simp only [empty]
    rw [k _ ha.1 _ _ (fun x => by simp), k _ ha.2 _ _ (fun x => by simp)]
  · rw [union_ok ha he]
    simp only [empty]
    rw [k' _ ha.1 _ _ (fun x => by simp), k' _ ha.2 _ _ (fun x => by simp)]
  · rintro hn hne p ⟨e1, e2, h⟩
    simp only [empty, List.length_replicate] at e1 e2
    have := h 0 (by simpa [empty] using hn) (by omega) (by simpa [empty] using hn)
    simp only [empty, List.getElem_replicate] at this
    exact hne (le_antisymm bot_le (this.1.trans this.2))

/-- C40: `full(n)` contains every point of dimension n. -/
theorem C40_full [BoundedOrder α] (n : Nat) (p : List α) (hp : p.length = n) : InBox (full n) p := by
  refine ⟨by simp [full, hp], by simp [full, hp], fun i _ _ _ => ?_⟩
  simp [full]

/-- C40: `unit(n)` is the unit cube. -/
theorem C40_unit [Zero α] [One α] (n : Nat) (p : List α) : InBox (unit n) p ↔ p.length = n ∧ ∀ x ∈ p, 0 ≤ x ∧ x ≤ 1 := by
  constructor
  · rintro ⟨e1, e2, h⟩
    simp only [unit, List.length_replicate] at e1 e2
    refine ⟨by omega, fun x hx => ?_⟩
    obtain ⟨i, hi, rfl⟩ := List.getElem_of_mem hx
    simpa [unit] using h i (by simp [unit]; omega) hi (by simp [unit]; omega)
  · rintro ⟨rfl, h⟩
    refine ⟨by simp [unit], by simp [unit], fun i _ hi _ => ?_⟩
    simpa [unit] using h _ (List.getElem_mem hi)

/-- C40: `create(points)` contains all points and is contained in every box that does. -/
theorem C40_create {n : Nat} (ps : List (List α)) (hne : ps ≠ []) (hlen : ∀ p ∈ ps, p.length = n) :
    ∃ b, create ps = .ok b ∧ BoxDim b n ∧ (∀ p ∈ ps, InBox b p) ∧ ∀ d, BoxDim d n → (∀ p ∈ ps, InBox d p) → ∀ p, InBox b p → InBox d p := by
  obtain ⟨p, ps, rfl⟩ := List.exists_cons_of_ne_nil hne
  have hp := hlen p (by simp)
  have hps : ∀ q ∈ ps, q.length = n := fun q hq => hlen q (by simp [hq])
  have hall : ps.all (fun q => q.length == p.length) = true := by
    rw [List.all_eq_true]; intro q hq; rw [beq_iff_eq, hps q hq, hp]
  simp only [create]
  rw [if_pos hall]
  have key : ∀ (ps : List (List α)) (p : List α), p.length = n → (∀ q ∈ ps, q.length = n) → ∀ (f : α → α → α) (r : α → α → Prop),
      (∀ x, r x x) → (∀ x y z, r x y → r y z → r x z) → (∀ x y, r (f x y) x) → (∀ x y, r (f x y) y) → (∀ x y z, r z x → r z y → r z (f x y)) →
      (ps.foldl (List.zipWith f) p).length = n ∧
      (∀ q ∈ p :: ps, ∀ i (h : i < (ps.foldl (List.zipWith f) p).length) (h1 : i < q.length), r ((ps.foldl (List.zipWith f) p)[i]) q[i]) ∧
      (∀ i (h : i < (ps.foldl (List.zipWith f) p).length) (z : α), (∀ q ∈ p :: ps, ∀ (h1 : i < q.length), r z q[i]) →
        r z ((ps.foldl (List.zipWith f) p)[i])) := by
    intro ps
    induction ps with
    | nil =>
      intro p hp _ f r hr ht h1 h2 h3
      simp only [List.foldl_nil]
      refine ⟨hp, ?_, ?_⟩
      · intro q hq i _ _
        simp only [List.mem_cons, List.not_mem_nil, or_false] at hq
        subst hq; exact hr _
      · intro i h z hz; exact hz p (by simp) h
    | cons s ps ih =>
      intro p hp hps f r hr ht h1 h2 h3
      have hs := hps s (by simp)
      obtain ⟨l1, l2, l3⟩ := ih (List.zipWith f p s) (by simp [hp, hs]) (fun q hq => hps q (by simp [hq])) f r hr ht h1 h2 h3
      simp only [List.foldl_cons]
      refine ⟨l1, ?_, ?_⟩
      · intro q hq i h hi
        have h0 := l2 (List.zipWith f p s) (by simp) i h (by simp [hp, hs]; omega)
        rw [List.getElem_zipWith] at h0
        rcases List.mem_cons.1 hq with rfl | hq
        · exact ht _ _ _ h0 (h1 _ _)
        · rcases List.mem_cons.1 hq with rfl | hq
          · exact ht _ _ _ h0 (h2 _ _)
          · exact l2 q (by simp [hq]) i h hi
      · intro i h z hz
        apply l3
        intro q hq hi
        rcases List.mem_cons.1 hq with rfl | hq
        · rw [List.getElem_zipWith]
          exact h3 _ _ _ (hz p (by simp) (by simp [hp, hs] at hi; omega)) (hz s (by simp) (by simp [hp, hs] at hi; omega))
        · exact hz q (by simp [hq]) hi
  obtain ⟨m1, m2, m3⟩ := key ps p hp hps min (· ≤ ·) (fun x => le_refl x) (fun x y z => le_trans) (fun x y => min_le_left x y)
    (fun x y => min_le_right x y) (fun x y z => le_min)
  obtain ⟨M1, M2, M3⟩ := key ps p hp hps max (· ≥ ·) (fun x => le_refl x) (fun x y z h1 h2 => le_trans h2 h1) (fun x y => le_max_left x y)
    (fun x y => le_max_right x y) (fun x y z => max_le)
  refine ⟨_, rfl, ⟨m1, M1⟩, ?_, ?_⟩
  · intro q hq
    exact ⟨by rw [hlen q hq, m1], by rw [hlen q hq, M1], fun i h0 h h1 => ⟨m2 q hq i h0 h, M2 q hq i h1 h⟩⟩
  · intro d hd hsub q ⟨e1, e2, h⟩
    have d1 := hd.1; have d2 := hd.2
    simp only [m1, M1] at e1 e2
    refine ⟨by omega, by omega, fun i h0 h1 h2 => ⟨?_, ?_⟩⟩
    · refine le_trans (m3 i (by omega) d.1[i] ?_) (h i (by simp only; omega) h1 (by simp only; omega)).1
      intro s hs hi
      exact ((hsub s hs).2.2 i h0 hi h2).1
    · refine le_trans (h i (by simp only; omega) h1 (by simp only; omega)).2 (M3 i (by omega) d.2[i] ?_)
      intro s hs hi
      exact ((hsub s hs).2.2 i h0 hi h2).2

/-- C40: without points (or with points of different dimensions) `create` raises ValueError. -/
theorem C40_create_error : create ([] : List (List α)) = .error .value ∧
    ∀ (p q : List α) (ps : List (List α)), q ∈ ps → q.length ≠ p.length → create (p :: ps) = .error .value := by
  refine ⟨rfl, fun p q ps hq hl => ?_⟩
  simp only [create]
  rw [if_neg]
  rw [List.all_eq_true]
  intro h
  exact hl (by simpa using h q hq)

/-- C40: corner number `i < 2^n` has coordinate `k` equal to the maximum if bit `k` of `i` is set, and to the minimum otherwise. -/
theorem C40_corner {n : Nat} (hn : 0 < n) {b : Box α} (hb : BoxDim b n) (i : Nat) (hi : i < 2 ^ n) :
    ∃ c, corner b i = .ok c ∧ c.length = n ∧ ∀ (k : Nat) (h : k < c.length) (h0 : k < b.1.length) (h1 : k < b.2.length),
      c[k] = if i.testBit k then b.2[k] else b.1[k] := by
  have key : ∀ (n : Nat) (b : Box α) (i : Nat), BoxDim b (n + 1) → i < 2 ^ (n + 1) → ∃ c, cornerRec (n + 1) b i = .ok c ∧ c.length = n + 1 ∧
      ∀ (k : Nat) (h : k < c.length) (h0 : k < b.1.length) (h1 : k < b.2.length), c[k] = if i.testBit k then b.2[k] else b.1[k] := by
    intro n
    induction n with
    | zero =>
      intro b i hb hi
      obtain rfl | rfl : i = 0 ∨ i = 1 := by omega
      · refine ⟨b.1, rfl, hb.1, fun k h h0 h1 => ?_⟩
        simp
      · refine ⟨b.2, rfl, hb.2, fun k h h0 h1 => ?_⟩
        have : k = 0 := by have := hb.1; omega
        subst this; simp
    | succ n ih =>
      intro b i hb hi
      have b1 := hb.1; have b2 := hb.2
      have ht : BoxDim (b.1.take (n + 1), b.2.take (n + 1)) (n + 1) := ⟨by simp [b1], by simp [b2]⟩
      unfold cornerRec
      by_cases h : i ≥ 2 ^ (n + 1)
      · rw [if_pos h]
        obtain ⟨c, hc, hl, hk⟩ := ih _ (i - 2 ^ (n + 1)) ht (by rw [pow_succ] at hi; omega)
        rw [hc, getE_ok (by omega : n + 1 < b.2.length)]
        refine ⟨_, rfl, by simp [hl], fun k h0 h1 h2 => ?_⟩
        have hbit : i = 2 ^ (n + 1) + (i - 2 ^ (n + 1)) := by omega
        rw [List.length_append, hl] at h0
        simp only [List.length_cons, List.length_nil] at h0
        rw [List.getElem_append]
        split
        · rename_i hkc
          rw [hk k hkc (by simp; omega) (by simp; omega)]
          simp only [List.getElem_take]
          rw [hl] at hkc
          have : i.testBit k = (i - 2 ^ (n + 1)).testBit k := by
            conv_lhs => rw [hbit]
            rw [Nat.testBit_two_pow_add_gt (by omega)]
          rw [this]
        · rename_i hkc
          have hkn : k = n + 1 := by omega
          subst hkn
          have : i.testBit (n + 1) = true := by
            rw [hbit, Nat.testBit_two_pow_add_eq, Nat.testBit_lt_two_pow (by rw [pow_succ] at hi; omega)]; rfl
          simp [this, hl]
      · rw [if_neg h]
        obtain ⟨c, hc, hl, hk⟩ := ih _ i ht (by omega)
        rw [hc, getE_ok (by omega : n + 1 < b.1.length)]
        refine ⟨_, rfl, by simp [hl], fun k h0 h1 h2 => ?_⟩
        rw [List.length_append, hl] at h0
        simp only [List.length_cons, List.length_nil] at h0
        rw [List.getElem_append]
        split
        · rename_i hkc
          rw [hk k hkc (by simp; omega) (by simp; omega)]
          simp only [List.getElem_take]
        · rename_i hkc
          have hkn : k = n + 1 := by omega
          subst hkn
          rw [Nat.testBit_lt_two_pow (by omega)]
          simp [hl]
  obtain ⟨m, rfl⟩ : ∃ m, n = m + 1 := ⟨n - 1, by omega⟩
  have : corner b i = cornerRec (m + 1) b i := by unfold corner dimension; rw [hb.1]
  rw [this]
  exact key m b i hb hi

/-- C40: the corners are all 2^n choices of minimum or maximum in each coordinate. -/
theorem C40_corners_all {n : Nat} (hn : 0 < n) {b : Box α} (hb : BoxDim b n) (choice : Nat → Bool) :
    ∃ i, i < 2 ^ n ∧ ∃ c, corner b i = .ok c ∧ c.length = n ∧ ∀ (k : Nat) (h : k < c.length) (h0 : k < b.1.length) (h1 : k < b.2.length),
      c[k] = if choice k then b.2[k] else b.1[k] := by
  have hex : ∀ n, ∃ i, i < 2 ^ n ∧ ∀ k, k < n → i.testBit k = choice k := by
    intro n
    induction n with
    | zero => exact ⟨0, by simp, by simp⟩
    | succ n ih =>
      obtain ⟨i, hi, hk⟩ := ih
      cases hc : choice n with
      | false =>
        refine ⟨i, by rw [pow_succ]; omega, fun k hkn => ?_⟩
        by_cases e : k = n
        · subst e; rw [hc, Nat.testBit_lt_two_pow hi]
        · exact hk k (by omega)
      | true =>
        refine ⟨2 ^ n + i, by rw [pow_succ]; omega, fun k hkn => ?_⟩
        by_cases e : k = n
        · subst e; rw [hc, Nat.testBit_two_pow_add_eq, Nat.testBit_lt_two_pow hi]; rfl
        · rw [Nat.testBit_two_pow_add_gt (by omega)]; exact hk k (by omega)
  obtain ⟨i, hi, hk⟩ := hex n
  obtain ⟨c, hc, hl, h⟩ := C40_corner hn hb i hi
  refine ⟨i, hi, c, hc, hl, fun k h0 h1 h2 => ?_⟩
  rw [h k h0 h1 h2, hk k (by omega)]

end

section
variable {K : Type} [Field K] [LinearOrder K] [IsStrictOrderedRing K]

/-- C40: for a non-empty box `midpoint - half_diagonal` is the minimum and `midpoint + half_diagonal` the maximum, coordinate by coordinate. -/
theorem C40_midpoint {n : Nat} {b : Box K} (hb : BoxDim b n) (hne : ∃ p, InBox b p) : ∃ m d, midpoint b = .ok (some m) ∧
    halfDiagonal b = .ok (some d) ∧ m.length = n ∧ d.length = n ∧ InBox b m ∧
    ∀ (i : Nat) (h0 : i < m.length) (h1 : i < d.length) (h2 : i < b.1.length) (h3 : i < b.2.length),
      m[i] - d[i] = b.1[i] ∧ m[i] + d[i] = b.2[i] := by
  have b1 := hb.1; have b2 := hb.2
  obtain ⟨p, e1, e2, hp⟩ := hne
  have hle : ∀ i (h0 : i < b.1.length) (h1 : i < b.2.length), b.1[i] ≤ b.2[i] :=
    fun i h0 h1 => (hp i h0 (by omega) h1).1.trans (hp i h0 (by omega) h1).2
  have hmap : ∀ (f : K → K → K) (l : List Nat), (∀ i ∈ l, i < n) → l.mapM (fun (i : Nat) => (do
      let lo ← getE b.1 i
      let hi ← getE b.2 i
      return f lo hi : Py K)) = .ok (l.map (fun i => f (b.1.getD i 0) (b.2.getD i 0))) := by
    intro f l hl
    apply mapM_eq_ok
    intro i hi
    have := hl i hi
    rw [getE_ok (by omega : i < b.1.length), getE_ok (by omega : i < b.2.length)]
    simp only [Py.bind_ok, Py.pure_eq]
    rw [List.getD_eq_getElem _ _ (by omega), List.getD_eq_getElem _ _ (by omega)]
  have hmap' : ∀ (f : K → K → K) (l : List Nat), (∀ i ∈ l, i < n) → l.mapM (fun (i : Nat) => (do
      let hi ← getE b.2 i
      let lo ← getE b.1 i
      return f lo hi : Py K)) = .ok (l.map (fun i => f (b.1.getD i 0) (b.2.getD i 0))) := by
    intro f l hl
    apply mapM_eq_ok
    intro i hi
    have := hl i hi
    rw [getE_ok (by omega : i < b.1.length), getE_ok (by omega : i < b.2.length)]
    simp only [Py.bind_ok, Py.pure_eq]
    rw [List.getD_eq_getElem _ _ (by omega), List.getD_eq_getElem _ _ (by omega)]
  have hr : ∀ i ∈ List.range n, i < n := fun i => List.mem_range.1
  refine ⟨(List.range n).map (fun i => 1 / 2 * (b.1.getD i 0 + b.2.getD i 0)), (List.range n).map (fun i => 1 / 2 * (b.2.getD i 0 - b.1.getD i 0)),
    ?_, ?_, by simp, by simp, ?_, ?_⟩
  · unfold midpoint
    rw [isValid_ok hb, decide_eq_true hle]
    simp only [Py.bind_ok, Bool.not_true, Bool.false_eq_true, if_false, dimension, b1]
    rw [hmap (fun lo hi => 1 / 2 * (lo + hi)) _ hr]
    rfl
  · unfold halfDiagonal
    rw [isValid_ok hb, decide_eq_true hle]
    simp only [Py.bind_ok, Bool.not_true, Bool.false_eq_true, if_false, dimension, b1]
    rw [hmap' (fun lo hi => 1 / 2 * (hi - lo)) _ hr]
    rfl
  · refine ⟨by simp [b1], by simp [b2], fun i h0 h1 h2 => ?_⟩
    simp only [List.getElem_map, List.getElem_range]
    rw [List.getD_eq_getElem _ _ h0, List.getD_eq_getElem _ _ h2]
    have := hle i h0 h2
    constructor <;> linarith
  · intro i h0 h1 h2 h3
    simp only [List.getElem_map, List.getElem_range]
    rw [List.getD_eq_getElem _ _ h2, List.getD_eq_getElem _ _ h3]
    constructor <;> ring

/-- C40: the volume of a non-empty box is the product of its side lengths, and None for an empty box. -/
theorem C40_volume {n : Nat} {b : Box K} (hb : BoxDim b n) :
    ((∃ p, InBox b p) → volume b = .ok (some (∏ i ∈ Finset.range n, (b.2.getD i 0 - b.1.getD i 0)))) ∧
    ((∀ p, ¬ InBox b p) → volume b = .ok none) := by
  have b1 := hb.1; have b2 := hb.2
  constructor
  · rintro ⟨p, e1, e2, hp⟩
    have hle : ∀ i (h0 : i < b.1.length) (h1 : i < b.2.length), b.1[i] ≤ b.2[i] :=
      fun i h0 h1 => (hp i h0 (by omega) h1).1.trans (hp i h0 (by omega) h1).2
    unfold volume
    rw [isValid_ok hb, decide_eq_true hle]
    simp only [Py.bind_ok, Bool.not_true, Bool.false_eq_true, if_false, dimension, b1]
    have : ∀ m, m ≤ n → (List.range m).foldlM (fun (vol : K) (i : Nat) => (do
        let hi ← getE b.2 i
        let lo ← getE b.1 i
        return vol * (hi - lo) : Py K)) 1 = .ok (∏ i ∈ Finset.range m, (b.2.getD i 0 - b.1.getD i 0)) := by
      intro m
      induction m with
      | zero => intro _; simp
      | succ m ih =>
        intro hm
        rw [List.range_succ, List.foldlM_append, ih (by omega), Finset.prod_range_succ]
        simp only [Py.bind_ok, List.foldlM_cons, List.foldlM_nil]
        rw [getE_ok (by omega : m < b.2.length), getE_ok (by omega : m < b.1.length)]
        rw [List.getD_eq_getElem _ _ (by omega), List.getD_eq_getElem _ _ (by omega)]
        rfl
    rw [this n le_rfl]; rfl
  · intro h
    obtain ⟨r, h1, h2, h3⟩ := C40_is_empty hb
    rw [h3.2 h] at h2
    unfold volume
    rw [h2]; rfl

/-- C40: a box of dimension 0 has no corner: the recursion does not end. -/
theorem C40_corner_dim_zero (i : Nat) : corner (([], []) : Box K) i = .error .runtime := rfl

end

example : create [[1, 5], [3, 2], [0, 4]] = .ok (([0, 2], [3, 5]) : Box Int) ∧ union ([0, 0], [1, 1]) ([2, -1], [3, 0]) = .ok (([0, -1], [3, 1]) : Box Int) ∧
    intersection ([0, 0], [2, 2]) ([1, -1], [3, 1]) = .ok (([1, 0], [2, 1]) : Box Int) ∧
    isEmpty (([0, 3], [1, 2]) : Box Int) = .ok true ∧ isEmpty (([0, 2], [1, 2]) : Box Int) = .ok false ∧
    corner (([0, 1, 2], [10, 11, 12]) : Box Int) 6 = .ok [0, 11, 12] ∧ pointInside (([0, 2], [1, 2]) : Box Int) [1, 2] = .ok true :=
  ⟨rfl, rfl, rfl, rfl, rfl, rfl, rfl⟩

/-- C40, the restriction in the claim about the union is needed: for a box without points other than `empty(n)` the union need not be the
smallest box. -/
theorem C40_union_invalid : ∃ a b : Box Int, (∀ p, ¬ InBox a p) ∧ union a b = .ok ([0], [4]) ∧ InBox ([0], [4]) [4] ∧ ¬ InBox b [4] := by
  refine ⟨([5], [4]), ([0], [1]), ?_, rfl, ?_, ?_⟩
  · rintro p ⟨e1, _, h⟩
    have := h 0 (by simp) (by rw [e1]; simp) (by simp)
    simp at this; omega
  · refine ⟨rfl, rfl, fun i h0 _ _ => ?_⟩
    have : i = 0 := by simpa using h0
    subst this; simp
  · rintro ⟨_, _, h⟩
    have := h 0 (by simp) (by simp) (by simp)
    simp at this

end Verif.Props
