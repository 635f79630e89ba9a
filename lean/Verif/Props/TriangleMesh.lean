import Mathlib.Tactic.FinCases
import Mathlib.Data.Fintype.Basic
import Mathlib.Data.Fintype.Sets
import Mathlib.Data.List.Basic
import Verif.Model.TriangleMesh
/-!
# Property C56: triangle mesh queries
-/

namespace Verif.Props
open Verif Verif.TriMesh

/-- The triangle `t` runs through the edge from `a` to `b`. -/
def Traverses (t : Tri) (a b : Nat) : Prop := ∃ i : Fin 3, t i = a ∧ t (i + 1) = b

/-- The vertices of a triangle. -/
def IsVertex (t : Tri) (v : Nat) : Prop := ∃ i : Fin 3, t i = v

theorem has_iff (t : Tri) (v : Nat) : t.has v = true ↔ IsVertex t v := by
  simp only [Tri.has, Bool.or_eq_true, beq_iff_eq, IsVertex, Fin.exists_fin_succ]
  simp [or_assoc]

/-- C56: `neighbour(t, i, j)` is the first other triangle that contains both vertices of edge `j` (opposite to vertex `j`) of triangle `i`,
and None if there is none. -/
theorem C56_neighbour (t : List Tri) (i : Nat) (hi : i < t.length) (j : Fin 3) : ∃ n, neighbour t i j = .ok n ∧
    (n = none ↔ ∀ (k : Nat) (hk : k < t.length), k ≠ i → ¬ (IsVertex t[k] (t[i] (j + 1)) ∧ IsVertex t[k] (t[i] (j + 2)))) ∧
    ∀ k, n = some k → ∃ hk : k < t.length, k ≠ i ∧ IsVertex t[k] (t[i] (j + 1)) ∧ IsVertex t[k] (t[i] (j + 2)) ∧
      ∀ (l : Nat) (hl : l < k), l ≠ i → ¬ (IsVertex (t[l]'(by omega)) (t[i] (j + 1)) ∧ IsVertex (t[l]'(by omega)) (t[i] (j + 2))) := by
  have e1 : ∀ s : Tri, s.at (j + 1) = s (j + 1) := by intro s; fin_cases j <;> rfl
  have e2 : ∀ s : Tri, s.at (j + 2) = s (j + 2) := by intro s; fin_cases j <;> rfl
  unfold neighbour
  rw [getE_ok hi]
  simp only [Py.bind_ok, Py.pure_eq, e1, e2]
  refine ⟨_, rfl, ?_, ?_⟩
  · rw [Option.map_eq_none_iff, List.find?_eq_none]
    constructor
    · intro h k hk hki hv
      have := h (t[k], k) (by rw [List.mem_iff_getElem]; exact ⟨k, by simpa using hk, by simp⟩)
      simp [hki, has_iff, hv] at this
    · intro h x hx
      obtain ⟨k, hk, rfl⟩ := List.mem_iff_getElem.1 hx
      simp only [List.length_zipIdx] at hk
      simp only [List.getElem_zipIdx, Nat.zero_add]
      by_cases hki : k = i
      · simp [hki]
      · have := h k hk hki
        simp only [ne_eq, hki, not_false_eq_true, decide_true, Bool.true_and, Bool.and_eq_true, has_iff]
        exact this
  · intro k hk
    rw [Option.map_eq_some_iff] at hk
    obtain ⟨x, hx, rfl⟩ := hk
    rw [List.find?_eq_some_iff_getElem] at hx
    obtain ⟨h1, m, hm, h2, h3⟩ := hx
    simp only [List.length_zipIdx] at hm
    rw [List.getElem_zipIdx] at h2
    subst h2
    simp only [Nat.zero_add] at h1 ⊢
    simp only [ne_eq, Bool.and_eq_true, has_iff, decide_eq_true_eq] at h1
    refine ⟨hm, h1.1.1, h1.1.2, h1.2, ?_⟩
    intro l hl hli hv
    have := h3 l (by simpa using hl)
    have h5 := (has_iff _ _).2 hv.1
    have h6 := (has_iff _ _).2 hv.2
    simp [List.getElem_zipIdx, hli, h5, h6] at this

theorem position_injective (t : Tri) (ht : Function.Injective t) (p : Fin 3) : vertexPosition t (t p) = some (p : Nat) := by
  have h01 : t 0 ≠ t 1 := fun h => by simpa using ht h
  have h02 : t 0 ≠ t 2 := fun h => by simpa using ht h
  have h12 : t 1 ≠ t 2 := fun h => by simpa using ht h
  have a0 : t.at 0 = t 0 := rfl
  have a1 : t.at 1 = t 1 := rfl
  have a2 : t.at 2 = t 2 := rfl
  unfold vertexPosition
  fin_cases p <;> simp [List.find?_cons, a0, a1, a2, h01, h02, h12, h01.symm, h02.symm, h12.symm]

theorem traverses_or {t : Tri} {a b : Nat} (ha : IsVertex t a) (hb : IsVertex t b) (hab : a ≠ b) : Traverses t a b ∨ Traverses t b a := by
  obtain ⟨i, rfl⟩ := ha
  obtain ⟨j, rfl⟩ := hb
  have hij : i ≠ j := fun h => hab (by rw [h])
  have : i + 1 = j ∨ j + 1 = i := by
    have : ∀ i j : Fin 3, i ≠ j → i + 1 = j ∨ j + 1 = i := by decide
    exact this i j hij
  rcases this with h | h
  · exact Or.inl ⟨i, rfl, by rw [h]⟩
  · exact Or.inr ⟨j, rfl, by rw [h]⟩

theorem not_both {t : Tri} (ht : Function.Injective t) {a b : Nat} (h1 : Traverses t a b) (h2 : Traverses t b a) : False := by
  obtain ⟨i, rfl, rfl⟩ := h1
  obtain ⟨j, h3, h4⟩ := h2
  have e1 := ht h3
  have e2 := ht h4
  have : ∀ i j : Fin 3, j = i + 1 → j + 1 = i → False := by decide
  exact this i j e1 e2

/-- C56: `has_same_edge_orientation` is True if the edge has no neighbour, and otherwise tells whether the neighbour runs through the edge in
the opposite direction. -/
theorem C56_same_edge_orientation (t : List Tri) (ht : ∀ s ∈ t, Function.Injective s) (i : Nat) (hi : i < t.length) (j : Fin 3) :
    (neighbour t i j = .ok none → hasSameEdgeOrientation t i j = .ok true) ∧
    ∀ (k : Nat) (hk : k < t.length), neighbour t i j = .ok (some k) →
      ∃ b, hasSameEdgeOrientation t i j = .ok b ∧ (b = true ↔ Traverses t[k] (t[i] (j + 2)) (t[i] (j + 1))) := by
  constructor
  · intro h; unfold hasSameEdgeOrientation; rw [h]; rfl
  · intro k hk h
    obtain ⟨n, h1, _, h3⟩ := C56_neighbour t i hi j
    rw [h] at h1
    obtain ⟨_, _, hv0, hv1, _⟩ := h3 k (by cases h1; rfl)
    have e1 : ∀ s : Tri, s.at (j + 1) = s (j + 1) := by intro s; fin_cases j <;> rfl
    have e2 : ∀ s : Tri, s.at (j + 2) = s (j + 2) := by intro s; fin_cases j <;> rfl
    unfold hasSameEdgeOrientation
    rw [h]
    simp only [Py.bind_ok]
    rw [getE_ok hi, getE_ok hk]
    simp only [Py.bind_ok, Py.pure_eq, e1, e2]
    refine ⟨_, rfl, ?_⟩
    have hinj := ht t[k] (List.getElem_mem hk)
    obtain ⟨p, hp⟩ := hv0
    rw [← hp, position_injective t[k] hinj p, decide_eq_true_iff]
    have e3 : t[k].at (((p : Nat) : Int) - 1 |>.emod 3).toNat = t[k] (p + 2) := by fin_cases p <;> rfl
    show t[k].at (((p : Nat) : Int) - 1 |>.emod 3).toNat = _ ↔ _
    rw [e3]
    constructor
    · intro h5
      refine ⟨p + 2, h5, ?_⟩
      have : ∀ p : Fin 3, p + 2 + 1 = p := by decide
      rw [this, hp]
    · rintro ⟨q, hq1, hq2⟩
      have := hinj hq2
      rw [← hq1]
      congr 1
      rw [← this]
      have : ∀ q : Fin 3, q + 1 + 2 = q := by decide
      rw [this q]

theorem consistentLoop_ok (t : List Tri) (l : List (Nat × Nat)) (P : Nat × Nat → Prop)
    (h : ∀ x ∈ l, ∃ b, hasSameEdgeOrientation t x.1 x.2 = .ok b ∧ (b = true ↔ P x)) :
    ∃ b, consistentLoop t l = .ok b ∧ (b = true ↔ ∀ x ∈ l, P x) := by
  induction l with
  | nil => exact ⟨true, rfl, by simp⟩
  | cons x l ih =>
    obtain ⟨b, h1, h2⟩ := h x (by simp)
    obtain ⟨b', h3, h4⟩ := ih (fun y hy => h y (by simp [hy]))
    unfold consistentLoop
    rw [h1]
    simp only [Py.bind_ok]
    cases b with
    | false =>
      refine ⟨false, rfl, ?_⟩
      simp at h2 ⊢
      intro h5; exact absurd h5 h2
    | true =>
      refine ⟨b', h3, ?_⟩
      rw [h4, List.forall_mem_cons]
      exact ⟨fun h => ⟨h2.1 rfl, h⟩, fun h => h.2⟩

/-- C56: in a mesh where no edge belongs to more than two triangles, `has_consistent_orientation` holds iff any two triangles that share an edge
run through it in opposite directions. -/
theorem C56_consistent_orientation (t : List Tri) (ht : ∀ s ∈ t, Function.Injective s)
    (hm : ∀ (a b i k l : Nat) (hi : i < t.length) (hk : k < t.length) (hl : l < t.length), a ≠ b →
      IsVertex t[i] a → IsVertex t[i] b → IsVertex t[k] a → IsVertex t[k] b → IsVertex t[l] a → IsVertex t[l] b → i = k ∨ i = l ∨ k = l) :
    ∃ b, hasConsistentOrientation t = .ok b ∧ (b = true ↔
      ∀ (i k : Nat) (hi : i < t.length) (hk : k < t.length), i ≠ k → ∀ a c, Traverses t[i] a c → IsVertex t[k] a → IsVertex t[k] c →
        Traverses t[k] c a) := by
  obtain ⟨b, h1, h2⟩ := consistentLoop_ok t ((List.range t.length).flatMap (fun i => [(i, 0), (i, 1), (i, 2)]))
    (fun x => ∀ (hi : x.1 < t.length) (k : Nat) (hk : k < t.length), k ≠ x.1 →
      IsVertex t[k] (t[x.1].at (x.2 + 1)) → IsVertex t[k] (t[x.1].at (x.2 + 2)) → Traverses t[k] (t[x.1].at (x.2 + 2)) (t[x.1].at (x.2 + 1))) (by
      intro x hx
      obtain ⟨i, hi, hx⟩ := List.mem_flatMap.1 hx
      rw [List.mem_range] at hi
      have hj : ∃ j : Fin 3, x = (i, (j : Nat)) := by
        simp only [List.mem_cons, List.not_mem_nil, or_false] at hx
        rcases hx with rfl | rfl | rfl
        · exact ⟨0, rfl⟩
        · exact ⟨1, rfl⟩
        · exact ⟨2, rfl⟩
      obtain ⟨j, rfl⟩ := hj
      have e1 : ∀ s : Tri, s.at (j + 1) = s (j + 1) := by intro s; fin_cases j <;> rfl
      have e2 : ∀ s : Tri, s.at (j + 2) = s (j + 2) := by intro s; fin_cases j <;> rfl
      simp only [e1, e2]
      obtain ⟨n, hn, hnone, hsome⟩ := C56_neighbour t i hi j
      cases n with
      | none =>
        refine ⟨true, (C56_same_edge_orientation t ht i hi j).1 hn, ?_⟩
        simp only [true_iff]
        intro _ k hk hki h3 h4
        exact absurd ⟨h3, h4⟩ (hnone.1 rfl k hk hki)
      | some m =>
        obtain ⟨hm1, hmi, hv0, hv1, _⟩ := hsome m rfl
        obtain ⟨b, h5, h6⟩ := (C56_same_edge_orientation t ht i hi j).2 m hm1 hn
        refine ⟨b, h5, h6.trans ?_⟩
        constructor
        · intro h _ k hk hki h3 h4
          have hne : t[i] (j + 1) ≠ t[i] (j + 2) := by
            intro h
            have := ht _ (List.getElem_mem hi) h
            have h9 : ∀ j : Fin 3, j + 1 ≠ j + 2 := by decide
            exact h9 j this
          rcases hm _ _ i m k hi hm1 hk hne ⟨_, rfl⟩ ⟨_, rfl⟩ hv0 hv1 h3 h4 with h7 | h7 | h7
          · exact absurd h7.symm hmi
          · exact absurd h7.symm hki
          · subst h7; exact h
        · intro h; exact h hi m hm1 hmi hv0 hv1)
  refine ⟨b, h1, h2.trans ?_⟩
  constructor
  · intro h i k hi hk hik a c hac ha hc
    obtain ⟨p, rfl, rfl⟩ := hac
    -- the edge from vertex p to vertex p+1 is opposite to vertex p+2
    have hmem : (i, ((p + 2 : Fin 3) : Nat)) ∈ (List.range t.length).flatMap (fun i => [(i, 0), (i, 1), (i, 2)]) := by
      rw [List.mem_flatMap]
      refine ⟨i, List.mem_range.2 hi, ?_⟩
      have h9 : ∀ p : Fin 3, ((p + 2 : Fin 3) : Nat) = 0 ∨ ((p + 2 : Fin 3) : Nat) = 1 ∨ ((p + 2 : Fin 3) : Nat) = 2 := by decide
      rcases h9 p with h9 | h9 | h9 <;> simp [h9]
    have := h _ hmem hi k hk (Ne.symm hik)
    have f1 : t[i].at (((p + 2 : Fin 3) : Nat) + 1) = t[i] p := by fin_cases p <;> rfl
    have f2 : t[i].at (((p + 2 : Fin 3) : Nat) + 2) = t[i] (p + 1) := by fin_cases p <;> rfl
    simp only [f1, f2] at this
    exact this ha hc
  · intro h x hx hi k hk hki h3 h4
    obtain ⟨i, _, hx⟩ := List.mem_flatMap.1 hx
    have hj : ∃ j : Fin 3, x = (i, (j : Nat)) := by
      simp only [List.mem_cons, List.not_mem_nil, or_false] at hx
      rcases hx with rfl | rfl | rfl
      · exact ⟨0, rfl⟩
      · exact ⟨1, rfl⟩
      · exact ⟨2, rfl⟩
    obtain ⟨j, rfl⟩ := hj
    have e1 : ∀ s : Tri, s.at (j + 1) = s (j + 1) := by intro s; fin_cases j <;> rfl
    have e2 : ∀ s : Tri, s.at (j + 2) = s (j + 2) := by intro s; fin_cases j <;> rfl
    simp only [e1, e2] at h3 h4 ⊢
    have h9 : ∀ j : Fin 3, j + 1 + 1 = j + 2 := by decide
    exact h i k hi hk (Ne.symm hki) (t[i] (j + 1)) (t[i] (j + 2)) ⟨j + 1, rfl, by rw [h9 j]⟩ h3 h4

example : (∀ s ∈ ([![0, 1, 2], ![1, 0, 3]] : List Tri), Function.Injective s) ∧
    hasConsistentOrientation [![0, 1, 2], ![1, 0, 3]] = .ok true ∧ hasConsistentOrientation [![0, 1, 2], ![0, 1, 3]] = .ok false :=
  ⟨by decide, by rfl, by rfl⟩

/-- C56, a limitation: when three triangles share an edge only the first neighbour is examined, and two triangles that run through the
edge in the same direction may go unnoticed. -/
theorem C56_three_triangles : hasConsistentOrientation [![0, 1, 2], ![1, 0, 3], ![1, 0, 4]] = .ok true ∧
    Traverses ![1, 0, 3] 1 0 ∧ Traverses ![1, 0, 4] 1 0 := ⟨by rfl, ⟨0, rfl, rfl⟩, ⟨0, rfl, rfl⟩⟩

/-- C56: `swap_orientation(t, i)` reverses the direction of all edges of triangle `i` and leaves the other triangles alone; applying it twice
restores the mesh. -/
theorem C56_swap_orientation (t : List Tri) (i : Nat) (hi : i < t.length) : ∃ t', swapOrientation t i = .ok t' ∧ t'.length = t.length ∧
    (∀ k, k ≠ i → t'[k]? = t[k]?) ∧ (∃ s, t'[i]? = some s ∧ ∀ a b, Traverses s a b ↔ Traverses t[i] b a) ∧ swapOrientation t' i = .ok t := by
  unfold swapOrientation
  rw [getE_ok hi]
  simp only [Py.bind_ok]
  rw [setE_ok hi]
  refine ⟨_, rfl, by simp, ?_, ⟨![t[i] 0, t[i] 2, t[i] 1], by simp [hi], ?_⟩, ?_⟩
  · intro k hk
    rw [List.getElem?_set_ne (Ne.symm hk)]
  · intro a b
    unfold Traverses
    simp only [Fin.exists_fin_succ]
    simp
    constructor
    · rintro (⟨h1, h2⟩ | ⟨h1, h2⟩ | ⟨h1, h2⟩) <;> simp_all
    · rintro (⟨h1, h2⟩ | ⟨h1, h2⟩ | ⟨h1, h2⟩) <;> simp_all
  · rw [getE_ok (by simpa using hi)]
    simp only [Py.bind_ok]
    rw [setE_ok (by simpa using hi)]
    congr 1
    simp only [List.getElem_set_self, List.set_set]
    have : (![(![t[i] 0, t[i] 2, t[i] 1] : Tri) 0, (![t[i] 0, t[i] 2, t[i] 1] : Tri) 2, (![t[i] 0, t[i] 2, t[i] 1] : Tri) 1] : Tri) = t[i] := by
      funext j; fin_cases j <;> rfl
    rw [this]; simp

/-- C56: an index that is out of range raises IndexError. -/
theorem C56_swap_out_of_range (t : List Tri) (i : Nat) (hi : t.length ≤ i) : swapOrientation t i = .error .index := by
  unfold swapOrientation; rw [getE_error hi]; rfl

/-- C56: for two triangles with exactly two common vertices `has_same_orientation` tells whether they run through the common edge in opposite
directions, whatever the iteration order of the set of common vertices. -/
theorem C56_same_orientation (t1 t2 : Tri) (h1 : Function.Injective t1) (h2 : Function.Injective t2) (a b : Nat) (hab : a ≠ b)
    (ha1 : IsVertex t1 a) (ha2 : IsVertex t2 a) (hb1 : IsVertex t1 b) (hb2 : IsVertex t2 b) :
    ∃ r, hasSameOrientation t1 t2 [a, b] = .ok r ∧ (r = true ↔ (Traverses t1 a b ∧ Traverses t2 b a) ∨ (Traverses t1 b a ∧ Traverses t2 a b)) := by
  obtain ⟨i, rfl⟩ := ha1
  obtain ⟨j, rfl⟩ := hb1
  obtain ⟨k, hk⟩ := ha2
  obtain ⟨l, hl⟩ := hb2
  have hij : i ≠ j := fun h => hab (by rw [h])
  have hkl : k ≠ l := fun h => hab (by rw [← hk, ← hl, h])
  have ht : ∀ (t : Tri), Function.Injective t → ∀ p q : Fin 3, Traverses t (t p) (t q) ↔ p + 1 = q := by
    intro t hti p q
    constructor
    · rintro ⟨r, hr1, hr2⟩
      rw [← hti hr1]; exact hti hr2
    · intro h; exact ⟨p, rfl, by rw [h]⟩
  have e1 : positionE t1 (t1 i) = .ok (i : Int) := by unfold positionE; rw [position_injective t1 h1]
  have e2 : positionE t1 (t1 j) = .ok (j : Int) := by unfold positionE; rw [position_injective t1 h1]
  have e3 : positionE t2 (t1 i) = .ok (k : Int) := by unfold positionE; rw [← hk, position_injective t2 h2]
  have e4 : positionE t2 (t1 j) = .ok (l : Int) := by unfold positionE; rw [← hl, position_injective t2 h2]
  unfold hasSameOrientation
  simp only [getE, List.getElem?_cons_zero, List.getElem?_cons_succ, Py.bind_ok, e1, e2, e3, e4]
  refine ⟨_, rfl, ?_⟩
  rw [ht t1 h1, ht t1 h1, ← hk, ← hl, ht t2 h2, ht t2 h2, decide_eq_true_iff]
  have : ∀ i j k l : Fin 3, i ≠ j → k ≠ l → ((((i : Nat) : Int) - (j : Nat)) % 3 ≠ (((k : Nat) : Int) - (l : Nat)) % 3 ↔
      (i + 1 = j ∧ l + 1 = k) ∨ (j + 1 = i ∧ k + 1 = l)) := by decide
  exact this i j k l hij hkl

/-- C56: fewer than two common vertices raise IndexError. -/
theorem C56_same_orientation_error (t1 t2 : Tri) : hasSameOrientation t1 t2 [] = .error .index ∧
    ∀ a, IsVertex t1 a → hasSameOrientation t1 t2 [a] = .error .index := by
  refine ⟨rfl, fun a ha => ?_⟩
  unfold hasSameOrientation
  have : ∃ i, positionE t1 a = .ok i := by
    unfold positionE
    cases h : vertexPosition t1 a with
    | some i => exact ⟨_, rfl⟩
    | none =>
      exfalso
      unfold vertexPosition at h
      rw [List.find?_eq_none] at h
      obtain ⟨p, rfl⟩ := ha
      have a0 : t1.at 0 = t1 0 := rfl
      have a1 : t1.at 1 = t1 1 := rfl
      have a2 : t1.at 2 = t1 2 := rfl
      simp only [List.mem_cons, List.not_mem_nil, or_false, forall_eq_or_imp, forall_eq, a0, a1, a2, beq_iff_eq] at h
      have h9 : ∀ p : Fin 3, p = 0 ∨ p = 1 ∨ p = 2 := by decide
      rcases h9 p with h9 | h9 | h9 <;> simp [h9] at h
  obtain ⟨i, hi⟩ := this
  simp only [getE, List.getElem?_cons_zero, List.getElem?_cons_succ, List.getElem?_nil, Py.bind_ok, hi]
  rfl

example : hasSameOrientation ![0, 1, 2] ![3, 1, 0] [0, 1] = .ok true ∧ hasSameOrientation ![0, 1, 2] ![3, 1, 0] [1, 0] = .ok true ∧
    hasSameOrientation ![0, 1, 2] ![3, 0, 1] [0, 1] = .ok false := ⟨rfl, rfl, rfl⟩

/-- C56: when the triangle behind an edge shares exactly the two vertices of the edge, `opposite_vertex` is its third vertex; without a
neighbour it is None. -/
theorem C56_opposite_vertex (t : List Tri) (i : Nat) (hi : i < t.length) (j : Fin 3) :
    (neighbour t i j = .ok none → oppositeVertex t i j = .ok none) ∧
    ∀ (k : Nat) (hk : k < t.length), neighbour t i j = .ok (some k) → ∃ r, oppositeVertex t i j = .ok r ∧
      (∀ v, r = some v → IsVertex t[k] v ∧ ¬ IsVertex t[i] v) ∧ (r = none → ∀ v, IsVertex t[k] v → IsVertex t[i] v) := by
  constructor
  · intro h; unfold oppositeVertex; rw [h]; rfl
  · intro k hk h
    unfold oppositeVertex
    rw [h]
    simp only [Py.bind_ok]
    rw [getE_ok hk]
    simp only [Py.bind_ok]
    have hv : ∀ v, hasVertex t i v = .ok (t[i].has v) := by
      intro v
      unfold hasVertex
      rw [getE_ok hi]
      simp [Tri.has, Bool.or_assoc]
    have key : ∀ l : List (Fin 3), ∃ r, oppositeVertexLoop t i t[k] l = .ok r ∧
        (∀ v, r = some v → IsVertex t[k] v ∧ ¬ IsVertex t[i] v) ∧ (r = none → ∀ p ∈ l, IsVertex t[i] (t[k] p)) := by
      intro l
      induction l with
      | nil => exact ⟨none, rfl, by simp, by simp⟩
      | cons p l ih =>
        obtain ⟨r, h1, h2, h3⟩ := ih
        unfold oppositeVertexLoop
        rw [hv]
        simp only [Py.bind_ok]
        cases hp : t[i].has (t[k] p) with
        | false =>
          refine ⟨some (t[k] p), rfl, ?_, by simp⟩
          intro v hvv
          cases hvv
          exact ⟨⟨p, rfl⟩, by rw [← has_iff, hp]; simp⟩
        | true =>
          refine ⟨r, h1, h2, ?_⟩
          intro hr q hq
          rcases List.mem_cons.1 hq with rfl | hq
          · exact (has_iff _ _).1 hp
          · exact h3 hr q hq
    obtain ⟨r, h1, h2, h3⟩ := key [0, 1, 2]
    refine ⟨r, h1, h2, ?_⟩
    rintro hr v ⟨p, rfl⟩
    exact h3 hr p (by fin_cases p <;> decide +revert)

example : oppositeVertex [![0, 1, 2], ![1, 0, 3]] 0 2 = .ok (some 3) ∧ oppositeVertex [![0, 1, 2], ![1, 0, 3]] 0 0 = .ok none ∧
    neighbour [![0, 1, 2], ![1, 0, 3]] 0 2 = .ok (some 1) ∧ swapOrientation [![0, 1, 2], ![1, 0, 3]] 1 = .ok [![0, 1, 2], ![1, 3, 0]] ∧
    edgeIndex ![0, 1, 2] (2, 1) = .ok 0 ∧ edgeIndex ![0, 1, 2] (0, 3) = .error .assertion := ⟨rfl, rfl, rfl, rfl, rfl, rfl⟩

/-- C56: `edge_index(t, (a, b))` is the index `i` of an edge (the one opposite to vertex `i`) with these end points; pairs that are not an edge
raise AssertionError. -/
theorem C56_edge_index (t : Tri) (a b : Nat) :
    (∃ i : Fin 3, edgeIndex t (a, b) = .ok (i : Nat) ∧ ((t (i + 1) = a ∧ t (i + 2) = b) ∨ (t (i + 1) = b ∧ t (i + 2) = a))) ∨
    (edgeIndex t (a, b) = .error .assertion ∧ ∀ i : Fin 3, ¬ ((t (i + 1) = a ∧ t (i + 2) = b) ∨ (t (i + 1) = b ∧ t (i + 2) = a))) := by
  unfold edgeIndex
  cases h : ([0, 1, 2] : List Nat).find? (fun i =>
    let e := (t.at (i + 1), t.at (i + 2))
    decide (e = (a, b)) || decide ((e.2, e.1) = (a, b))) with
  | none =>
    right
    refine ⟨rfl, ?_⟩
    rw [List.find?_eq_none] at h
    intro i hcon
    have e1 : t.at (i + 1) = t (i + 1) := by fin_cases i <;> rfl
    have e2 : t.at (i + 2) = t (i + 2) := by fin_cases i <;> rfl
    have := h i (by fin_cases i <;> decide)
    simp only [e1, e2, Prod.mk.injEq, Bool.or_eq_true, decide_eq_true_eq, not_or] at this
    rcases hcon with h1 | h1
    · exact this.1 h1
    · exact this.2 ⟨h1.2, h1.1⟩
  | some n =>
    left
    have hm := List.mem_of_find?_eq_some h
    have hp := List.find?_some h
    have : ∃ i : Fin 3, n = (i : Nat) := by
      simp only [List.mem_cons, List.not_mem_nil, or_false] at hm
      rcases hm with rfl | rfl | rfl
      · exact ⟨0, rfl⟩
      · exact ⟨1, rfl⟩
      · exact ⟨2, rfl⟩
    obtain ⟨i, rfl⟩ := this
    refine ⟨i, rfl, ?_⟩
    have e1 : t.at (i + 1) = t (i + 1) := by fin_cases i <;> rfl
    have e2 : t.at (i + 2) = t (i + 2) := by fin_cases i <;> rfl
    simp only [e1, e2, Prod.mk.injEq, Bool.or_eq_true, decide_eq_true_eq] at hp
    rcases hp with h1 | h1
    · exact Or.inl h1
    · exact Or.inr ⟨h1.2, h1.1⟩

end Verif.Props
