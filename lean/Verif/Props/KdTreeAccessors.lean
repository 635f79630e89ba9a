import Verif.Model.KdTreeAccessors
import Verif.Props.KdTree
/-!
# C41: the accessors of kd-tree nodes
-/

namespace Verif.Props
open Verif Verif.Kd

variable {K : Type}

theorem kd_root_side {k : Nat} {h : Heap K} (hr : Reachable k h) : ∀ nd : Node K, h[0]? = some nd → nd.side = 0 := by
  induction hr with
  | create => intro nd hn; simp [createKdTree] at hn; rw [← hn]; rfl
  | @subdivide h h' id pp i hr hs ih =>
    intro nd hn
    unfold Kd.subdivide at hs
    rcases hg : h[id]? with _ | nd0
    · simp [getE, hg] at hs
    · simp only [getE, hg, Py.bind_ok] at hs
      by_cases hc : nd0.children.isSome
      · rw [if_pos hc] at hs; cases hs
      · have hlt := lt_of_some hg
        have : ∃ (nd' nl nr : Node K), nd'.side = nd0.side ∧ h' = h.set id nd' ++ [nl, nr] := by
          simp only [hc] at hs
          by_cases c1 : i ≥ 0 <;> by_cases c2 : i < nd0.k <;> by_cases c3 : pp.length = nd0.k <;>
            simp [pyAssert, c1, c2, c3] at hs
          exact ⟨_, _, _, by rfl, hs.symm⟩
        obtain ⟨nd', nl, nr, e1, rfl⟩ := this
        rw [List.getElem?_append_left (by simp; omega)] at hn
        by_cases h0 : id = 0
        · subst h0
          rw [List.getElem?_set_self hlt] at hn
          cases hn; rw [e1]; exact ih _ hg
        · rw [List.getElem?_set_ne h0] at hn; exact ih _ hn
  | @cut h h' id hr hs ih =>
    intro nd hn
    unfold cutSubtree at hs
    rcases hg : h[id]? with _ | nd0
    · simp [getE, hg] at hs
    · simp only [getE, hg, Py.bind_ok] at hs
      cases hs
      have hlt := lt_of_some hg
      by_cases h0 : id = 0
      · subst h0
        rw [List.getElem?_set_self hlt] at hn
        cases hn; exact ih nd0 hg
      · rw [List.getElem?_set_ne h0] at hn; exact ih _ hn

/-- **C41** In every tree that can be built and for every node of it: `is_root` holds for the node with the address [0] only, `is_leaf` exactly if no
longer address of the tree begins with the address of the node, and `sibling_index` is the last entry of the address. -/
theorem C41_accessors {k : Nat} {h : Heap K} (hr : Reachable k h) {n : Nat} {l : List Nat} (ha : At h n l) :
    (∃ b, isRoot h n = .ok b ∧ (b = true ↔ l = [0])) ∧
      (∃ b, isLeaf h n = .ok b ∧ (b = true ↔ ∀ s m, At h m (l ++ [s]) → False)) ∧
      (∃ s, siblingIndex h n = .ok s ∧ l.getLast? = some s) := by
  obtain ⟨nd, hn⟩ := ha.some hr.inv
  refine ⟨⟨nd.parent.isNone, by simp [isRoot, getE_some hn], ?_⟩, ⟨nd.children.isNone, by simp [isLeaf, getE_some hn], ?_⟩,
    ⟨nd.side, by simp [siblingIndex, getE_some hn], ?_⟩⟩
  · cases ha with
    | root =>
      obtain ⟨nd', h1, h2⟩ := hr.inv.root
      rw [hn] at h1; cases h1
      simp [h2]
    | @left i l nd' a b hi hn' hc =>
      obtain ⟨_, _, ⟨na, h1, h2, -⟩, -⟩ := hr.inv.inner _ _ _ _ hn' hc
      rw [hn] at h1; cases h1
      have : l ≠ [] := by cases hi <;> simp
      simp [h2, this]
    | @right i l nd' a b hi hn' hc =>
      obtain ⟨_, _, -, ⟨na, h1, h2, -⟩, -⟩ := hr.inv.inner _ _ _ _ hn' hc
      rw [hn] at h1; cases h1
      simp [h2]
      intro hl
      have := congrArg List.getLast? hl
      simp at this
  · constructor
    · intro hb s m hm
      have hc : nd.children = none := by simpa using hb
      have key : ∀ (m' : Nat) (l' : List Nat), At h m' l' → l' = l ++ [s] → False := by
        intro m' l' hm' e
        have back : ∀ (i : Nat), At h i l → i = n := by
          intro i hi
          have e1 := (C41_address hr hi).2.1
          have e2 := (C41_address hr ha).2.1
          rw [e1] at e2; cases e2; rfl
        cases hm' with
        | root =>
          have hl : l ≠ [] := by cases ha <;> simp
          have := congrArg List.length e
          simp at this; exact hl this
        | left hi hn' hc' =>
          obtain ⟨rfl, -⟩ := List.append_inj' e rfl
          obtain rfl := back _ hi
          rw [hn] at hn'; cases hn'; rw [hc] at hc'; cases hc'
        | right hi hn' hc' =>
          obtain ⟨rfl, -⟩ := List.append_inj' e rfl
          obtain rfl := back _ hi
          rw [hn] at hn'; cases hn'; rw [hc] at hc'; cases hc'
      exact key m _ hm rfl
    · intro hs
      rcases hc : nd.children with _ | ⟨a, b⟩
      · rfl
      · exact (hs 0 a (At.left ha hn hc)).elim
  · cases ha with
    | root => rw [kd_root_side hr nd hn]; rfl
    | @left i l nd' a b hi hn' hc =>
      obtain ⟨_, _, ⟨na, h1, -, h2⟩, -⟩ := hr.inv.inner _ _ _ _ hn' hc
      rw [hn] at h1; cases h1
      simp [h2]
    | @right i l nd' a b hi hn' hc =>
      obtain ⟨_, _, -, ⟨na, h1, -, h2⟩, -⟩ := hr.inv.inner _ _ _ _ hn' hc
      rw [hn] at h1; cases h1
      simp [h2]

/-- A tree in the plane meets the hypotheses. -/
example : ∃ h : Heap Int, exampleTree = .ok h ∧ Reachable 2 h ∧ At h 4 [0, 0, 1] ∧ isRoot h 4 = .ok false ∧ isLeaf h 4 = .ok true ∧ siblingIndex h 4 = .ok 1 :=
  ⟨_, rfl, Reachable.subdivide 1 [-1, 1] 1 (Reachable.subdivide 0 [0, 0] 0 Reachable.create rfl) rfl,
    At.right (At.left At.root rfl rfl) rfl rfl, rfl, rfl, rfl⟩

end Verif.Props
