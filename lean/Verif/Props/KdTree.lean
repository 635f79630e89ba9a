import Verif.Lemmas.KdTree
import Verif.Props.Aabb
/-!
# Property C41: k-d trees
-/

namespace Verif.Props
open Verif Verif.Aabb Verif.Kd

section
variable {K : Type} [AddCommGroup K] [LinearOrder K] [IsOrderedAddMonoid K]

theorem cell_at {h : Heap K} {x : List K} {n : Nat} (hc : Cell h x n) : ∃ l, At h n l := by
  induction hc with
  | root => exact ⟨_, At.root⟩
  | left _ hn hch _ _ _ _ _ ih => obtain ⟨l, hl⟩ := ih; exact ⟨_, At.left hl hn hch⟩
  | right _ hn hch _ _ _ _ _ ih => obtain ⟨l, hl⟩ := ih; exact ⟨_, At.right hl hn hch⟩

/-- C41: `in_node_space` decides membership in the cell of a node: the points on the right side of all splitting planes on the way from the
root to the node. -/
theorem C41_in_node_space {k : Nat} {h : Heap K} (hr : Reachable k h) (x : List K) (hx : x.length = k) {n : Nat} {l : List Nat} (ha : At h n l) :
    ∃ r, inNodeSpace h n x = .ok r ∧ (r = true ↔ Cell h x n) := by
  obtain ⟨r, h1, h2⟩ := inNodeSpaceRec_ok hr.inv x hx ha
  exact ⟨r, h1 _ (ha.lt hr.inv), h2⟩

/-- C41: after any history of subdivisions and cuts, and for any point, `find_leaf_containing_point` returns a leaf of the tree whose cell
contains the point. In particular the cells of the leaves cover space. -/
theorem C41_find_leaf {k : Nat} {h : Heap K} (hr : Reachable k h) (x : List K) (hx : x.length = k) :
    ∃ n nd l, findLeaf h 0 x = .ok n ∧ At h n l ∧ h[n]? = some nd ∧ nd.children = none ∧ inNodeSpace h n x = .ok true := by
  obtain ⟨n, s, nd, h1, h2, h3, h4, _⟩ := findLeafRec_ok hr.inv x hx h.length 0 [0] At.root (by omega)
  have hc := findLeafRec_cell hr.inv x hx h.length 0 n Cell.root h1
  obtain ⟨r, h5, h6⟩ := C41_in_node_space hr x hx h2
  rw [h6.2 hc] at h5
  exact ⟨n, nd, _, h1, h2, h3, h4, h5⟩

/-- C41: a point that does not lie on a splitting plane is in the cell of only one leaf, the one that is found. -/
theorem C41_leaf_unique {k : Nat} {h : Heap K} (hr : Reachable k h) (x : List K) (hx : x.length = k)
    (hoff : ∀ (i : Nat) (nd : Node K) (j : Nat) (pp : List K) (y z : K), h[i]? = some nd → nd.planeIdx = some j → nd.planePoint = some pp →
      x[j]? = some y → pp[j]? = some z → y ≠ z)
    {n : Nat} {nd : Node K} {l : List Nat} (ha : At h n l) (hn : h[n]? = some nd) (hleaf : nd.children = none)
    (hin : inNodeSpace h n x = .ok true) : findLeaf h 0 x = .ok n := by
  obtain ⟨r, h5, h6⟩ := C41_in_node_space hr x hx ha
  rw [hin] at h5
  obtain ⟨g, hg, he⟩ := findLeafRec_unique hr.inv x hoff (h6.1 (by cases h5; rfl)) h.length (le_refl _)
  have hlt := lt_of_some hn
  unfold findLeaf
  rw [he]
  obtain ⟨g, rfl⟩ : ∃ g', g = g' + 1 := ⟨g - 1, by omega⟩
  unfold findLeafRec
  rw [getE_some hn]
  simp [hleaf]

omit [AddCommGroup K] [LinearOrder K] [IsOrderedAddMonoid K] in
/-- C41: `address` of a node of the tree is the list of branches that lead to it; looking up this address returns the node; `depth` is
the number of branches. -/
theorem C41_address {k : Nat} {h : Heap K} (hr : Reachable k h) {n : Nat} {l : List Nat} (ha : At h n l) :
    address h n = .ok l ∧ getNodeByAddress h 0 l = .ok n ∧ depth h n = .ok (l.length - 1) := by
  obtain ⟨h1, h2⟩ := addressRec_at hr.inv ha h.length (ha.lt hr.inv)
  refine ⟨h1, ?_, h2⟩
  obtain ⟨s, rfl, hs⟩ := descendant_at ha
  unfold getNodeByAddress
  simp only [getE, List.getElem?_cons_zero, Py.bind_ok, decide_true, pyAssert_true]
  by_cases h0 : s = []
  · subst h0
    simp [getDescendant] at hs
    simp [hs]
  · rw [if_neg (by simp [h0])]
    simpa using hs

omit [AddCommGroup K] [LinearOrder K] [IsOrderedAddMonoid K] in
/-- C41: conversely, a node found under an address has this address. -/
theorem C41_lookup {k : Nat} {h : Heap K} (hr : Reachable k h) {n : Nat} {l : List Nat} (hl : getNodeByAddress h 0 l = .ok n) :
    At h n l ∧ address h n = .ok l := by
  have : At h n l := by
    unfold getNodeByAddress at hl
    match l, hl with
    | [], hl => simp [getE] at hl
    | a :: s, hl =>
      simp only [getE, List.getElem?_cons_zero, Py.bind_ok] at hl
      by_cases ha : a = 0
      · subst ha
        simp only [decide_true, pyAssert_true, Py.bind_ok] at hl
        by_cases h0 : s = []
        · subst h0
          simp at hl
          subst hl; exact At.root
        · rw [if_neg (by simp [h0])] at hl
          simp only [List.drop_succ_cons, List.drop_zero] at hl
          exact at_of_descendant At.root s n hl
      · simp [ha] at hl
  exact ⟨this, (C41_address hr this).1⟩

omit [AddCommGroup K] [LinearOrder K] [IsOrderedAddMonoid K] in
/-- C41: `recurse` visits every node of the tree exactly once. -/
theorem C41_recurse {k : Nat} {h : Heap K} (hr : Reachable k h) : ∃ v, visit h 0 = .ok v ∧ v.Nodup ∧ ∀ n, n ∈ v ↔ ∃ l, At h n l := by
  obtain ⟨v, h1, h2, h3⟩ := visitRec_ok hr.inv h.length 0 [0] At.root (by omega)
  refine ⟨v, h1, h2, fun n => (h3 n).trans ?_⟩
  constructor
  · rintro ⟨s, hs⟩; exact ⟨_, at_of_descendant At.root s n hs⟩
  · rintro ⟨l, hl⟩; obtain ⟨s, _, hs⟩ := descendant_at hl; exact ⟨s, hs⟩

omit [AddCommGroup K] [LinearOrder K] [IsOrderedAddMonoid K] in
/-- C41: the two children of a node are each other's siblings; the root has none. -/
theorem C41_sibling {k : Nat} {h : Heap K} (hr : Reachable k h) :
    sibling h 0 = .ok none ∧ ∀ (i : Nat) (nd : Node K) (a b : Nat), h[i]? = some nd → nd.children = some (a, b) →
      sibling h a = .ok (some b) ∧ sibling h b = .ok (some a) := by
  constructor
  · obtain ⟨nd, h1, h2⟩ := hr.inv.root
    unfold sibling
    rw [getE_some h1]; simp [h2]
  · intro i nd a b hn hc
    obtain ⟨_, _, ⟨na, ha1, ha2, ha3⟩, ⟨nb, hb1, hb2, hb3⟩, _⟩ := hr.inv.inner _ _ _ _ hn hc
    unfold sibling
    rw [getE_some ha1, getE_some hb1]
    simp only [Py.bind_ok, ha2, hb2, getE_some hn, hc, ha3, hb3]
    exact ⟨rfl, rfl⟩

omit [AddCommGroup K] [LinearOrder K] [IsOrderedAddMonoid K] in
/-- C41: `subdivide` succeeds exactly on leaves with a valid plane; the new node has two leaves below it, nothing else changes.
On an inner node it raises RuntimeError and on a wrong plane AssertionError. -/
theorem C41_subdivide {h : Heap K} {id : Nat} {nd : Node K} (hn : h[id]? = some nd) (pp : List K) (i : Int) :
    (nd.children ≠ none → subdivide h id pp i = .error .runtime) ∧
    (nd.children = none → ¬ (0 ≤ i ∧ i < nd.k ∧ pp.length = nd.k) → subdivide h id pp i = .error .assertion) ∧
    (nd.children = none → 0 ≤ i → i < nd.k → pp.length = nd.k → ∃ h' nd' na nb, subdivide h id pp i = .ok h' ∧
      h'[id]? = some nd' ∧ nd'.children = some (h.length, h.length + 1) ∧ nd'.planePoint = some pp ∧ nd'.planeIdx = some i.toNat ∧
      h'[h.length]? = some na ∧ na.children = none ∧ h'[h.length + 1]? = some nb ∧ nb.children = none ∧
      ∀ j, j ≠ id → j < h.length → h'[j]? = h[j]?) := by
  refine ⟨?_, ?_, ?_⟩
  · intro hc
    unfold subdivide
    rw [getE_some hn]
    simp only [Py.bind_ok]
    rw [if_pos (by rwa [Option.isSome_iff_ne_none])]; rfl
  · intro hc hbad
    unfold subdivide
    rw [getE_some hn]
    simp only [Py.bind_ok]
    rw [if_neg (by simp [hc])]
    by_cases h1 : i ≥ 0
    · by_cases h2 : i < nd.k
      · by_cases h3 : pp.length = nd.k
        · exact absurd ⟨h1, h2, h3⟩ hbad
        · simp [h1, h2, h3]
      · simp [h1, h2]
    · simp [h1]
  · intro hc h1 h2 h3
    have : subdivide h id pp i = .ok (h.set id { nd with planePoint := some pp, planeIdx := some i.toNat, children := some (h.length, h.length + 1) } ++
        [newNode (some id) nd.k 0, newNode (some id) nd.k 1]) := by
      unfold subdivide
      rw [getE_some hn]
      simp only [Py.bind_ok]
      rw [if_neg (by simp [hc])]
      simp [h1, h2, h3]
    refine ⟨_, { nd with planePoint := some pp, planeIdx := some i.toNat, children := some (h.length, h.length + 1) }, newNode (some id) nd.k 0, newNode (some id) nd.k 1, this, ?_, rfl, rfl, rfl, ?_, rfl, ?_, rfl, ?_⟩
    · rw [subdivide_get hn, if_pos rfl]
    · have := lt_of_some hn
      rw [subdivide_get hn, if_neg (by omega), if_pos rfl]
    · have := lt_of_some hn
      rw [subdivide_get hn, if_neg (by omega), if_neg (by omega), if_pos rfl]
    · intro j hj hl
      rw [subdivide_get hn, if_neg hj, if_neg (by omega), if_neg (by omega)]

omit [AddCommGroup K] [LinearOrder K] [IsOrderedAddMonoid K] in
/-- C41: after `cut_subtree` the node is a leaf without splitting plane, and no other node changes. -/
theorem C41_cut {h : Heap K} {id : Nat} {nd : Node K} (hn : h[id]? = some nd) : ∃ h' nd', cutSubtree h id = .ok h' ∧ h'[id]? = some nd' ∧
    nd'.children = none ∧ nd'.planePoint = none ∧ nd'.planeIdx = none ∧ nd'.parent = nd.parent ∧ nd'.side = nd.side ∧ ∀ j, j ≠ id → h'[j]? = h[j]? := by
  refine ⟨_, { nd with planePoint := none, planeIdx := none, children := none }, by unfold cutSubtree; rw [getE_some hn]; rfl, ?_, rfl, rfl, rfl, rfl, rfl, ?_⟩
  · rw [set_get hn, if_pos rfl]
  · intro j hj; rw [set_get hn, if_neg hj]

/-- C41: the box of a node contains the node's cell. -/
theorem C41_node_aabb {k : Nat} {h : Heap K} (hr : Reachable k h) {n : Nat} {l : List Nat} (ha : At h n l) :
    ∃ b, nodeAabb h n = .ok b ∧ BoxDim b k ∧ ∀ x, x.length = k → Cell h x n → InBox b (x.map fin) := by
  obtain ⟨b, l1, l2, hb⟩ := nodeAabbRec_ok hr.inv ha
  refine ⟨b, hb _ (ha.lt hr.inv), ⟨l1, l2⟩, ?_⟩
  intro x hx hc
  have key : ∀ m b, Cell h x m → nodeAabb h m = .ok b → InBox b (x.map fin) := by
    intro m b hc
    induction hc generalizing b with
    | root =>
      intro hb
      rw [nodeAabb_root hr.inv] at hb
      cases hb
      exact C40_full k _ (by simpa using hx)
    | @left i nd a c j pp y z hc hn hch hj hp hy hz hle ih =>
      intro hb
      obtain ⟨l, hl⟩ := cell_at hc
      obtain ⟨b0, _, _, hb0⟩ := nodeAabbRec_ok hr.inv hl
      have hb0 := hb0 _ (hl.lt hr.inv)
      have := (nodeAabb_step hr.inv hl hn hch hj hp hz hb0).1
      rw [this] at hb; cases hb
      obtain ⟨e1, e2, e3⟩ := ih b0 hb0
      refine ⟨e1, by simpa using e2, fun i h0 h1 h2 => ?_⟩
      have g := e3 i h0 h1 (by simpa using h2)
      refine ⟨g.1, ?_⟩
      simp only [List.getElem_set]
      split
      · rename_i hji; subst hji
        have : x[j] = y := by rw [List.getElem?_eq_some_iff] at hy; exact hy.2
        rw [List.getElem_map, this, fin_le_fin]; exact hle
      · exact g.2
    | @right i nd a c j pp y z hc hn hch hj hp hy hz hle ih =>
      intro hb
      obtain ⟨l, hl⟩ := cell_at hc
      obtain ⟨b0, _, _, hb0⟩ := nodeAabbRec_ok hr.inv hl
      have hb0 := hb0 _ (hl.lt hr.inv)
      have := (nodeAabb_step hr.inv hl hn hch hj hp hz hb0).2
      rw [this] at hb; cases hb
      obtain ⟨e1, e2, e3⟩ := ih b0 hb0
      refine ⟨by simpa using e1, e2, fun i h0 h1 h2 => ?_⟩
      have g := e3 i (by simpa using h0) h1 h2
      refine ⟨?_, g.2⟩
      simp only [List.getElem_set]
      split
      · rename_i hji; subst hji
        have : x[j] = y := by rw [List.getElem?_eq_some_iff] at hy; exact hy.2
        rw [List.getElem_map, this, fin_le_fin]; exact hle
      · exact g.1
  exact key n b hc (hb _ (ha.lt hr.inv))

/-- C41: if every splitting plane meets the box of the node that it splits, the box of each node is exactly its cell. -/
theorem C41_node_aabb_exact {k : Nat} {h : Heap K} (hr : Reachable k h)
    (hplane : ∀ (i : Nat) (l : List Nat) (nd : Node K) (j : Nat) (pp : List K) (z : K) (b : Box (Ext K)) (u v : Ext K), At h i l → h[i]? = some nd →
      nd.planeIdx = some j → nd.planePoint = some pp → pp[j]? = some z → nodeAabb h i = .ok b → b.1[j]? = some u → b.2[j]? = some v →
      u ≤ fin z ∧ fin z ≤ v)
    {n : Nat} {l : List Nat} (ha : At h n l) :
    ∃ b, nodeAabb h n = .ok b ∧ ∀ x, x.length = k → (InBox b (x.map fin) ↔ inNodeSpace h n x = .ok true) := by
  obtain ⟨b, hb, hd, hsub⟩ := C41_node_aabb hr ha
  refine ⟨b, hb, fun x hx => ?_⟩
  obtain ⟨r, h5, h6⟩ := C41_in_node_space hr x hx ha
  rw [h5]
  have : (Except.ok r : Py Bool) = .ok true ↔ Cell h x n := by
    rw [← h6]; constructor
    · intro h; cases h; rfl
    · intro h; rw [h]
  rw [this]
  refine ⟨?_, hsub x hx⟩
  clear this h6 h5 hsub hd
  induction ha generalizing b with
  | root => intro _; exact Cell.root
  | @left i l nd a c hat hn hch ih =>
    intro hin
    obtain ⟨b0, hb0, hd0, _⟩ := C41_node_aabb hr hat
    obtain ⟨_, _, _, _, j, pp, hj1, hj2, hp1, hp2⟩ := hr.inv.inner _ _ _ _ hn hch
    have hjp : pp[j]? = some pp[j] := by simp
    have hjx : x[j]? = some x[j] := by simp
    have := (nodeAabb_step hr.inv hat hn hch hj1 hp1 hjp hb0).1
    rw [this] at hb; cases hb
    obtain ⟨e1, e2, e3⟩ := hin
    have d1 := hd0.1; have d2 := hd0.2
    simp only [List.length_map, List.length_set] at e1 e2
    have hz := hplane i l nd j pp pp[j] b0 b0.1[j] b0.2[j] hat hn hj1 hp1 hjp hb0 (by simp) (by simp)
    have hxj : x[j] ≤ pp[j] := by
      have := (e3 j (by simp only; omega) (by simp; omega) (by simp; omega)).2
      simp only [List.getElem_set, if_true, List.getElem_map] at this
      exact fin_le_fin.1 this
    refine Cell.left (ih b0 hb0 ⟨by simp; omega, by simp; omega, fun m h0 h1 h2 => ?_⟩) hn hch hj1 hp1 hjx hjp hxj
    have g := e3 m h0 h1 (by simpa using h2)
    refine ⟨g.1, ?_⟩
    by_cases hm : m = j
    · subst hm
      rw [List.getElem_map]
      exact le_trans (fin_le_fin.2 hxj) hz.2
    · have := g.2
      simp only [List.getElem_set, if_neg (Ne.symm hm)] at this
      exact this
  | @right i l nd a c hat hn hch ih =>
    intro hin
    obtain ⟨b0, hb0, hd0, _⟩ := C41_node_aabb hr hat
    obtain ⟨_, _, _, _, j, pp, hj1, hj2, hp1, hp2⟩ := hr.inv.inner _ _ _ _ hn hch
    have hjp : pp[j]? = some pp[j] := by simp
    have hjx : x[j]? = some x[j] := by simp
    have := (nodeAabb_step hr.inv hat hn hch hj1 hp1 hjp hb0).2
    rw [this] at hb; cases hb
    obtain ⟨e1, e2, e3⟩ := hin
    have d1 := hd0.1; have d2 := hd0.2
    simp only [List.length_map, List.length_set] at e1 e2
    have hz := hplane i l nd j pp pp[j] b0 b0.1[j] b0.2[j] hat hn hj1 hp1 hjp hb0 (by simp) (by simp)
    have hxj : pp[j] ≤ x[j] := by
      have := (e3 j (by simp; omega) (by simp; omega) (by simp only; omega)).1
      simp only [List.getElem_set, if_true, List.getElem_map] at this
      exact fin_le_fin.1 this
    refine Cell.right (ih b0 hb0 ⟨by simp; omega, by simp; omega, fun m h0 h1 h2 => ?_⟩) hn hch hj1 hp1 hjx hjp hxj
    have g := e3 m (by simpa using h0) h1 h2
    refine ⟨?_, g.2⟩
    by_cases hm : m = j
    · subst hm
      rw [List.getElem_map]
      exact le_trans hz.1 (fin_le_fin.2 hxj)
    · have := g.1
      simp only [List.getElem_set, if_neg (Ne.symm hm)] at this
      exact this

end

/-- A tree in the plane: split at x = 0, then the left half at y = 1. -/
def exampleTree : Py (Heap Int) := do
  let h ← subdivide (createKdTree 2) 0 [0, 0] 0
  subdivide h 1 [-1, 1] 1

example : ∃ h, exampleTree = .ok h ∧ Reachable 2 h ∧ findLeaf h 0 [-1, 5] = .ok 4 ∧ findLeaf h 0 [0, 5] = .ok 2 ∧
    address h 4 = .ok [0, 0, 1] ∧ getNodeByAddress h 0 [0, 0, 1] = .ok 4 ∧ inNodeSpace h 3 [-1, 5] = .ok false ∧ depth h 4 = .ok 2 ∧
    visit h 0 = .ok [0, 1, 3, 4, 2] :=
  ⟨_, rfl, Reachable.subdivide 1 [-1, 1] 1 (Reachable.subdivide 0 [0, 0] 0 Reachable.create rfl) rfl, rfl, rfl, rfl, rfl, rfl, rfl, rfl⟩

/-- C41, a limitation: when a node is split by a plane outside its cell, the box of a child is larger than its cell
(here the box `(-inf, 1]` and the cell `x <= 0`). -/
theorem C41_node_aabb_outside : ∃ h : Heap Int, Reachable 1 h ∧ nodeAabb h 3 = .ok ([⊥], [fin 1]) ∧ pointInside ([⊥], [fin 1]) [fin (1 : Int)] = .ok true ∧
    inNodeSpace h 3 [1] = .ok false :=
  ⟨_, Reachable.subdivide 1 [1] 0 (Reachable.subdivide 0 [0] 0 Reachable.create rfl) rfl, rfl, rfl, rfl⟩

/-- C41, a limitation: nodes that were cut off keep their address, but looking it up fails, or leads to another node when the place has been
subdivided again. -/
theorem C41_cut_off_nodes : ∃ h h' : Heap Int, Reachable 1 h ∧ Reachable 1 h' ∧ address h 1 = .ok [0, 0] ∧ getNodeByAddress h 0 [0, 0] = .error .type ∧
    address h' 1 = .ok [0, 0] ∧ getNodeByAddress h' 0 [0, 0] = .ok 3 :=
  ⟨_, _, Reachable.cut 0 (Reachable.subdivide 0 [0] 0 Reachable.create rfl) rfl,
    Reachable.subdivide 0 [2] 0 (Reachable.cut 0 (Reachable.subdivide 0 [0] 0 Reachable.create rfl) rfl) rfl, rfl, rfl, rfl, rfl⟩

end Verif.Props
