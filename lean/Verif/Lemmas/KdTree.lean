import Mathlib.Tactic.Linarith
import Mathlib.Algebra.Order.Group.Basic
import Mathlib.Algebra.Order.Sub.Basic
import Mathlib.Data.List.Basic
import Verif.Spec.KdTree
/-!
# Invariants of k-d trees
-/

namespace Verif.Kd
open Verif Verif.Aabb

variable {K : Type}

structure Inv (k : Nat) (h : Heap K) : Prop where
  root : ∃ nd : Node K, h[0]? = some nd ∧ nd.parent = none
  parent : ∀ (i : Nat) (nd : Node K), h[i]? = some nd → 0 < i → ∃ p, nd.parent = some p ∧ p < i
  dim : ∀ (i : Nat) (nd : Node K), h[i]? = some nd → nd.k = k
  leaf : ∀ (i : Nat) (nd : Node K), h[i]? = some nd → nd.children = none → nd.planeIdx = none ∧ nd.planePoint = none
  inner : ∀ (i : Nat) (nd : Node K) (a b : Nat), h[i]? = some nd → nd.children = some (a, b) → i < a ∧ i < b ∧
    (∃ na : Node K, h[a]? = some na ∧ na.parent = some i ∧ na.side = 0) ∧ (∃ nb : Node K, h[b]? = some nb ∧ nb.parent = some i ∧ nb.side = 1) ∧
    ∃ (j : Nat) (pp : List K), nd.planeIdx = some j ∧ j < k ∧ nd.planePoint = some pp ∧ pp.length = k

theorem getE_some {l : List α} {i : Nat} {x : α} (h : l[i]? = some x) : getE l i = .ok x := by
  unfold getE; rw [h]

theorem getE_eq_ok {l : List α} {i : Nat} {x : α} (h : getE l i = .ok x) : l[i]? = some x := by
  unfold getE at h
  cases hl : l[i]? with
  | none => rw [hl] at h; exact absurd h (by simp)
  | some y => rw [hl] at h; cases h; rfl

theorem lt_of_some {l : List α} {i : Nat} {x : α} (h : l[i]? = some x) : i < l.length := by
  rw [List.getElem?_eq_some_iff] at h; exact h.1

theorem subdivide_eq {h h' : Heap K} {id : Nat} {pp : List K} {i : Int} (hs : subdivide h id pp i = .ok h') :
    ∃ nd, h[id]? = some nd ∧ nd.children = none ∧ 0 ≤ i ∧ i < nd.k ∧ pp.length = nd.k ∧
      h' = h.set id { nd with planePoint := some pp, planeIdx := some i.toNat, children := some (h.length, h.length + 1) } ++
        [newNode (some id) nd.k 0, newNode (some id) nd.k 1] := by
  unfold subdivide at hs
  cases hn : getE h id with
  | error e => rw [hn] at hs; exact absurd hs (by simp)
  | ok nd =>
    rw [hn] at hs
    simp only [Py.bind_ok] at hs
    refine ⟨nd, getE_eq_ok hn, ?_⟩
    by_cases hc : nd.children.isSome
    · rw [if_pos hc] at hs; exact absurd hs (by simp [throw, throwThe, MonadExceptOf.throw])
    · rw [if_neg hc] at hs
      by_cases h1 : i ≥ 0
      · by_cases h2 : i < nd.k
        · by_cases h3 : pp.length = nd.k
          · simp only [h1, h2, h3, decide_true, pyAssert_true, Py.bind_ok, Py.pure_eq, Except.ok.injEq] at hs
            exact ⟨by simpa using hc, h1, h2, h3, hs.symm⟩
          · simp [h1, h2, h3] at hs
        · simp [h1, h2] at hs
      · simp [h1] at hs

theorem cut_eq {h h' : Heap K} {id : Nat} (hs : cutSubtree h id = .ok h') :
    ∃ nd, h[id]? = some nd ∧ h' = h.set id { nd with planePoint := none, planeIdx := none, children := none } := by
  unfold cutSubtree at hs
  cases hn : getE h id with
  | error e => rw [hn] at hs; exact absurd hs (by simp)
  | ok nd =>
    rw [hn] at hs
    simp only [Py.bind_ok, Py.pure_eq, Except.ok.injEq] at hs
    exact ⟨nd, getE_eq_ok hn, hs.symm⟩

/-- The nodes after a subdivision. -/
theorem subdivide_get {h : Heap K} {id : Nat} {nd nd' : Node K} {c d : Node K} (hn : h[id]? = some nd) (i : Nat) :
    (h.set id nd' ++ [c, d])[i]? = if i = id then some nd' else if i = h.length then some c else if i = h.length + 1 then some d else h[i]? := by
  have hid := lt_of_some hn
  by_cases h1 : i = id
  · subst h1
    rw [if_pos rfl, List.getElem?_append_left (by simpa using hid), List.getElem?_set_self hid]
  · rw [if_neg h1]
    by_cases h2 : i < h.length
    · rw [if_neg (by omega), if_neg (by omega), List.getElem?_append_left (by simpa using h2), List.getElem?_set_ne (Ne.symm h1)]
    · rw [List.getElem?_append_right (by simpa using h2), List.length_set]
      by_cases h3 : i = h.length
      · rw [if_pos h3, h3]; simp
      · rw [if_neg h3]
        by_cases h4 : i = h.length + 1
        · rw [if_pos h4, h4]; simp
        · rw [if_neg h4, List.getElem?_eq_none (by simp; omega), List.getElem?_eq_none (by omega)]

theorem set_get {h : Heap K} {id : Nat} {nd nd' : Node K} (hn : h[id]? = some nd) (i : Nat) :
    (h.set id nd')[i]? = if i = id then some nd' else h[i]? := by
  have hid := lt_of_some hn
  by_cases h1 : i = id
  · subst h1; rw [if_pos rfl, List.getElem?_set_self hid]
  · rw [if_neg h1, List.getElem?_set_ne (Ne.symm h1)]

theorem Reachable.inv {k : Nat} {h : Heap K} (hr : Reachable k h) : Inv k h := by
  induction hr with
  | create =>
    have e : ∀ i nd, (createKdTree k : Heap K)[i]? = some nd → i = 0 ∧ nd = newNode none k 0 := by
      intro i nd h
      cases i with
      | zero => simp [createKdTree] at h; exact ⟨rfl, h.symm⟩
      | succ i => simp [createKdTree] at h
    constructor
    · exact ⟨newNode none k 0, rfl, rfl⟩
    · intro i nd h hi; have := (e i nd h).1; omega
    · intro i nd h; rw [(e i nd h).2]; rfl
    · intro i nd h _; rw [(e i nd h).2]; exact ⟨rfl, rfl⟩
    · intro i nd a b h hc; rw [(e i nd h).2] at hc; simp [newNode] at hc
  | @subdivide h h' id pp i _ hs ih =>
    obtain ⟨nd, hn, hleaf, h0, h1, h2, rfl⟩ := subdivide_eq hs
    have hg := fun j => @subdivide_get K h id nd
      { nd with planePoint := some pp, planeIdx := some i.toNat, children := some (h.length, h.length + 1) }
      (newNode (some id) nd.k 0) (newNode (some id) nd.k 1) hn j
    have hid := lt_of_some hn
    have hk := ih.dim _ _ hn
    constructor
    · obtain ⟨r, hr1, hr2⟩ := ih.root
      have := lt_of_some hr1
      rw [hg]
      split
      · rename_i h; subst h
        rw [hn] at hr1; cases hr1
        exact ⟨_, rfl, hr2⟩
      · rw [if_neg (by omega), if_neg (by omega)]; exact ⟨r, hr1, hr2⟩
    · intro j n hj hpos
      rw [hg] at hj
      split at hj
      · rename_i h; subst h; cases hj; have := ih.parent _ _ hn hpos; exact this
      · split at hj
        · rename_i h; subst h; cases hj; exact ⟨id, rfl, hid⟩
        · split at hj
          · rename_i h; subst h; cases hj; exact ⟨id, rfl, by omega⟩
          · exact ih.parent _ _ hj hpos
    · intro j n hj
      rw [hg] at hj
      split at hj
      · cases hj; exact hk
      · split at hj
        · cases hj; exact hk
        · split at hj
          · cases hj; exact hk
          · exact ih.dim _ _ hj
    · intro j n hj hc
      rw [hg] at hj
      split at hj
      · cases hj; simp at hc
      · split at hj
        · cases hj; exact ⟨rfl, rfl⟩
        · split at hj
          · cases hj; exact ⟨rfl, rfl⟩
          · exact ih.leaf _ _ hj hc
    · intro j n a b hj hc
      rw [hg] at hj
      split at hj
      · rename_i h; subst h
        cases hj
        simp only [Option.some.injEq, Prod.mk.injEq] at hc
        obtain ⟨rfl, rfl⟩ := hc
        refine ⟨hid, by omega, ⟨newNode (some j) nd.k 0, ?_, rfl, rfl⟩, ⟨newNode (some j) nd.k 1, ?_, rfl, rfl⟩, i.toNat, pp, rfl, by omega, rfl, by rw [h2, hk]⟩
        · rw [hg, if_neg (by omega), if_pos rfl]
        · rw [hg, if_neg (by omega), if_neg (by omega), if_pos rfl]
      · split at hj
        · cases hj; simp [newNode] at hc
        · split at hj
          · cases hj; simp [newNode] at hc
          · obtain ⟨g1, g2, ⟨na, ha1, ha2, ha3⟩, ⟨nb, hb1, hb2, hb3⟩, g5⟩ := ih.inner _ _ _ _ hj hc
            have la := lt_of_some ha1
            have lb := lt_of_some hb1
            refine ⟨g1, g2, ?_, ?_, g5⟩
            · rw [hg]
              split
              · rename_i h; subst h; rw [hn] at ha1; cases ha1; exact ⟨_, rfl, ha2, ha3⟩
              · rw [if_neg (by omega), if_neg (by omega)]; exact ⟨na, ha1, ha2, ha3⟩
            · rw [hg]
              split
              · rename_i h; subst h; rw [hn] at hb1; cases hb1; exact ⟨_, rfl, hb2, hb3⟩
              · rw [if_neg (by omega), if_neg (by omega)]; exact ⟨nb, hb1, hb2, hb3⟩
  | @cut h h' id _ hs ih =>
    obtain ⟨nd, hn, rfl⟩ := cut_eq hs
    have hg := fun j => @set_get K h id nd { nd with planePoint := none, planeIdx := none, children := none } hn j
    constructor
    · obtain ⟨r, hr1, hr2⟩ := ih.root
      rw [hg]
      split
      · rename_i h; subst h; rw [hn] at hr1; cases hr1; exact ⟨_, rfl, hr2⟩
      · exact ⟨r, hr1, hr2⟩
    · intro j n hj hpos
      rw [hg] at hj
      split at hj
      · rename_i h; subst h; cases hj; have := ih.parent _ _ hn hpos; exact this
      · exact ih.parent _ _ hj hpos
    · intro j n hj
      rw [hg] at hj
      split at hj
      · cases hj; have := ih.dim _ _ hn; exact this
      · exact ih.dim _ _ hj
    · intro j n hj hc
      rw [hg] at hj
      split at hj
      · cases hj; exact ⟨rfl, rfl⟩
      · exact ih.leaf _ _ hj hc
    · intro j n a b hj hc
      rw [hg] at hj
      split at hj
      · cases hj; simp at hc
      · obtain ⟨g1, g2, ⟨na, ha1, ha2, ha3⟩, ⟨nb, hb1, hb2, hb3⟩, g5⟩ := ih.inner _ _ _ _ hj hc
        refine ⟨g1, g2, ?_, ?_, g5⟩
        · rw [hg]
          split
          · rename_i h; subst h; rw [hn] at ha1; cases ha1; exact ⟨_, rfl, ha2, ha3⟩
          · exact ⟨na, ha1, ha2, ha3⟩
        · rw [hg]
          split
          · rename_i h; subst h; rw [hn] at hb1; cases hb1; exact ⟨_, rfl, hb2, hb3⟩
          · exact ⟨nb, hb1, hb2, hb3⟩

theorem At.some {k : Nat} {h : Heap K} (hi : Inv k h) {n : Nat} {l : List Nat} (ha : At h n l) : ∃ nd, h[n]? = some nd := by
  cases ha with
  | root => obtain ⟨nd, h1, _⟩ := hi.root; exact ⟨nd, h1⟩
  | left _ hn hc => obtain ⟨_, _, ⟨na, h1, _⟩, _⟩ := hi.inner _ _ _ _ hn hc; exact ⟨na, h1⟩
  | right _ hn hc => obtain ⟨_, _, _, ⟨nb, h1, _⟩, _⟩ := hi.inner _ _ _ _ hn hc; exact ⟨nb, h1⟩

theorem At.lt {k : Nat} {h : Heap K} (hi : Inv k h) {n : Nat} {l : List Nat} (ha : At h n l) : n < h.length := by
  obtain ⟨nd, h1⟩ := ha.some hi; exact lt_of_some h1

theorem addressRec_at {k : Nat} {h : Heap K} (hi : Inv k h) {n : Nat} {l : List Nat} (ha : At h n l) :
    ∀ f, n < f → addressRec h f n = .ok l ∧ depthRec h f n = .ok (l.length - 1) := by
  induction ha with
  | root =>
    intro f hf
    obtain ⟨f, rfl⟩ : ∃ g, f = g + 1 := ⟨f - 1, by omega⟩
    obtain ⟨nd, h1, h2⟩ := hi.root
    unfold addressRec depthRec
    rw [getE_some h1]
    simp [h2]
  | @left i l nd a b hat hn hc ih =>
    intro f hf
    obtain ⟨f, rfl⟩ : ∃ g, f = g + 1 := ⟨f - 1, by omega⟩
    obtain ⟨g1, g2, ⟨na, ha1, ha2, ha3⟩, _⟩ := hi.inner _ _ _ _ hn hc
    obtain ⟨e1, e2⟩ := ih f (by omega)
    unfold addressRec depthRec
    rw [getE_some ha1]
    simp only [Py.bind_ok, ha2, e1, e2, ha3]
    have : 0 < l.length := by cases hat <;> simp
    exact ⟨rfl, by simp; omega⟩
  | @right i l nd a b hat hn hc ih =>
    intro f hf
    obtain ⟨f, rfl⟩ : ∃ g, f = g + 1 := ⟨f - 1, by omega⟩
    obtain ⟨g1, g2, _, ⟨na, ha1, ha2, ha3⟩, _⟩ := hi.inner _ _ _ _ hn hc
    obtain ⟨e1, e2⟩ := ih f (by omega)
    unfold addressRec depthRec
    rw [getE_some ha1]
    simp only [Py.bind_ok, ha2, e1, e2, ha3]
    have : 0 < l.length := by cases hat <;> simp
    exact ⟨rfl, by simp; omega⟩

theorem getDescendant_append (h : Heap K) (l m : List Nat) (i : Nat) :
    getDescendant h i (l ++ m) = getDescendant h i l >>= fun j => getDescendant h j m := by
  induction l generalizing i with
  | nil => simp [getDescendant]
  | cons a l ih =>
    rw [List.cons_append]
    simp only [getDescendant]
    cases hg : getE h i with
    | error e => rfl
    | ok nd =>
      simp only [Py.bind_ok]
      cases ht : nd.children with
      | none => rfl
      | some ab =>
        obtain ⟨x, y⟩ := ab
        simp only [typeE, Py.bind_ok]
        cases hc : getE [x, y] a with
        | error e => rfl
        | ok c => simp only [Py.bind_ok]; exact ih c

theorem descendant_at {h : Heap K} {n : Nat} {l : List Nat} (ha : At h n l) :
    ∃ s, l = 0 :: s ∧ getDescendant h 0 s = .ok n := by
  induction ha with
  | root => exact ⟨[], rfl, rfl⟩
  | left _ hn hc ih =>
    obtain ⟨s, rfl, hs⟩ := ih
    refine ⟨s ++ [0], by simp, ?_⟩
    rw [getDescendant_append, hs]
    simp only [Py.bind_ok, getDescendant]
    rw [getE_some hn]
    simp only [Py.bind_ok, hc, typeE]; rfl
  | right _ hn hc ih =>
    obtain ⟨s, rfl, hs⟩ := ih
    refine ⟨s ++ [1], by simp, ?_⟩
    rw [getDescendant_append, hs]
    simp only [Py.bind_ok, getDescendant]
    rw [getE_some hn]
    simp only [Py.bind_ok, hc, typeE]; rfl

theorem at_of_descendant {h : Heap K} {i : Nat} {l : List Nat} (ha : At h i l) (s : List Nat) (n : Nat) (hs : getDescendant h i s = .ok n) :
    At h n (l ++ s) := by
  induction s generalizing i l with
  | nil => simp [getDescendant] at hs; subst hs; simpa using ha
  | cons c s ih =>
    unfold getDescendant at hs
    cases hg : getE h i with
    | error e => rw [hg] at hs; exact absurd hs (by simp)
    | ok nd =>
      rw [hg] at hs
      simp only [Py.bind_ok] at hs
      cases hc : nd.children with
      | none => rw [hc] at hs; exact absurd hs (by simp [typeE])
      | some ab =>
        obtain ⟨a, b⟩ := ab
        rw [hc] at hs
        simp only [typeE, Py.bind_ok] at hs
        match c, hs with
        | 0, hs =>
          have := ih (At.left ha (getE_eq_ok hg) hc) (by simpa [getE] using hs)
          simpa using this
        | 1, hs =>
          have := ih (At.right ha (getE_eq_ok hg) hc) (by simpa [getE] using hs)
          simpa using this
        | c + 2, hs => simp [getE] at hs

section order
variable [AddCommGroup K] [LinearOrder K] [IsOrderedAddMonoid K]

omit [IsOrderedAddMonoid K] in
theorem findLeafRec_ok {k : Nat} {h : Heap K} (hi : Inv k h) (x : List K) (hx : x.length = k) :
    ∀ f i l, At h i l → h.length < f + i + 1 → ∃ n s nd, findLeafRec h x f i = .ok n ∧ At h n (l ++ s) ∧ h[n]? = some nd ∧ nd.children = none ∧
      getDescendant h i s = .ok n := by
  intro f
  induction f with
  | zero => intro i l ha hf; have := ha.lt hi; omega
  | succ f ih =>
    intro i l ha hf
    obtain ⟨nd, hn⟩ := ha.some hi
    unfold findLeafRec
    rw [getE_some hn]
    simp only [Py.bind_ok]
    cases hc : nd.children with
    | none => exact ⟨i, [], nd, rfl, by simpa using ha, hn, hc, rfl⟩
    | some ab =>
      obtain ⟨a, b⟩ := ab
      obtain ⟨g1, g2, _, _, j, pp, hj1, hj2, hp1, hp2⟩ := hi.inner _ _ _ _ hn hc
      simp only [hj1, hp1, typeE, Py.bind_ok]
      rw [getE_ok (by omega : j < x.length), getE_ok (by omega : j < pp.length)]
      simp only [Py.bind_ok]
      split
      · obtain ⟨n, s, nd', e1, e2, e3, e4, e5⟩ := ih a _ (At.left ha hn hc) (by omega)
        refine ⟨n, 0 :: s, nd', e1, by simpa using e2, e3, e4, ?_⟩
        unfold getDescendant
        rw [getE_some hn]
        simp only [Py.bind_ok, hc, typeE]; exact e5
      · obtain ⟨n, s, nd', e1, e2, e3, e4, e5⟩ := ih b _ (At.right ha hn hc) (by omega)
        refine ⟨n, 1 :: s, nd', e1, by simpa using e2, e3, e4, ?_⟩
        unfold getDescendant
        rw [getE_some hn]
        simp only [Py.bind_ok, hc, typeE]; exact e5

theorem inNodeSpaceRec_ok {k : Nat} {h : Heap K} (hi : Inv k h) (x : List K) (hx : x.length = k) {n : Nat} {l : List Nat} (ha : At h n l) :
    ∃ r, (∀ f, n < f → inNodeSpaceRec h x f n = .ok r) ∧ (r = true ↔ Cell h x n) := by
  induction ha with
  | root =>
    refine ⟨true, ?_, by simp [Cell.root]⟩
    intro f hf
    obtain ⟨f, rfl⟩ : ∃ g, f = g + 1 := ⟨f - 1, by omega⟩
    obtain ⟨nd, h1, h2⟩ := hi.root
    unfold inNodeSpaceRec
    rw [getE_some h1]
    simp [h2]
  | @left i l nd a b hat hn hc ih =>
    obtain ⟨g1, g2, ⟨na, ha1, ha2, ha3⟩, _, j, pp, hj1, hj2, hp1, hp2⟩ := hi.inner _ _ _ _ hn hc
    obtain ⟨r, hr, hcell⟩ := ih
    have hjx : x[j]? = some x[j] := by simp
    have hjp : pp[j]? = some pp[j] := by simp
    refine ⟨decide (x[j] - pp[j] ≤ 0) && r, ?_, ?_⟩
    · intro f hf
      obtain ⟨f, rfl⟩ : ∃ g, f = g + 1 := ⟨f - 1, by omega⟩
      unfold inNodeSpaceRec
      rw [getE_some ha1]
      simp only [Py.bind_ok, ha2, ha3]
      rw [getE_some hn]
      simp only [Py.bind_ok, hj1, hp1, typeE, getE_some hjx, getE_some hjp, if_true]
      rw [hr f (by omega)]
      by_cases hd : x[j] - pp[j] ≤ 0
      · simp only [hd, decide_true, if_true, Bool.true_and]
      · simp only [hd, decide_false, Bool.false_eq_true, if_false, Bool.false_and]; rfl
    · rw [Bool.and_eq_true, decide_eq_true_iff, hcell, sub_nonpos]
      constructor
      · rintro ⟨h1, h2⟩; exact Cell.left h2 hn hc hj1 hp1 hjx hjp h1
      · intro hcl
        generalize hm : a = m at hcl
        cases hcl with
        | root => omega
        | @left i' nd' a' b' j' pp' y z hc1 hn1 hch1 hj1' hp1' hx1 hz1 hle =>
          subst hm
          obtain ⟨_, _, ⟨na', ha1', ha2', _⟩, _⟩ := hi.inner _ _ _ _ hn1 hch1
          rw [ha1] at ha1'; cases ha1'
          rw [ha2] at ha2'; cases ha2'
          rw [hn] at hn1; cases hn1
          rw [hj1] at hj1'; cases hj1'
          rw [hp1] at hp1'; cases hp1'
          rw [hjx] at hx1; cases hx1
          rw [hjp] at hz1; cases hz1
          exact ⟨hle, hc1⟩
        | @right i' nd' a' b' j' pp' y z hc1 hn1 hch1 hj1' hp1' hx1 hz1 hle =>
          subst hm
          obtain ⟨_, _, _, ⟨na', ha1', ha2', ha3'⟩, _⟩ := hi.inner _ _ _ _ hn1 hch1
          rw [ha1] at ha1'; cases ha1'
          omega
  | @right i l nd a b hat hn hc ih =>
    obtain ⟨g1, g2, _, ⟨na, ha1, ha2, ha3⟩, j, pp, hj1, hj2, hp1, hp2⟩ := hi.inner _ _ _ _ hn hc
    obtain ⟨r, hr, hcell⟩ := ih
    have hjx : x[j]? = some x[j] := by simp
    have hjp : pp[j]? = some pp[j] := by simp
    refine ⟨decide (x[j] - pp[j] ≥ 0) && r, ?_, ?_⟩
    · intro f hf
      obtain ⟨f, rfl⟩ : ∃ g, f = g + 1 := ⟨f - 1, by omega⟩
      unfold inNodeSpaceRec
      rw [getE_some ha1]
      simp only [Py.bind_ok, ha2, ha3]
      rw [getE_some hn]
      simp only [Py.bind_ok, hj1, hp1, typeE, getE_some hjx, getE_some hjp]
      rw [hr f (by omega)]
      by_cases hd : x[j] - pp[j] ≥ 0
      · simp [hd]
      · simp [hd]
    · rw [Bool.and_eq_true, decide_eq_true_iff, hcell, ge_iff_le, sub_nonneg]
      constructor
      · rintro ⟨h1, h2⟩; exact Cell.right h2 hn hc hj1 hp1 hjx hjp h1
      · intro hcl
        generalize hm : b = m at hcl
        cases hcl with
        | root => omega
        | @right i' nd' a' b' j' pp' y z hc1 hn1 hch1 hj1' hp1' hx1 hz1 hle =>
          subst hm
          obtain ⟨_, _, _, ⟨na', ha1', ha2', _⟩, _⟩ := hi.inner _ _ _ _ hn1 hch1
          rw [ha1] at ha1'; cases ha1'
          rw [ha2] at ha2'; cases ha2'
          rw [hn] at hn1; cases hn1
          rw [hj1] at hj1'; cases hj1'
          rw [hp1] at hp1'; cases hp1'
          rw [hjx] at hx1; cases hx1
          rw [hjp] at hz1; cases hz1
          exact ⟨hle, hc1⟩
        | @left i' nd' a' b' j' pp' y z hc1 hn1 hch1 hj1' hp1' hx1 hz1 hle =>
          subst hm
          obtain ⟨_, _, ⟨na', ha1', ha2', ha3'⟩, _⟩ := hi.inner _ _ _ _ hn1 hch1
          rw [ha1] at ha1'; cases ha1'
          omega

theorem findLeafRec_cell {k : Nat} {h : Heap K} (hi : Inv k h) (x : List K) (hx : x.length = k) :
    ∀ f i n, Cell h x i → findLeafRec h x f i = .ok n → Cell h x n := by
  intro f
  induction f with
  | zero => intro i n _ h; simp [findLeafRec] at h
  | succ f ih =>
    intro i n hcl hf
    unfold findLeafRec at hf
    cases hg : getE h i with
    | error e => rw [hg] at hf; simp at hf
    | ok nd =>
      rw [hg] at hf
      have hn := getE_eq_ok hg
      simp only [Py.bind_ok] at hf
      cases hc : nd.children with
      | none => rw [hc] at hf; simp at hf; rw [← hf]; exact hcl
      | some ab =>
        obtain ⟨a, b⟩ := ab
        obtain ⟨g1, g2, _, _, j, pp, hj1, hj2, hp1, hp2⟩ := hi.inner _ _ _ _ hn hc
        have hjx : x[j]? = some x[j] := by simp
        have hjp : pp[j]? = some pp[j] := by simp
        simp only [hc, hj1, hp1, typeE, Py.bind_ok, getE_some hjx, getE_some hjp] at hf
        split at hf
        · rename_i hlt
          exact ih a n (Cell.left hcl hn hc hj1 hp1 hjx hjp (le_of_lt (sub_neg.1 hlt))) hf
        · rename_i hlt
          exact ih b n (Cell.right hcl hn hc hj1 hp1 hjx hjp (not_lt.1 (fun h => hlt (sub_neg.2 h)))) hf

/-- A point that does not lie on a splitting plane is in the cell of exactly one leaf. -/
theorem findLeafRec_unique {k : Nat} {h : Heap K} (hi : Inv k h) (x : List K)
    (hoff : ∀ (i : Nat) (nd : Node K) (j : Nat) (pp : List K) (y z : K), h[i]? = some nd → nd.planeIdx = some j → nd.planePoint = some pp → x[j]? = some y → pp[j]? = some z → y ≠ z)
    {n : Nat} (hcl : Cell h x n) : ∀ f, h.length ≤ f → ∃ g, h.length < g + n + 1 ∧ findLeafRec h x f 0 = findLeafRec h x g n := by
  intro f hf
  induction hcl with
  | root => exact ⟨f, by omega, rfl⟩
  | @left i nd a b j pp y z hc hn hch hj hp hy hz hle ih =>
    obtain ⟨g, hg, he⟩ := ih
    have hlt := lt_of_some hn
    obtain ⟨g, rfl⟩ : ∃ g', g = g' + 1 := ⟨g - 1, by omega⟩
    obtain ⟨g1, g2, _⟩ := hi.inner _ _ _ _ hn hch
    refine ⟨g, by omega, ?_⟩
    rw [he]
    conv_lhs => unfold findLeafRec
    rw [getE_some hn]
    simp only [Py.bind_ok, hch, hj, hp, typeE, getE_some hy, getE_some hz]
    rw [if_pos (sub_neg.2 (lt_of_le_of_ne hle (hoff _ _ _ _ _ _ hn hj hp hy hz)))]
  | @right i nd a b j pp y z hc hn hch hj hp hy hz hle ih =>
    obtain ⟨g, hg, he⟩ := ih
    have hlt := lt_of_some hn
    obtain ⟨g, rfl⟩ : ∃ g', g = g' + 1 := ⟨g - 1, by omega⟩
    obtain ⟨g1, g2, _⟩ := hi.inner _ _ _ _ hn hch
    refine ⟨g, by omega, ?_⟩
    rw [he]
    conv_lhs => unfold findLeafRec
    rw [getE_some hn]
    simp only [Py.bind_ok, hch, hj, hp, typeE, getE_some hy, getE_some hz]
    rw [if_neg (fun h => absurd (sub_neg.1 h) (not_lt.2 hle))]

end order

section boxes
variable [LinearOrder K]

theorem fin_le_fin {x y : K} : fin x ≤ fin y ↔ x ≤ y := by
  unfold fin; rw [WithBot.coe_le_coe, WithTop.coe_le_coe]

/-- The box of a node: bounds in every coordinate, unbounded to start with, then replaced by the splitting planes. -/
theorem nodeAabbRec_ok {k : Nat} {h : Heap K} (hi : Inv k h) {n : Nat} {l : List Nat} (ha : At h n l) :
    ∃ b : Box (Ext K), b.1.length = k ∧ b.2.length = k ∧ ∀ f, n < f → nodeAabbRec h f n = .ok b := by
  induction ha with
  | root =>
    obtain ⟨nd, h1, h2⟩ := hi.root
    refine ⟨full k, by simp [full], by simp [full], ?_⟩
    intro f hf
    obtain ⟨f, rfl⟩ : ∃ g, f = g + 1 := ⟨f - 1, by omega⟩
    unfold nodeAabbRec
    rw [getE_some h1]
    simp [h2, hi.dim _ _ h1]
  | @left i l nd a b hat hn hc ih =>
    obtain ⟨g1, g2, ⟨na, ha1, ha2, ha3⟩, _, j, pp, hj1, hj2, hp1, hp2⟩ := hi.inner _ _ _ _ hn hc
    obtain ⟨bx, l1, l2, hb⟩ := ih
    have hjp : pp[j]? = some pp[j] := by simp
    refine ⟨(bx.1, bx.2.set j (fin pp[j])), l1, by simp [l2], ?_⟩
    intro f hf
    obtain ⟨f, rfl⟩ : ∃ g, f = g + 1 := ⟨f - 1, by omega⟩
    unfold nodeAabbRec
    rw [getE_some ha1]
    simp only [Py.bind_ok, ha2, ha3]
    rw [hb f (by omega), getE_some hn]
    simp only [Py.bind_ok, hj1, hp1, typeE, getE_some hjp, if_true]
    rw [setE_ok (by omega)]; rfl
  | @right i l nd a b hat hn hc ih =>
    obtain ⟨g1, g2, _, ⟨na, ha1, ha2, ha3⟩, j, pp, hj1, hj2, hp1, hp2⟩ := hi.inner _ _ _ _ hn hc
    obtain ⟨bx, l1, l2, hb⟩ := ih
    have hjp : pp[j]? = some pp[j] := by simp
    refine ⟨(bx.1.set j (fin pp[j]), bx.2), by simp [l1], l2, ?_⟩
    intro f hf
    obtain ⟨f, rfl⟩ : ∃ g, f = g + 1 := ⟨f - 1, by omega⟩
    unfold nodeAabbRec
    rw [getE_some ha1]
    simp only [Py.bind_ok, ha2, ha3]
    rw [hb f (by omega), getE_some hn]
    simp only [Py.bind_ok, hj1, hp1, typeE, getE_some hjp]
    rw [if_neg (by decide), setE_ok (by omega)]; rfl

theorem nodeAabb_step {k : Nat} {h : Heap K} (hi : Inv k h) {i : Nat} {l : List Nat} (ha : At h i l) {nd : Node K} {a b j : Nat} {pp : List K}
    {z : K} (hn : h[i]? = some nd) (hc : nd.children = some (a, b)) (hj : nd.planeIdx = some j) (hp : nd.planePoint = some pp)
    (hz : pp[j]? = some z) {bx : Box (Ext K)} (hb : nodeAabb h i = .ok bx) :
    nodeAabb h a = .ok (bx.1, bx.2.set j (fin z)) ∧ nodeAabb h b = .ok (bx.1.set j (fin z), bx.2) := by
  obtain ⟨b1, l1, l2, hb1⟩ := nodeAabbRec_ok hi ha
  have hlt := lt_of_some hn
  have hbx : b1 = bx := by
    unfold nodeAabb at hb
    rw [hb1 _ hlt] at hb; cases hb; rfl
  subst hbx
  obtain ⟨g1, g2, ⟨na, ha1, ha2, ha3⟩, ⟨nb, hb1', hb2, hb3⟩, j', pp', hj1, hj2, hp1, hp2⟩ := hi.inner _ _ _ _ hn hc
  rw [hj] at hj1; cases hj1
  rw [hp] at hp1; cases hp1
  have la := lt_of_some ha1
  have lb := lt_of_some hb1'
  constructor
  · unfold nodeAabb
    obtain ⟨f, hf⟩ : ∃ f, h.length = f + 1 := ⟨h.length - 1, by omega⟩
    rw [hf]
    unfold nodeAabbRec
    rw [getE_some ha1]
    simp only [Py.bind_ok, ha2, ha3]
    rw [hb1 f (by omega), getE_some hn]
    simp only [Py.bind_ok, hj, hp, typeE, getE_some hz, if_true]
    rw [setE_ok (by omega)]; rfl
  · unfold nodeAabb
    obtain ⟨f, hf⟩ : ∃ f, h.length = f + 1 := ⟨h.length - 1, by omega⟩
    rw [hf]
    unfold nodeAabbRec
    rw [getE_some hb1']
    simp only [Py.bind_ok, hb2, hb3]
    rw [hb1 f (by omega), getE_some hn]
    simp only [Py.bind_ok, hj, hp, typeE, getE_some hz]
    rw [if_neg (by decide), setE_ok (by omega)]; rfl

theorem nodeAabb_root {k : Nat} {h : Heap K} (hi : Inv k h) : nodeAabb h 0 = .ok (full k) := by
  obtain ⟨nd, h1, h2⟩ := hi.root
  have hlt := lt_of_some h1
  unfold nodeAabb
  obtain ⟨f, hf⟩ : ∃ f, h.length = f + 1 := ⟨h.length - 1, by omega⟩
  rw [hf]
  unfold nodeAabbRec
  rw [getE_some h1]
  simp [h2, hi.dim _ _ h1]

end boxes

theorem visitRec_ok {k : Nat} {h : Heap K} (hi : Inv k h) : ∀ f i l, At h i l → h.length < f + i + 1 →
    ∃ v, visitRec h f i = .ok v ∧ v.Nodup ∧ ∀ n, n ∈ v ↔ ∃ s, getDescendant h i s = .ok n := by
  intro f
  induction f with
  | zero => intro i l ha hf; have := ha.lt hi; omega
  | succ f ih =>
    intro i l ha hf
    obtain ⟨nd, hn⟩ := ha.some hi
    unfold visitRec
    rw [getE_some hn]
    simp only [Py.bind_ok]
    cases hc : nd.children with
    | none =>
      refine ⟨[i], rfl, by simp, ?_⟩
      intro n
      rw [List.mem_singleton]
      constructor
      · rintro rfl; exact ⟨[], rfl⟩
      · rintro ⟨s, hs⟩
        cases s with
        | nil => simp [getDescendant] at hs; exact hs.symm
        | cons c s =>
          unfold getDescendant at hs
          rw [getE_some hn] at hs
          simp [hc, typeE] at hs
    | some ab =>
      obtain ⟨a, b⟩ := ab
      obtain ⟨g1, g2, _⟩ := hi.inner _ _ _ _ hn hc
      have hA := At.left ha hn hc
      have hB := At.right ha hn hc
      obtain ⟨va, e1, n1, m1⟩ := ih a _ hA (by omega)
      obtain ⟨vb, e2, n2, m2⟩ := ih b _ hB (by omega)
      simp only [e1, e2, Py.bind_ok]
      have uniq : ∀ n l1 l2, At h n l1 → At h n l2 → l1 = l2 := by
        intro n l1 l2 h1 h2
        have k1 := (addressRec_at hi h1 (n + 1) (by omega)).1
        have k2 := (addressRec_at hi h2 (n + 1) (by omega)).1
        rw [k1] at k2; cases k2; rfl
      have la : ∀ n ∈ va, ∃ s, At h n (l ++ 0 :: s) := by
        intro n hm
        obtain ⟨s, hs⟩ := (m1 n).1 hm
        exact ⟨s, by simpa using at_of_descendant hA s n hs⟩
      have lb : ∀ n ∈ vb, ∃ s, At h n (l ++ 1 :: s) := by
        intro n hm
        obtain ⟨s, hs⟩ := (m2 n).1 hm
        exact ⟨s, by simpa using at_of_descendant hB s n hs⟩
      refine ⟨_, rfl, ?_, ?_⟩
      · rw [List.nodup_cons, List.nodup_append]
        refine ⟨?_, n1, n2, ?_⟩
        · intro hm
          rcases List.mem_append.1 hm with hm | hm
          · obtain ⟨s, hs⟩ := la i hm
            have := uniq _ _ _ ha hs; simp at this
          · obtain ⟨s, hs⟩ := lb i hm
            have := uniq _ _ _ ha hs; simp at this
        · intro x hx y hy hxy
          subst hxy
          obtain ⟨s, hs⟩ := la x hx
          obtain ⟨t, ht⟩ := lb x hy
          have := uniq _ _ _ hs ht; simp at this
      · intro n
        rw [List.mem_cons, List.mem_append, m1, m2]
        constructor
        · rintro (rfl | ⟨s, hs⟩ | ⟨s, hs⟩)
          · exact ⟨[], rfl⟩
          · refine ⟨0 :: s, ?_⟩
            unfold getDescendant
            rw [getE_some hn]
            simp only [Py.bind_ok, hc, typeE]; exact hs
          · refine ⟨1 :: s, ?_⟩
            unfold getDescendant
            rw [getE_some hn]
            simp only [Py.bind_ok, hc, typeE]; exact hs
        · rintro ⟨s, hs⟩
          match s, hs with
          | [], hs => simp [getDescendant] at hs; exact Or.inl hs.symm
          | 0 :: s, hs =>
            unfold getDescendant at hs
            rw [getE_some hn] at hs
            simp only [Py.bind_ok, hc, typeE] at hs
            exact Or.inr (Or.inl ⟨s, hs⟩)
          | 1 :: s, hs =>
            unfold getDescendant at hs
            rw [getE_some hn] at hs
            simp only [Py.bind_ok, hc, typeE] at hs
            exact Or.inr (Or.inr ⟨s, hs⟩)
          | (c + 2) :: s, hs =>
            unfold getDescendant at hs
            rw [getE_some hn] at hs
            simp [hc, typeE, getE] at hs

end Verif.Kd
