import Verif.Lemmas.KdTreeRecurse
import Verif.Props.KdTree
/-!
# Property C41: `recurse` with a function that changes the tree
-/

namespace Verif.Props
open Verif Verif.Kd

section
variable {K σ : Type}

/-- C41: `recurse` on the root with a function that calls `subdivide` and `cut_subtree` on the node it is given (any number of times, depending on
anything): if it returns, the function has been called exactly once on every node of the tree that is left, in preorder, and on no other node
(neither on a node that was cut off before the traversal got there, nor twice on one). -/
theorem C41_recurse_changing {k : Nat} {fn : σ → Heap K → Nat → Py (σ × Heap K)}
    (hfn : ∀ s h id s' h', fn s h id = .ok (s', h') → OwnChanges id h h') {f : Nat} {s s' : σ} {h h' : Heap K} {l : List Nat}
    (hr : Reachable k h) (hrec : recurseWith fn f s h 0 = .ok (s', h', l)) :
    Reachable k h' ∧ visit h' 0 = .ok l ∧ l.Nodup ∧ ∀ n, n ∈ l ↔ ∃ p, At h' n p := by
  obtain ⟨h1, _, h3⟩ := recurseWith_ok hfn f s h 0 s' h' l hr hrec
  have key : ∀ v, visit h' 0 = .ok v → v = l := by
    intro v hv
    have e1 := visitRec_mono h' _ (max f h'.length) 0 v (by omega) hv
    have e2 := visitRec_mono h' _ (max f h'.length) 0 l (by omega) h3
    rw [e1] at e2; cases e2; rfl
  obtain ⟨v, hv1, hv2, hv3⟩ := C41_recurse h1
  have := key v hv1
  subst this
  exact ⟨h1, hv1, hv2, hv3⟩

/-- C41: `recurse` on any node with such a function changes nothing but this node and nodes below it: every node that is neither the node nor has
it among its parents is the same object with the same fields afterwards, and no node changes its parent. -/
theorem C41_recurse_local {k : Nat} {fn : σ → Heap K → Nat → Py (σ × Heap K)}
    (hfn : ∀ s h id s' h', fn s h id = .ok (s', h') → OwnChanges id h h') {f : Nat} {s s' : σ} {h h' : Heap K} {l : List Nat} {id : Nat}
    (hr : Reachable k h) (hrec : recurseWith fn f s h id = .ok (s', h', l)) :
    Reachable k h' ∧ (∀ c, c < h.length → ¬ Under h id c → h'[c]? = h[c]?) ∧
      (∀ (c : Nat) (nd : Node K), h[c]? = some nd → ∃ nd', h'[c]? = some nd' ∧ nd'.parent = nd.parent) ∧
      ∀ c, h.length ≤ c → c < h'.length → Under h' id c := by
  obtain ⟨h1, h2, _⟩ := recurseWith_ok hfn f s h id s' h' l hr hrec
  exact ⟨h1, h2.other, h2.parent, h2.added⟩

/-- C41: with a function that never changes the tree, `recurse` calls it on the nodes of the tree in preorder and leaves the tree unchanged,
and it always returns if the function does (the bound on the recursion depth is only needed to be the number of nodes). -/
theorem C41_recurse_const {k : Nat} {g : σ → Nat → σ} {s : σ} {h : Heap K} (hr : Reachable k h) :
    ∃ l, visit h 0 = .ok l ∧ recurseWith (fun s h id => .ok (g s id, h)) h.length s h 0 = .ok (l.foldl g s, h, l) := by
  obtain ⟨v, hv, _⟩ := C41_recurse hr
  refine ⟨v, hv, ?_⟩
  have key : ∀ f s a l, visitRec h f a = .ok l → recurseWith (fun s h id => .ok (g s id, h)) f s h a = .ok (l.foldl g s, h, l) := by
    intro f
    induction f with
    | zero => intro s a l h1; simp [visitRec] at h1
    | succ f ih =>
      intro s a l h1
      unfold visitRec at h1
      unfold recurseWith
      cases hg : getE h a with
      | error e => rw [hg] at h1; exact absurd h1 (by simp)
      | ok nd =>
        rw [hg] at h1
        simp only [Py.bind_ok] at h1
        simp only [Py.bind_ok, hg]
        cases hc : nd.children with
        | none =>
          rw [hc] at h1
          simp only [Py.pure_eq, Except.ok.injEq] at h1
          subst h1; rfl
        | some ab =>
          obtain ⟨x, y⟩ := ab
          rw [hc] at h1
          simp only at h1 ⊢
          cases hx : visitRec h f x with
          | error e => rw [hx] at h1; exact absurd h1 (by simp)
          | ok lx =>
            cases hy : visitRec h f y with
            | error e => rw [hx, hy] at h1; exact absurd h1 (by simp)
            | ok ly =>
              rw [hx, hy] at h1
              simp only [Py.bind_ok, Py.pure_eq, Except.ok.injEq] at h1
              rw [ih _ x lx hx]
              simp only [Py.bind_ok, hg, hc, typeE]
              rw [ih _ y ly hy]
              simp [← h1]
  exact key _ _ _ _ hv

/-- C41, a limitation: `recurse` fails with TypeError when the function, called on a node in the first half of the subtree of an inner node, leaves
this inner node without children (line 117 reads `self.children[1]` although `self.children` is None by then). -/
theorem C41_recurse_parent_cut {fn : σ → Heap K → Nat → Py (σ × Heap K)} {f : Nat} {s s1 s2 : σ} {h h1 h2 : Heap K} {id a b : Nat} {l : List Nat}
    {nd nd' : Node K} (hf : fn s h id = .ok (s1, h1)) (hn : h1[id]? = some nd) (hc : nd.children = some (a, b))
    (hx : recurseWith fn f s1 h1 a = .ok (s2, h2, l)) (hn2 : h2[id]? = some nd') (hcut : nd'.children = none) :
    recurseWith fn (f + 1) s h id = .error .type := by
  unfold recurseWith
  rw [hf]
  simp only [Py.bind_ok]
  rw [getE_some hn]
  simp only [Py.bind_ok, hc, hx]
  rw [getE_some hn2]
  simp [hcut, typeE]

end

/-- Subdivide every node above depth 2 at the origin, counting the calls. -/
def halve (s : Nat) (h : Heap Int) (id : Nat) : Py (Nat × Heap Int) := do
  let d ← depth h id
  if d < 2 then do
    let h' ← subdivide h id [0, 0] (d % 2)
    return (s + 1, h')
  else return (s + 1, h)

theorem halve_own (s : Nat) (h : Heap Int) (id s' : Nat) (h' : Heap Int) (hf : halve s h id = .ok (s', h')) : OwnChanges id h h' := by
  unfold halve at hf
  cases hd : depth h id with
  | error e => rw [hd] at hf; exact absurd hf (by simp)
  | ok d =>
    rw [hd] at hf
    simp only [Py.bind_ok] at hf
    split at hf
    · cases hs : subdivide h id [0, 0] (d % 2) with
      | error e => rw [hs] at hf; exact absurd hf (by simp)
      | ok h2 =>
        rw [hs] at hf
        simp only [Py.bind_ok, Py.pure_eq, Except.ok.injEq, Prod.mk.injEq] at hf
        obtain ⟨_, rfl⟩ := hf
        exact OwnChanges.subdivide _ _ (OwnChanges.refl _) hs
    · simp only [Py.pure_eq, Except.ok.injEq, Prod.mk.injEq] at hf
      obtain ⟨_, rfl⟩ := hf
      exact OwnChanges.refl _

/-- The function is called on the nodes it creates itself: four leaves in the end, seven calls. -/
example : ∃ h', recurseWith halve 10 0 (createKdTree 2) 0 = .ok (7, h', [0, 1, 3, 4, 2, 5, 6]) ∧ visit h' 0 = .ok [0, 1, 3, 4, 2, 5, 6] :=
  ⟨_, rfl, rfl⟩

example : ∀ h' : Heap Int, recurseWith halve 10 0 (createKdTree 2) 0 = .ok (7, h', [0, 1, 3, 4, 2, 5, 6]) → [0, 1, 3, 4, 2, 5, 6].Nodup ∧
    ∀ n, n ∈ [0, 1, 3, 4, 2, 5, 6] ↔ ∃ p, At h' n p :=
  fun _ hh => (C41_recurse_changing halve_own Reachable.create hh).2.2

/-- Cutting the root when the first child is visited. -/
example : ∃ h : Heap Int, Reachable 1 h ∧
    recurseWith (fun s h id => do if id = 1 then (do let h' ← cutSubtree h 0; return (s, h')) else return (s, h)) 5 () h 0 = .error .type :=
  ⟨_, Reachable.subdivide 0 [0] 0 Reachable.create rfl, rfl⟩

end Verif.Props
