import Verif.Model.KdTreeRecurse
import Verif.Lemmas.KdTree
/-!
# `recurse` with a function that changes the tree: which nodes can change, and which cannot
-/

namespace Verif.Kd
open Verif

variable {K σ : Type}

/-- Node `c` is `a` or has it among the parents (also for nodes that were cut off). -/
inductive Under (h : Heap K) (a : Nat) : Nat → Prop
  | refl : Under h a a
  | step {c p : Nat} {nd : Node K} : h[c]? = some nd → nd.parent = some p → Under h a p → Under h a c

theorem Under.trans {h : Heap K} {a b c : Nat} (h1 : Under h a b) (h2 : Under h b c) : Under h a c := by
  induction h2 with
  | refl => exact h1
  | step hc hp _ ih => exact Under.step hc hp ih

theorem Under.le {k : Nat} {h : Heap K} (hi : Inv k h) {a c : Nat} (hu : Under h a c) : a ≤ c := by
  induction hu with
  | refl => exact le_refl _
  | @step c p nd hc hp _ ih =>
    rcases Nat.eq_zero_or_pos c with h0 | h0
    · subst h0
      obtain ⟨r, hr1, hr2⟩ := hi.root
      rw [hc] at hr1; cases hr1
      rw [hp] at hr2; exact absurd hr2 (by simp)
    · obtain ⟨q, hq1, hq2⟩ := hi.parent c nd hc h0
      rw [hp] at hq1; cases hq1; omega

/-- Two nodes with a common descendant: one is above the other. -/
theorem Under.linear {h : Heap K} {a b c : Nat} (ha : Under h a c) (hb : Under h b c) : Under h a b ∨ Under h b a := by
  induction ha with
  | refl => exact Or.inr hb
  | @step c p nd hc hp hap ih =>
    cases hb with
    | refl => exact Or.inl (Under.step hc hp hap)
    | step hc' hp' hbp =>
      rw [hc] at hc'; cases hc'
      rw [hp] at hp'; cases hp'
      exact ih hbp

theorem not_under_sibling {k : Nat} {h : Heap K} (hi : Inv k h) {i a b c : Nat} {nd : Node K} (hn : h[i]? = some nd)
    (hc : nd.children = some (a, b)) (ha : Under h a c) : ¬ Under h b c := by
  intro hb
  obtain ⟨g1, g2, ⟨na, ha1, ha2, ha3⟩, ⟨nb, hb1, hb2, hb3⟩, _⟩ := hi.inner _ _ _ _ hn hc
  have hne : a ≠ b := by
    rintro rfl
    rw [ha1] at hb1; cases hb1
    rw [ha3] at hb3; exact absurd hb3 (by decide)
  rcases ha.linear hb with hu | hu
  · cases hu with
    | refl => exact hne rfl
    | step h1 h2 h3 =>
      rw [hb1] at h1; cases h1
      rw [hb2] at h2; cases h2
      have := h3.le hi; omega
  · cases hu with
    | refl => exact hne rfl
    | step h1 h2 h3 =>
      rw [ha1] at h1; cases h1
      rw [ha2] at h2; cases h2
      have := h3.le hi; omega

/-- A change of the tree at and below node `id`: nodes are only added below `id`, no node gets another parent, and the other nodes do not change. -/
structure Local (id : Nat) (h h' : Heap K) : Prop where
  len : h.length ≤ h'.length
  parent : ∀ (c : Nat) (nd : Node K), h[c]? = some nd → ∃ nd', h'[c]? = some nd' ∧ nd'.parent = nd.parent
  other : ∀ c, c < h.length → ¬ Under h id c → h'[c]? = h[c]?
  added : ∀ c, h.length ≤ c → c < h'.length → Under h' id c

theorem Local.under {id : Nat} {h h' : Heap K} (hl : Local id h h') {a c : Nat} (hu : Under h a c) : Under h' a c := by
  induction hu with
  | refl => exact Under.refl
  | step hc hp _ ih =>
    obtain ⟨nd', h1, h2⟩ := hl.parent _ _ hc
    exact Under.step h1 (by rw [h2, hp]) ih

theorem Local.under_iff {k id : Nat} {h h' : Heap K} (hl : Local id h h') (hi : Inv k h) {a c : Nat} (hc : c < h.length) :
    Under h' a c ↔ Under h a c := by
  refine ⟨fun hu => ?_, hl.under⟩
  induction hu with
  | refl => exact Under.refl
  | @step c p nd h1 h2 _ ih =>
    obtain ⟨nd', h3, h4⟩ := hl.parent c h[c] (by simp)
    rw [h1] at h3; cases h3
    have hp : h[c].parent = some p := by rw [← h4, h2]
    have hcs : h[c]? = some h[c] := by simp
    have : p < c := by
      rcases Nat.eq_zero_or_pos c with h0 | h0
      · subst h0
        obtain ⟨r, hr1, hr2⟩ := hi.root
        rw [hcs] at hr1; cases hr1
        rw [hp] at hr2; exact absurd hr2 (by simp)
      · obtain ⟨q, hq1, hq2⟩ := hi.parent c _ hcs h0
        rw [hp] at hq1; cases hq1; exact hq2
    exact Under.step hcs hp (ih (by omega))

theorem Local.refl (id : Nat) (h : Heap K) : Local id h h :=
  ⟨le_refl _, fun _ nd hc => ⟨nd, hc, rfl⟩, fun _ _ _ => rfl, fun _ h1 h2 => by omega⟩

theorem Local.trans {k id : Nat} {h1 h2 h3 : Heap K} (hi : Inv k h1) (a : Local id h1 h2) (b : Local id h2 h3) : Local id h1 h3 := by
  refine ⟨le_trans a.len b.len, ?_, ?_, ?_⟩
  · intro c nd hc
    obtain ⟨nd', e1, e2⟩ := a.parent c nd hc
    obtain ⟨nd'', e3, e4⟩ := b.parent c nd' e1
    exact ⟨nd'', e3, by rw [e4, e2]⟩
  · intro c hc hu
    have : ¬ Under h2 id c := fun h => hu ((a.under_iff hi hc).1 h)
    rw [b.other c (lt_of_lt_of_le hc a.len) this, a.other c hc hu]
  · intro c hc1 hc2
    by_cases hc : c < h2.length
    · exact b.under (a.added c hc1 hc)
    · exact b.added c (by omega) hc2

/-- A change below a node that is under `id` is a change below `id`. -/
theorem Local.up {id a : Nat} {h h' : Heap K} (hu : Under h id a) (hl : Local a h h') : Local id h h' :=
  ⟨hl.len, hl.parent, fun c hc hn => hl.other c hc fun h => hn (hu.trans h), fun c h1 h2 => (hl.under hu).trans (hl.added c h1 h2)⟩

theorem local_subdivide {id : Nat} {h h' : Heap K} {pp : List K} {i : Int} (hs : subdivide h id pp i = .ok h') : Local id h h' := by
  obtain ⟨nd, hn, _, _, _, _, rfl⟩ := subdivide_eq hs
  have hg := fun j => @subdivide_get K h id nd
    { nd with planePoint := some pp, planeIdx := some i.toNat, children := some (h.length, h.length + 1) }
    (newNode (some id) nd.k 0) (newNode (some id) nd.k 1) hn j
  have hid := lt_of_some hn
  refine ⟨by simp, ?_, ?_, ?_⟩
  · intro c n hc
    have hcl := lt_of_some hc
    rw [hg]
    split
    · rename_i he; subst he; rw [hn] at hc; cases hc; exact ⟨_, rfl, rfl⟩
    · rw [if_neg (by omega), if_neg (by omega)]; exact ⟨n, hc, rfl⟩
  · intro c hc hu
    have : c ≠ id := by rintro rfl; exact hu Under.refl
    rw [hg, if_neg this, if_neg (by omega), if_neg (by omega)]
  · intro c h1 h2
    simp only [List.length_append, List.length_set, List.length_cons, List.length_nil] at h2
    have hc : c = h.length ∨ c = h.length + 1 := by omega
    rcases hc with rfl | rfl
    · exact Under.step (by rw [hg, if_neg (by omega), if_pos rfl]) rfl Under.refl
    · exact Under.step (by rw [hg, if_neg (by omega), if_neg (by omega), if_pos rfl]) rfl Under.refl

theorem local_cut {id : Nat} {h h' : Heap K} (hs : cutSubtree h id = .ok h') : Local id h h' := by
  obtain ⟨nd, hn, rfl⟩ := cut_eq hs
  have hg := fun j => @set_get K h id nd { nd with planePoint := none, planeIdx := none, children := none } hn j
  refine ⟨by simp, ?_, ?_, ?_⟩
  · intro c n hc
    rw [hg]
    split
    · rename_i he; subst he; rw [hn] at hc; cases hc; exact ⟨_, rfl, rfl⟩
    · exact ⟨n, hc, rfl⟩
  · intro c hc hu
    have : c ≠ id := by rintro rfl; exact hu Under.refl
    rw [hg, if_neg this]
  · intro c h1 h2
    simp only [List.length_set] at h2; omega

theorem OwnChanges.reachable {k id : Nat} {h h' : Heap K} (hc : OwnChanges id h h') (hr : Reachable k h) : Reachable k h' := by
  induction hc with
  | refl => exact hr
  | subdivide pp i _ hs ih => exact Reachable.subdivide _ pp i ih hs
  | cut _ hs ih => exact Reachable.cut _ ih hs

theorem OwnChanges.local {k id : Nat} {h h' : Heap K} (hc : OwnChanges id h h') (hr : Reachable k h) : Local id h h' := by
  induction hc with
  | refl => exact Local.refl _ _
  | subdivide pp i _ hs ih => exact Local.trans hr.inv ih (local_subdivide hs)
  | cut _ hs ih => exact Local.trans hr.inv ih (local_cut hs)

/-- The nodes that `visitRec` visits do not depend on the other nodes. -/
theorem visitRec_congr {k : Nat} {h h' : Heap K} (hi : Inv k h) : ∀ f a l, visitRec h f a = .ok l →
    (∀ c, c < h.length → Under h a c → h'[c]? = h[c]?) → visitRec h' f a = .ok l := by
  intro f
  induction f with
  | zero => intro a l h1; simp [visitRec] at h1
  | succ f ih =>
    intro a l h1 h2
    unfold visitRec at h1 ⊢
    cases hg : getE h a with
    | error e => rw [hg] at h1; exact absurd h1 (by simp)
    | ok nd =>
      have hn := getE_eq_ok hg
      rw [hg] at h1
      rw [getE_some ((h2 a (lt_of_some hn) Under.refl).trans hn)]
      simp only [Py.bind_ok] at h1 ⊢
      cases hc : nd.children with
      | none => rw [hc] at h1; exact h1
      | some ab =>
        obtain ⟨x, y⟩ := ab
        rw [hc] at h1
        obtain ⟨_, _, ⟨na, ha1, ha2, _⟩, ⟨nb, hb1, hb2, _⟩, _⟩ := hi.inner _ _ _ _ hn hc
        simp only at h1 ⊢
        cases hx : visitRec h f x with
        | error e => rw [hx] at h1; exact absurd h1 (by simp)
        | ok lx =>
          cases hy : visitRec h f y with
          | error e => rw [hx, hy] at h1; exact absurd h1 (by simp)
          | ok ly =>
            rw [hx, hy] at h1
            rw [ih x lx hx fun c hc hu => h2 c hc ((Under.step ha1 ha2 Under.refl).trans hu),
              ih y ly hy fun c hc hu => h2 c hc ((Under.step hb1 hb2 Under.refl).trans hu)]
            exact h1

theorem visitRec_mono (h : Heap K) : ∀ f g a l, f ≤ g → visitRec h f a = .ok l → visitRec h g a = .ok l := by
  intro f
  induction f with
  | zero => intro g a l _ h1; simp [visitRec] at h1
  | succ f ih =>
    intro g a l hfg h1
    obtain ⟨g, rfl⟩ : ∃ g', g = g' + 1 := ⟨g - 1, by omega⟩
    unfold visitRec at h1 ⊢
    cases hg : getE h a with
    | error e => rw [hg] at h1; exact absurd h1 (by simp)
    | ok nd =>
      rw [hg] at h1
      simp only [Py.bind_ok] at h1 ⊢
      cases hc : nd.children with
      | none => rw [hc] at h1; exact h1
      | some ab =>
        obtain ⟨x, y⟩ := ab
        rw [hc] at h1
        simp only at h1 ⊢
        cases hx : visitRec h f x with
        | error e => rw [hx] at h1; exact absurd h1 (by simp)
        | ok lx =>
          cases hy : visitRec h f y with
          | error e => rw [hx, hy] at h1; exact absurd h1 (by simp)
          | ok ly =>
            rw [hx, hy] at h1
            rw [ih g x lx (by omega) hx, ih g y ly (by omega) hy]
            exact h1

/-- The result of `recurse` with a function that changes only its own node. -/
theorem recurseWith_ok {k : Nat} {fn : σ → Heap K → Nat → Py (σ × Heap K)}
    (hfn : ∀ s h id s' h', fn s h id = .ok (s', h') → OwnChanges id h h') :
    ∀ f s (h : Heap K) id s' h' l, Reachable k h → recurseWith fn f s h id = .ok (s', h', l) →
      Reachable k h' ∧ Local id h h' ∧ visitRec h' f id = .ok l := by
  intro f
  induction f with
  | zero => intro s h id s' h' l _ h1; simp [recurseWith] at h1
  | succ f ih =>
    intro s h id s' h' l hr h1
    unfold recurseWith at h1
    cases hf : fn s h id with
    | error e => rw [hf] at h1; exact absurd h1 (by simp)
    | ok r =>
      obtain ⟨s1, h1'⟩ := r
      rw [hf] at h1
      simp only [Py.bind_ok] at h1
      have own := hfn _ _ _ _ _ hf
      have hr1 := own.reachable hr
      have l1 := own.local hr
      cases hg : getE h1' id with
      | error e => rw [hg] at h1; exact absurd h1 (by simp)
      | ok nd =>
        have hn := getE_eq_ok hg
        rw [hg] at h1
        simp only [Py.bind_ok] at h1
        cases hc : nd.children with
        | none =>
          rw [hc] at h1
          simp only [Py.pure_eq, Except.ok.injEq, Prod.mk.injEq] at h1
          obtain ⟨rfl, rfl, rfl⟩ := h1
          refine ⟨hr1, l1, ?_⟩
          unfold visitRec
          rw [hg]; simp [hc]
        | some ab =>
          obtain ⟨a, b⟩ := ab
          rw [hc] at h1
          simp only at h1
          obtain ⟨g1, g2, ⟨na, ha1, ha2, _⟩, ⟨nb, hb1, hb2, _⟩, _⟩ := hr1.inv.inner _ _ _ _ hn hc
          cases hx : recurseWith fn f s1 h1' a with
          | error e => rw [hx] at h1; exact absurd h1 (by simp)
          | ok r2 =>
            obtain ⟨s2, h2, la⟩ := r2
            rw [hx] at h1
            simp only [Py.bind_ok] at h1
            obtain ⟨hr2, l2, v2⟩ := ih _ _ _ _ _ _ hr1 hx
            have hn2 : h2[id]? = some nd := by
              rw [l2.other id (lt_of_some hn) fun hu => by have := hu.le hr1.inv; omega, hn]
            rw [getE_some hn2] at h1
            simp only [Py.bind_ok, hc, typeE] at h1
            cases hy : recurseWith fn f s2 h2 b with
            | error e => rw [hy] at h1; exact absurd h1 (by simp)
            | ok r3 =>
              obtain ⟨s3, h3, lb⟩ := r3
              rw [hy] at h1
              simp only [Py.bind_ok, Py.pure_eq, Except.ok.injEq, Prod.mk.injEq] at h1
              obtain ⟨rfl, rfl, rfl⟩ := h1
              obtain ⟨hr3, l3, v3⟩ := ih _ _ _ _ _ _ hr2 hy
              have hn3 : h3[id]? = some nd := by
                rw [l3.other id (lt_of_some hn2) fun hu => by have := hu.le hr2.inv; omega, hn2]
              have ua : Under h1' id a := Under.step ha1 ha2 Under.refl
              have ub : Under h1' id b := Under.step hb1 hb2 Under.refl
              refine ⟨hr3, Local.trans hr.inv l1 (Local.trans hr1.inv (l2.up ua) (l3.up (l2.under ub))), ?_⟩
              have va : visitRec h3 f a = .ok la :=
                visitRec_congr hr2.inv f a la v2 fun c hcl hu => l3.other c hcl (not_under_sibling hr2.inv hn2 hc hu)
              unfold visitRec
              rw [getE_some hn3]
              simp [hc, va, v3]

end Verif.Kd
