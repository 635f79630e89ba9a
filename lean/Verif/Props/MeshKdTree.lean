import Mathlib.Algebra.Order.Ring.Defs
import Mathlib.Algebra.Order.Ring.Int
import Mathlib.Algebra.BigOperators.Group.List.Basic
import Verif.Model.MeshKdTree
import Verif.Props.KdTree
/-!
# Property C42: the mesh k-d tree never loses a simplex
-/

namespace Verif.Props
open Verif Verif.Aabb Verif.Kd

section
variable {K : Type} [CommRing K] [LinearOrder K] [IsStrictOrderedRing K]

/-- `x` is a convex combination of the points `vs`: it lies in the simplex with these vertices. -/
def InHull (vs : List (List K)) (x : List K) : Prop :=
  ∃ w : List K, w.length = vs.length ∧ (∀ c ∈ w, 0 ≤ c) ∧ w.sum = 1 ∧
    ∀ (i : Nat) (h : i < x.length), x[i] = (List.zipWith (fun (c : K) (v : List K) => c * v.getD i 0) w vs).sum

/-- `x` lies in simplex number `τ` of the mesh, in a space of dimension `k`. -/
def InMeshSimplex (m : Mesh K) (k : Nat) (τ : Nat) (x : List K) : Prop :=
  x.length = k ∧ ∃ s vs, m.simplices[τ]? = some s ∧ Complex.simplexVertices s m.vertices = .ok vs ∧ InHull vs x

/-- The simplices for which the tree is made: all simplices of the mesh, or those in the given list. -/
def OfInterest (m : Mesh K) (interest : Option (List Nat)) (τ : Nat) : Prop :=
  (interest = none ∧ τ < m.simplices.length) ∨ ∃ l, interest = some l ∧ τ ∈ l

/-- `x` lies in the bounding box of simplex number `τ` of the mesh: each of its coordinates is between those of two vertices of the simplex. -/
def InSimplexBox (m : Mesh K) (k : Nat) (τ : Nat) (x : List K) : Prop :=
  x.length = k ∧ ∃ s vs, m.simplices[τ]? = some s ∧ Complex.simplexVertices s m.vertices = .ok vs ∧
    ∀ (i : Nat) (h : i < x.length), (∃ v ∈ vs, v.getD i 0 ≤ x[i]) ∧ ∃ v ∈ vs, x[i] ≤ v.getD i 0

theorem hull_bound (w : List K) (vs : List (List K)) (hl : w.length = vs.length) (hw : ∀ c ∈ w, 0 ≤ c) (i : Nat) (lo hi : K)
    (hb : ∀ v ∈ vs, lo ≤ v.getD i 0 ∧ v.getD i 0 ≤ hi) :
    w.sum * lo ≤ (List.zipWith (fun (c : K) (v : List K) => c * v.getD i 0) w vs).sum ∧
    (List.zipWith (fun (c : K) (v : List K) => c * v.getD i 0) w vs).sum ≤ w.sum * hi := by
  induction w generalizing vs with
  | nil => simp
  | cons c w ih =>
    match vs, hl with
    | v :: vs, hl =>
      obtain ⟨h1, h2⟩ := ih vs (by simpa using hl) (fun d hd => hw d (by simp [hd])) (fun u hu => hb u (by simp [hu]))
      have hc := hw c (by simp)
      obtain ⟨b1, b2⟩ := hb v (by simp)
      simp only [List.zipWith_cons_cons, List.sum_cons, add_mul]
      exact ⟨add_le_add (mul_le_mul_of_nonneg_left b1 hc) h1, add_le_add (mul_le_mul_of_nonneg_left b2 hc) h2⟩

/-- A point of a simplex is in the box of the vertices. -/
theorem hull_in_box {k : Nat} {vs : List (List K)} (hv : ∀ v ∈ vs, v.length = k) {x : List K} (hx : x.length = k) (hh : InHull vs x) {b : Box K}
    (hb : create vs = .ok b) : BoxDim b k ∧ InBox b x := by
  obtain ⟨w, hl, hw, hs, he⟩ := hh
  have hne : vs ≠ [] := by
    rintro rfl
    simp at hl; subst hl; simp at hs
  obtain ⟨b', hb', hd, hin, _⟩ := C40_create vs hne hv
  rw [hb] at hb'; cases hb'
  refine ⟨hd, by rw [hx, hd.1], by rw [hx, hd.2], fun i h0 h h1 => ?_⟩
  have := hull_bound w vs hl hw i b.1[i] b.2[i] (by
    intro v hvm
    have := (hin v hvm).2.2 i h0 (by rw [hv v hvm]; omega) h1
    rw [List.getD_eq_getElem _ _ (by rw [hv v hvm]; omega)]
    exact this)
  rw [hs, one_mul, one_mul, ← he i h] at this
  exact this

omit [IsStrictOrderedRing K] in
/-- The box of the vertices contains exactly the points between vertices in each coordinate. -/
theorem box_iff {k : Nat} {vs : List (List K)} (hv : ∀ v ∈ vs, v.length = k) {b : Box K} (hb : create vs = .ok b) :
    BoxDim b k ∧ ∀ x : List K, x.length = k → (InBox b x ↔ ∀ (i : Nat) (h : i < x.length), (∃ v ∈ vs, v.getD i 0 ≤ x[i]) ∧ ∃ v ∈ vs, x[i] ≤ v.getD i 0) := by
  have hne : vs ≠ [] := by
    rintro rfl
    simp [create] at hb
  obtain ⟨b', hb', hd, hin, hmin⟩ := C40_create vs hne hv
  rw [hb] at hb'; cases hb'
  have d1 := hd.1; have d2 := hd.2
  refine ⟨hd, fun x hx => ⟨fun hbx i hi => ?_, fun h => ⟨by omega, by omega, fun i h0 hi h1 => ?_⟩⟩⟩
  · have hne' : vs.toFinset.Nonempty := by simpa using hne
    obtain ⟨u, hu, hul⟩ := Finset.exists_min_image vs.toFinset (fun v => v.getD i 0) hne'
    obtain ⟨w, hw, hwl⟩ := Finset.exists_max_image vs.toFinset (fun v => v.getD i 0) hne'
    simp only [List.mem_toFinset] at hu hul hw hwl
    have hb2 : InBox (b.1.set i (u.getD i 0), b.2.set i (w.getD i 0)) x := by
      refine hmin _ ⟨by simpa using d1, by simpa using d2⟩ (fun v hvm => ?_) x hbx
      have lv := hv v hvm
      refine ⟨by simp; omega, by simp; omega, fun j h0 h h1 => ?_⟩
      have := (hin v hvm).2.2 j (by simpa using h0) h (by simpa using h1)
      simp only [List.getElem_set]
      by_cases hij : i = j
      · subst hij
        rw [if_pos rfl, if_pos rfl, ← List.getD_eq_getElem _ 0 h]
        exact ⟨hul v hvm, hwl v hvm⟩
      · rw [if_neg hij, if_neg hij]; exact this
    have := hb2.2.2 i (by simp; omega) hi (by simp; omega)
    simp only [List.getElem_set_self] at this
    exact ⟨⟨u, hu, this.1⟩, ⟨w, hw, this.2⟩⟩
  · obtain ⟨⟨u, hu, hux⟩, ⟨w, hw, hwx⟩⟩ := h i hi
    have lu := hv u hu; have lw := hv w hw
    have g1 := ((hin u hu).2.2 i h0 (by omega) h1).1
    have g2 := ((hin w hw).2.2 i h0 (by omega) h1).2
    rw [List.getD_eq_getElem _ _ (by omega)] at hux hwx
    exact ⟨g1.trans hux, hwx.trans g2⟩

variable [Sub (Ext K)] [Mul (Ext K)] [One (Ext K)]

omit [CommRing K] [LinearOrder K] [IsStrictOrderedRing K] [Sub (Ext K)] [Mul (Ext K)] [One (Ext K)] in
theorem simplexVertices_mem {s : List Nat} {vertices v : List (List K)} (hvs : Complex.simplexVertices s vertices = .ok v) :
    v.length = s.length ∧ ∀ u ∈ v, u ∈ vertices := by
  unfold Complex.simplexVertices at hvs
  cases h0 : getE vertices 0 with
  | error e => rw [h0] at hvs; simp at hvs
  | ok v0 =>
    rw [h0] at hvs
    simp only [Py.bind_ok] at hvs
    clear h0
    induction s generalizing v with
    | nil => simp at hvs; subst hvs; simp
    | cons a s ihs =>
      rw [List.mapM_cons] at hvs
      cases h7 : getE vertices a with
      | error e => rw [h7] at hvs; simp at hvs
      | ok va =>
        rw [h7] at hvs
        simp only [Py.bind_ok] at hvs
        cases h8 : List.mapM (fun i => getE vertices i) s with
        | error e => rw [h8] at hvs; simp at hvs
        | ok vr =>
          rw [h8] at hvs
          simp only [Py.bind_ok, Py.pure_eq, Except.ok.injEq] at hvs
          subst hvs
          obtain ⟨k1, k2⟩ := ihs h8
          refine ⟨by simp [k1], fun u hu => ?_⟩
          rcases List.mem_cons.1 hu with rfl | hu
          · exact List.mem_of_getElem? (getE_eq_ok h7)
          · exact k2 u hu

omit [Sub (Ext K)] [Mul (Ext K)] [One (Ext K)] in
theorem _root_.Verif.Props.InMeshSimplex.box {m : Mesh K} {k : Nat} (hvert : ∀ v ∈ m.vertices, v.length = k) {τ : Nat} {x : List K}
    (hx : InMeshSimplex m k τ x) : InSimplexBox m k τ x := by
  obtain ⟨hxk, s, vs, hs, hvs, hh⟩ := hx
  have hvk : ∀ u ∈ vs, u.length = k := fun u hu => hvert u ((simplexVertices_mem hvs).2 u hu)
  have hne : vs ≠ [] := by
    obtain ⟨w, hl, hw, hs, he⟩ := hh
    rintro rfl
    simp at hl; subst hl; simp at hs
  obtain ⟨b, hb, _⟩ := C40_create vs hne hvk
  exact ⟨hxk, s, vs, hs, hvs, ((box_iff hvk hb).2 x hxk).1 (hull_in_box hvk hxk hh hb).2⟩

omit [IsStrictOrderedRing K] in
/-- The loop keeps exactly the simplices whose bounding box meets the given box. -/
theorem intersectLoop_iff {m : Mesh K} {k : Nat} (hvert : ∀ v ∈ m.vertices, v.length = k) {aabb : Box (Ext K)} (hab : BoxDim aabb k)
    {l r : List Nat} (hl : intersectLoop m aabb l = .ok r) (τ : Nat) :
    τ ∈ r ↔ τ ∈ l ∧ ∃ x, InSimplexBox m k τ x ∧ InBox aabb (x.map fin) := by
  induction l generalizing r with
  | nil => simp [intersectLoop] at hl; subst hl; simp
  | cons i is ih =>
    unfold intersectLoop at hl
    cases h1 : getE m.simplices i with
    | error e => rw [h1] at hl; simp at hl
    | ok s =>
      rw [h1] at hl
      simp only [Py.bind_ok] at hl
      cases h2 : Complex.simplexVertices s m.vertices with
      | error e => rw [h2] at hl; simp at hl
      | ok v =>
        rw [h2] at hl
        simp only [Py.bind_ok] at hl
        cases h3 : create v with
        | error e => rw [h3] at hl; simp at hl
        | ok b =>
          rw [h3] at hl
          simp only [Py.bind_ok] at hl
          cases h4 : intersection aabb (b.1.map fin, b.2.map fin) with
          | error e => rw [h4] at hl; simp at hl
          | ok c =>
            rw [h4] at hl
            simp only [Py.bind_ok] at hl
            cases h5 : isEmpty c with
            | error e => rw [h5] at hl; simp at hl
            | ok e =>
              rw [h5] at hl
              simp only [Py.bind_ok] at hl
              cases h6 : intersectLoop m aabb is with
              | error e => rw [h6] at hl; simp at hl
              | ok rest =>
                rw [h6] at hl
                simp only [Py.bind_ok, Py.pure_eq, Except.ok.injEq] at hl
                have ih' := ih h6
                have hvk : ∀ u ∈ v, u.length = k := fun u hu => hvert u ((simplexVertices_mem h2).2 u hu)
                obtain ⟨hbd, hbi⟩ := box_iff hvk h3
                have hbd' : BoxDim ((b.1.map fin, b.2.map fin) : Box (Ext K)) k := ⟨by simpa using hbd.1, by simpa using hbd.2⟩
                have hfin : ∀ x : List K, InBox ((b.1.map fin, b.2.map fin) : Box (Ext K)) (x.map fin) ↔ InBox b x := by
                  intro x
                  constructor
                  · rintro ⟨e1, e2, e3⟩
                    refine ⟨by simpa using e1, by simpa using e2, fun j g0 g1 g2 => ?_⟩
                    have := e3 j (by simpa using g0) (by simpa using g1) (by simpa using g2)
                    simpa only [List.getElem_map, fin_le_fin] using this
                  · rintro ⟨e1, e2, e3⟩
                    refine ⟨by simpa using e1, by simpa using e2, fun j g0 g1 g2 => ?_⟩
                    simp only [List.getElem_map, fin_le_fin]
                    exact e3 j (by simpa using g0) (by simpa using g1) (by simpa using g2)
                obtain ⟨c', hc', hcd, hcin⟩ := C40_intersection hab hbd'
                rw [h4] at hc'; cases hc'
                obtain ⟨e', he', _, hee⟩ := C40_is_empty (α := Ext K) hcd
                rw [h5] at he'; cases he'
                have hmeet : e = false ↔ ∃ x, InSimplexBox m k i x ∧ InBox aabb (x.map fin) := by
                  constructor
                  · intro he
                    have : ¬ ∀ p, ¬ InBox c p := fun h => by simp [hee.2 h] at he
                    push Not at this
                    obtain ⟨q, hq⟩ := this
                    obtain ⟨hqa, hqb⟩ := (hcin q).1 hq
                    have hval : ∀ u ∈ q, ∃ y : K, u = fin y := by
                      intro u hu
                      obtain ⟨j, hj, rfl⟩ := List.getElem_of_mem hu
                      have l1 := hqb.1; have l2 := hqb.2.1
                      have := hqb.2.2 j (by omega) hj (by omega)
                      simp only [List.getElem_map] at this
                      generalize q[j] = u at this
                      induction u using WithBot.recBotCoe with
                      | bot => exact absurd this.1 (by simp [fin])
                      | coe u =>
                        induction u using WithTop.recTopCoe with
                        | top =>
                          have h2 := this.2
                          unfold fin at h2
                          rw [WithBot.coe_le_coe] at h2
                          simp at h2
                        | coe y => exact ⟨y, rfl⟩
                    obtain ⟨x, rfl⟩ : ∃ x : List K, q = x.map fin := by
                      clear hq hqa hqb
                      induction q with
                      | nil => exact ⟨[], rfl⟩
                      | cons u q ihq =>
                        obtain ⟨y, rfl⟩ := hval u (by simp)
                        obtain ⟨x, rfl⟩ := ihq (fun w hw => hval w (by simp [hw]))
                        exact ⟨y :: x, rfl⟩
                    have hxb := (hfin x).1 hqb
                    have hxk : x.length = k := by have := hxb.1; have := hbd.1; omega
                    exact ⟨x, ⟨hxk, s, v, getE_eq_ok h1, h2, (hbi x hxk).1 hxb⟩, hqa⟩
                  · rintro ⟨x, ⟨hxk, s', vs, hs', hvs, hh⟩, hin⟩
                    rw [getE_some hs'] at h1; cases h1
                    rw [hvs] at h2; cases h2
                    cases e with
                    | false => rfl
                    | true => exact absurd ((hcin _).2 ⟨hin, (hfin x).2 ((hbi x hxk).2 hh)⟩) (hee.1 rfl _)
                rw [← hl]
                by_cases hi : τ = i
                · subst hi
                  cases e with
                  | false => simp [hmeet.1 rfl]
                  | true =>
                    have hn : ¬ ∃ x, InSimplexBox m k τ x ∧ InBox aabb (x.map fin) := fun h => by simpa using hmeet.2 h
                    simp only [Bool.not_true, Bool.false_eq_true, if_false, hn, and_false, iff_false]
                    exact fun h => hn (ih'.1 h).2
                · split
                  · simp [hi, ih']
                  · simp [hi, ih']

omit [CommRing K] [LinearOrder K] [IsStrictOrderedRing K] [Sub (Ext K)] [Mul (Ext K)] [One (Ext K)] in
theorem mem_rootPis {m : Mesh K} {interest : Option (List Nat)} {τ : Nat} : τ ∈ rootPis m interest ↔ OfInterest m interest τ := by
  cases interest <;> simp [rootPis, OfInterest]

/-- The invariant behind C42. -/
structure MeshInv (m : Mesh K) (interest : Option (List Nat)) (k : Nat) (t : MeshTree K) : Prop where
  reach : Reachable k t.h
  len : t.pis.length = t.h.length
  keeps : ∀ (n : Nat) (x : List K) (τ : Nat) (p : List Nat), Cell t.h x n → τ ∈ rootPis m interest → InSimplexBox m k τ x → t.pis[n]? = some p → τ ∈ p
  only : ∀ (n : Nat) (l : List Nat) (p : List Nat), At t.h n l → t.pis[n]? = some p → ∀ τ ∈ p, τ ∈ rootPis m interest ∧
    (n = 0 ∨ ∃ b x, nodeAabb t.h n = .ok b ∧ InSimplexBox m k τ x ∧ InBox b (x.map fin))

omit [CommRing K] [IsStrictOrderedRing K] [Sub (Ext K)] [Mul (Ext K)] [One (Ext K)] in
/-- The box of a node depends only on the inner nodes above it. -/
theorem nodeAabb_stable {k : Nat} {h h' : Heap K} (hr : Inv k h) (hr' : Inv k h')
    (H : ∀ (a : Nat) (nd : Node K) (c d : Nat), h'[a]? = some nd → nd.children = some (c, d) → c < h.length ∨ d < h.length → h[a]? = some nd) {n : Nat} {l : List Nat}
    (ha : At h' n l) (hn : n < h.length) : At h n l ∧ nodeAabb h' n = nodeAabb h n := by
  induction ha with
  | root => exact ⟨At.root, by rw [nodeAabb_root hr, nodeAabb_root hr']⟩
  | @left i l nd a c hat hnd hch ih =>
    obtain ⟨g1, g2, _, _, j, pp, hj1, hj2, hp1, hp2⟩ := hr'.inner _ _ _ _ hnd hch
    obtain ⟨i1, i2⟩ := ih (by omega)
    have hold := H i nd a c hnd hch (Or.inl hn)
    obtain ⟨b0, _, _, hb0⟩ := nodeAabbRec_ok hr i1
    have hb0 : nodeAabb h i = .ok b0 := hb0 _ (lt_of_some hold)
    have hjp : pp[j]? = some pp[j] := by simp
    exact ⟨At.left i1 hold hch, by
      rw [(nodeAabb_step hr' hat hnd hch hj1 hp1 hjp (i2.trans hb0)).1, (nodeAabb_step hr i1 hold hch hj1 hp1 hjp hb0).1]⟩
  | @right i l nd a c hat hnd hch ih =>
    obtain ⟨g1, g2, _, _, j, pp, hj1, hj2, hp1, hp2⟩ := hr'.inner _ _ _ _ hnd hch
    obtain ⟨i1, i2⟩ := ih (by omega)
    have hold := H i nd a c hnd hch (Or.inr hn)
    obtain ⟨b0, _, _, hb0⟩ := nodeAabbRec_ok hr i1
    have hb0 : nodeAabb h i = .ok b0 := hb0 _ (lt_of_some hold)
    have hjp : pp[j]? = some pp[j] := by simp
    exact ⟨At.right i1 hold hch, by
      rw [(nodeAabb_step hr' hat hnd hch hj1 hp1 hjp (i2.trans hb0)).2, (nodeAabb_step hr i1 hold hch hj1 hp1 hjp hb0).2]⟩

omit [CommRing K] [LinearOrder K] [IsStrictOrderedRing K] [Sub (Ext K)] [Mul (Ext K)] [One (Ext K)] in
theorem meshRoot_eq {m : Mesh K} {interest : Option (List Nat)} {t : MeshTree K} (h : meshRoot m interest = .ok t) :
    ∃ v, m.vertices[0]? = some v ∧ t = ⟨createKdTree v.length, [rootPis m interest]⟩ := by
  unfold meshRoot at h
  cases h1 : getE m.vertices 0 with
  | error e => rw [h1] at h; simp at h
  | ok v =>
    rw [h1] at h
    simp only [Py.bind_ok, Py.pure_eq, Except.ok.injEq] at h
    exact ⟨v, getE_eq_ok h1, h.symm⟩

omit [CommRing K] [IsStrictOrderedRing K] in
theorem meshSubdivide_eq {m : Mesh K} {t t' : MeshTree K} {id : Nat} {pp : List K} {i : Int} (h : meshSubdivide m t id pp i = .ok t') :
    ∃ h' p bl br l r, subdivide t.h id pp i = .ok h' ∧ t.pis[id]? = some p ∧ nodeAabb h' t.h.length = .ok bl ∧
      nodeAabb h' (t.h.length + 1) = .ok br ∧ intersectLoop m bl p = .ok l ∧ intersectLoop m br p = .ok r ∧ t' = ⟨h', t.pis ++ [l, r]⟩ := by
  unfold meshSubdivide potentiallyIntersecting at h
  cases h1 : subdivide t.h id pp i with
  | error e => rw [h1] at h; simp at h
  | ok h' =>
    rw [h1] at h
    simp only [Py.bind_ok] at h
    cases h2 : getE t.pis id with
    | error e => rw [h2] at h; simp at h
    | ok p =>
      rw [h2] at h
      simp only [Py.bind_ok] at h
      cases h3 : nodeAabb h' t.h.length with
      | error e => rw [h3] at h; simp at h
      | ok bl =>
        rw [h3] at h
        simp only [Py.bind_ok] at h
        cases h4 : intersectLoop m bl p with
        | error e => rw [h4] at h; simp at h
        | ok l =>
          rw [h4] at h
          simp only [Py.bind_ok] at h
          cases h5 : nodeAabb h' (t.h.length + 1) with
          | error e => rw [h5] at h; simp at h
          | ok br =>
            rw [h5] at h
            simp only [Py.bind_ok] at h
            cases h6 : intersectLoop m br p with
            | error e => rw [h6] at h; simp at h
            | ok r =>
              rw [h6] at h
              simp only [Py.bind_ok, Py.pure_eq, Except.ok.injEq] at h
              exact ⟨h', p, bl, br, l, r, rfl, getE_eq_ok h2, h3, h5, h4, h6, h.symm⟩

theorem MeshReachable.inv {m : Mesh K} {interest : Option (List Nat)} {k : Nat} (hk : ∃ v, m.vertices[0]? = some v)
    (hvert : ∀ v ∈ m.vertices, v.length = k) {t : MeshTree K} (hr : MeshReachable m interest t) : MeshInv m interest k t := by
  induction hr with
  | root h =>
    obtain ⟨v, hv, rfl⟩ := meshRoot_eq h
    have hvk : v.length = k := hvert v (List.mem_of_getElem? hv)
    refine ⟨by rw [hvk]; exact Reachable.create, rfl, ?_, ?_⟩
    · intro n x τ p hc hτ _ hp
      cases n with
      | zero => simp at hp; rw [← hp]; exact hτ
      | succ n => simp at hp
    · intro n l p _ hp τ hτ
      cases n with
      | zero => simp at hp; rw [hp]; exact ⟨hτ, Or.inl rfl⟩
      | succ n => simp at hp
  | @subdivide t t' id pp i _ hs ih =>
    obtain ⟨h', p, bl, br, l, r, h1, h2, h3, h4, h5, h6, rfl⟩ := meshSubdivide_eq hs
    have hreach' : Reachable k h' := Reachable.subdivide id pp i ih.reach h1
    have hinv' := hreach'.inv
    obtain ⟨nd, hn, hleaf, c0, c1, c2, hh'⟩ := subdivide_eq h1
    have hlt := lt_of_some hn
    have hg := fun j => @subdivide_get K t.h id nd
      { nd with planePoint := some pp, planeIdx := some i.toNat, children := some (t.h.length, t.h.length + 1) }
      (newNode (some id) nd.k 0) (newNode (some id) nd.k 1) hn j
    rw [← hh'] at hg
    -- old cells
    have old : ∀ x n, Cell h' x n → n < t.h.length → Cell t.h x n := by
      intro x n hc
      induction hc with
      | root => intro _; exact Cell.root
      | @left a nd' a' b' j pp' y z hc hn' hch hj hp hy hz hle ihc =>
        intro hl
        obtain ⟨q1, q2, _⟩ := hinv'.inner _ _ _ _ hn' hch
        have hne : a ≠ id := by
          rintro rfl
          rw [hg, if_pos rfl] at hn'
          cases hn'
          simp at hch; omega
        rw [hg, if_neg hne, if_neg (by omega), if_neg (by omega)] at hn'
        exact Cell.left (ihc (by omega)) hn' hch hj hp hy hz hle
      | @right a nd' a' b' j pp' y z hc hn' hch hj hp hy hz hle ihc =>
        intro hl
        obtain ⟨q1, q2, _⟩ := hinv'.inner _ _ _ _ hn' hch
        have hne : a ≠ id := by
          rintro rfl
          rw [hg, if_pos rfl] at hn'
          cases hn'
          simp at hch; omega
        rw [hg, if_neg hne, if_neg (by omega), if_neg (by omega)] at hn'
        exact Cell.right (ihc (by omega)) hn' hch hj hp hy hz hle
    have par : ∀ n a nd' a' b', (n = t.h.length ∨ n = t.h.length + 1) → h'[a]? = some nd' → nd'.children = some (a', b') → (n = a' ∨ n = b') → a = id := by
      intro n a nd' a' b' hcase hn' hch hor
      by_contra hne
      rw [hg, if_neg hne] at hn'
      split at hn'
      · cases hn'; simp [newNode] at hch
      · split at hn'
        · cases hn'; simp [newNode] at hch
        · obtain ⟨_, _, ⟨na, q1, _⟩, ⟨nb, q2, _⟩, _⟩ := ih.reach.inv.inner _ _ _ _ hn' hch
          have := lt_of_some q1
          have := lt_of_some q2
          omega
    have hsame : ∀ (a : Nat) (nd' : Node K) (c d : Nat), h'[a]? = some nd' → nd'.children = some (c, d) → c < t.h.length ∨ d < t.h.length →
        t.h[a]? = some nd' := by
      intro a nd' c d hn' hch hor
      have hne : a ≠ id := by
        rintro rfl
        rw [hg, if_pos rfl] at hn'
        cases hn'
        simp at hch; omega
      rw [hg, if_neg hne] at hn'
      split at hn'
      · cases hn'; simp [newNode] at hch
      · split at hn'
        · cases hn'; simp [newNode] at hch
        · exact hn'
    -- the parent of a new cell
    have new : ∀ x n, Cell h' x n → (n = t.h.length ∨ n = t.h.length + 1) → Cell t.h x id := by
      intro x n hc hcase
      cases hc with
      | root => omega
      | left hc hn' hch _ _ _ _ _ =>
        have := par _ _ _ _ _ hcase hn' hch (Or.inl rfl)
        rw [this] at hc
        exact old x id hc hlt
      | right hc hn' hch _ _ _ _ _ =>
        have := par _ _ _ _ _ hcase hn' hch (Or.inr rfl)
        rw [this] at hc
        exact old x id hc hlt
    have hh'len : h'.length = t.h.length + 2 := by rw [hh']; simp
    refine ⟨hreach', by rw [hh'len]; simp [ih.len], ?_, ?_⟩
    rotate_left
    · intro n ln q hat hq τ hτ
      by_cases hnl : n < t.h.length
      · rw [List.getElem?_append_left (by rw [ih.len]; exact hnl)] at hq
        obtain ⟨i1, i2⟩ := nodeAabb_stable ih.reach.inv hinv' hsame hat hnl
        rw [i2]
        exact ih.only n ln q i1 hq τ hτ
      · have hnn : n = t.h.length ∨ n = t.h.length + 1 := by
          have := lt_of_some hq
          rw [List.length_append, ih.len] at this
          simp at this; omega
        obtain ⟨b, hb, hbd, _⟩ := C41_node_aabb hreach' hat
        obtain ⟨lid, atid⟩ : ∃ lid, At t.h id lid := by
          cases hat with
          | root => omega
          | left hat' hn' hch =>
            have := par _ _ _ _ _ hnn hn' hch (Or.inl rfl)
            rw [this] at hat'
            exact ⟨_, (nodeAabb_stable ih.reach.inv hinv' hsame hat' hlt).1⟩
          | right hat' hn' hch =>
            have := par _ _ _ _ _ hnn hn' hch (Or.inr rfl)
            rw [this] at hat'
            exact ⟨_, (nodeAabb_stable ih.reach.inv hinv' hsame hat' hlt).1⟩
        rcases hnn with rfl | rfl
        · rw [h3] at hb; cases hb
          rw [List.getElem?_append_right (by rw [ih.len]), ih.len] at hq
          simp at hq; subst hq
          obtain ⟨g1, x, g2, g3⟩ := (intersectLoop_iff hvert hbd h5 τ).1 hτ
          exact ⟨(ih.only id _ p atid h2 τ g1).1, Or.inr ⟨_, x, h3, g2, g3⟩⟩
        · rw [h4] at hb; cases hb
          rw [List.getElem?_append_right (by rw [ih.len]; omega), ih.len] at hq
          simp at hq; subst hq
          obtain ⟨g1, x, g2, g3⟩ := (intersectLoop_iff hvert hbd h6 τ).1 hτ
          exact ⟨(ih.only id _ p atid h2 τ g1).1, Or.inr ⟨_, x, h4, g2, g3⟩⟩
    intro n x τ q hc hτ hx hq
    have hx1 := hx.1
    by_cases hnl : n < t.h.length
    · rw [List.getElem?_append_left (by rw [ih.len]; exact hnl)] at hq
      exact ih.keeps n x τ q (old x n hc hnl) hτ hx hq
    · have hnn : n = t.h.length ∨ n = t.h.length + 1 := by
        have := lt_of_some hq
        rw [List.length_append, ih.len] at this
        simp at this; omega
      have hpar := ih.keeps id x τ p (new x n hc hnn) hτ hx h2
      obtain ⟨ln, hln⟩ := cell_at hc
      obtain ⟨b, hb, hbd, hbin⟩ := C41_node_aabb hreach' hln
      have hin := hbin x hx1 hc
      rcases hnn with rfl | rfl
      · rw [h3] at hb; cases hb
        rw [List.getElem?_append_right (by rw [ih.len]), ih.len] at hq
        simp at hq; subst hq
        exact (intersectLoop_iff hvert hbd h5 τ).2 ⟨hpar, x, hx, hin⟩
      · rw [h4] at hb; cases hb
        rw [List.getElem?_append_right (by rw [ih.len]; omega), ih.len] at hq
        simp at hq; subst hq
        exact (intersectLoop_iff hvert hbd h6 τ).2 ⟨hpar, x, hx, hin⟩
  | @cut t t' id _ hs ih =>
    unfold meshCut at hs
    cases h1 : cutSubtree t.h id with
    | error e => rw [h1] at hs; simp at hs
    | ok h' =>
      rw [h1] at hs
      simp only [Py.bind_ok, Py.pure_eq, Except.ok.injEq] at hs
      subst hs
      obtain ⟨nd, hn, hh'⟩ := cut_eq h1
      have hg := fun j => @set_get K t.h id nd { nd with planePoint := none, planeIdx := none, children := none } hn j
      rw [← hh'] at hg
      have hrc := Reachable.cut id ih.reach h1
      refine ⟨hrc, by rw [hh']; simp [ih.len], ?_, ?_⟩
      rotate_left
      · intro n ln q hat hq τ hτ
        obtain ⟨i1, i2⟩ := nodeAabb_stable ih.reach.inv hrc.inv (by
          intro a nd' c d hn' hch _
          rw [hg] at hn'
          split at hn'
          · cases hn'; simp at hch
          · exact hn') hat (by rw [← ih.len]; exact lt_of_some hq)
        simp only
        rw [i2]
        exact ih.only n ln q i1 hq τ hτ
      intro n x τ q hc hτ hx hq
      refine ih.keeps n x τ q ?_ hτ hx hq
      clear hq
      induction hc with
      | root => exact Cell.root
      | @left a nd' a' b' j pp' y z hc hn' hch hj hp hy hz hle ihc =>
        rw [hg] at hn'
        split at hn'
        · cases hn'; simp at hch
        · exact Cell.left ihc hn' hch hj hp hy hz hle
      | @right a nd' a' b' j pp' y z hc hn' hch hj hp hy hz hle ihc =>
        rw [hg] at hn'
        split at hn'
        · cases hn'; simp at hch
        · exact Cell.right ihc hn' hch hj hp hy hz hle

/-- C42: in every mesh tree that can be built, whatever the splitting planes, a simplex (of interest) is listed in the leaf in which each of its
points is found, and in every node whose cell contains one of its points. -/
theorem C42_complete {m : Mesh K} {interest : Option (List Nat)} {k : Nat} (hk : ∃ v, m.vertices[0]? = some v)
    (hvert : ∀ v ∈ m.vertices, v.length = k) {t : MeshTree K} (hr : MeshReachable m interest t) (τ : Nat) (hτ : OfInterest m interest τ)
    (x : List K) (hx : InMeshSimplex m k τ x) :
    (∃ n nd p, findLeaf t.h 0 x = .ok n ∧ t.h[n]? = some nd ∧ nd.children = none ∧ t.pis[n]? = some p ∧ τ ∈ p) ∧
    ∀ n l, At t.h n l → inNodeSpace t.h n x = .ok true → ∃ p, t.pis[n]? = some p ∧ τ ∈ p := by
  have inv := MeshReachable.inv hk hvert hr
  have get : ∀ n l, At t.h n l → ∃ p, t.pis[n]? = some p := by
    intro n l hl
    have := hl.lt inv.reach.inv
    exact ⟨t.pis[n]'(by rw [inv.len]; exact this), by simp⟩
  have second : ∀ n l, At t.h n l → inNodeSpace t.h n x = .ok true → ∃ p, t.pis[n]? = some p ∧ τ ∈ p := by
    intro n l hl hin
    obtain ⟨r, h1, h2⟩ := C41_in_node_space inv.reach x hx.1 hl
    rw [hin] at h1
    obtain ⟨p, hp⟩ := get n l hl
    exact ⟨p, hp, inv.keeps n x τ p (h2.1 (by cases h1; rfl)) (mem_rootPis.2 hτ) (hx.box hvert) hp⟩
  refine ⟨?_, second⟩
  obtain ⟨n, nd, l, h1, h2, h3, h4, h5⟩ := C41_find_leaf inv.reach x hx.1
  obtain ⟨p, hp, hm⟩ := second n l h2 h5
  exact ⟨n, nd, p, h1, h3, h4, hp, hm⟩

/-- C42, how the lists are made: in every mesh tree that can be built, a simplex is listed in a node other than the root only if it is listed in the root
and its bounding box meets the box of the node; and it is listed if it is of interest and its bounding box meets the cell of the node. -/
theorem C42_listed {m : Mesh K} {interest : Option (List Nat)} {k : Nat} (hk : ∃ v, m.vertices[0]? = some v)
    (hvert : ∀ v ∈ m.vertices, v.length = k) {t : MeshTree K} (hr : MeshReachable m interest t) {n : Nat} {l : List Nat} (ha : At t.h n l) :
    ∃ b p, nodeAabb t.h n = .ok b ∧ t.pis[n]? = some p ∧
      (∀ τ ∈ p, OfInterest m interest τ ∧ (n = 0 ∨ ∃ x, InSimplexBox m k τ x ∧ InBox b (x.map fin))) ∧
      ∀ τ, OfInterest m interest τ → (∃ x, InSimplexBox m k τ x ∧ inNodeSpace t.h n x = .ok true) → τ ∈ p := by
  have inv := MeshReachable.inv hk hvert hr
  have hlt := ha.lt inv.reach.inv
  have hp : t.pis[n]? = some (t.pis[n]'(by rw [inv.len]; exact hlt)) := by simp
  obtain ⟨b, hb, _⟩ := C41_node_aabb inv.reach ha
  refine ⟨b, _, hb, hp, ?_, ?_⟩
  · intro τ hτ
    obtain ⟨h1, h2⟩ := inv.only n l _ ha hp τ hτ
    refine ⟨mem_rootPis.1 h1, h2.imp_right ?_⟩
    rintro ⟨b', x, h3, h4, h5⟩
    rw [hb] at h3; cases h3
    exact ⟨x, h4, h5⟩
  · rintro τ hτ ⟨x, hx, hin⟩
    obtain ⟨r, h1, h2⟩ := C41_in_node_space inv.reach x hx.1 ha
    rw [hin] at h1
    exact inv.keeps n x τ _ (h2.1 (by cases h1; rfl)) (mem_rootPis.2 hτ) hx hp

/-- C42, the lists are exact: if every splitting plane meets the box of the node that it splits, then the list of a node other than the root consists of exactly the
simplices (of interest) whose bounding box meets the cell of the node. -/
theorem C42_listed_exact {m : Mesh K} {interest : Option (List Nat)} {k : Nat} (hk : ∃ v, m.vertices[0]? = some v)
    (hvert : ∀ v ∈ m.vertices, v.length = k) {t : MeshTree K} (hr : MeshReachable m interest t)
    (hplane : ∀ (i : Nat) (l : List Nat) (nd : Node K) (j : Nat) (pp : List K) (z : K) (b : Box (Ext K)) (u v : Ext K), At t.h i l → t.h[i]? = some nd →
      nd.planeIdx = some j → nd.planePoint = some pp → pp[j]? = some z → nodeAabb t.h i = .ok b → b.1[j]? = some u → b.2[j]? = some v →
      u ≤ fin z ∧ fin z ≤ v)
    {n : Nat} {l : List Nat} (ha : At t.h n l) (hn : n ≠ 0) :
    ∃ p, t.pis[n]? = some p ∧ ∀ τ, τ ∈ p ↔ OfInterest m interest τ ∧ ∃ x, InSimplexBox m k τ x ∧ inNodeSpace t.h n x = .ok true := by
  have inv := MeshReachable.inv hk hvert hr
  obtain ⟨b, p, hb, hp, h1, h2⟩ := C42_listed hk hvert hr ha
  obtain ⟨b', hb', h3⟩ := C41_node_aabb_exact inv.reach hplane ha
  rw [hb] at hb'; cases hb'
  refine ⟨p, hp, fun τ => ⟨fun hτ => ?_, fun h => h2 τ h.1 h.2⟩⟩
  obtain ⟨g1, g2⟩ := h1 τ hτ
  obtain ⟨x, hx, hbx⟩ := g2.resolve_left hn
  exact ⟨g1, x, hx, (h3 x hx.1).1 hbx⟩

theorem recurseRec_reachable {m : Mesh K} {interest : Option (List Nat)} {fn : MeshTree K → Nat → Py (MeshTree K)}
    (hfn : ∀ t id t', MeshReachable m interest t → fn t id = .ok t' → MeshReachable m interest t') :
    ∀ f t id t', MeshReachable m interest t → recurseRec fn f t id = .ok t' → MeshReachable m interest t' := by
  intro f
  induction f with
  | zero => intro t id t' _ h; simp [recurseRec] at h
  | succ f ih =>
    intro t id t' hr h
    unfold recurseRec at h
    cases h1 : fn t id with
    | error e => rw [h1] at h; simp at h
    | ok t1 =>
      rw [h1] at h
      simp only [Py.bind_ok] at h
      have hr1 := hfn _ _ _ hr h1
      cases h2 : getE t1.h id with
      | error e => rw [h2] at h; simp at h
      | ok nd =>
        rw [h2] at h
        simp only [Py.bind_ok] at h
        cases h3 : nd.children with
        | none => rw [h3] at h; simp at h; rw [← h]; exact hr1
        | some ab =>
          obtain ⟨a, b⟩ := ab
          rw [h3] at h
          simp only at h
          cases h4 : recurseRec fn f t1 a with
          | error e => rw [h4] at h; simp at h
          | ok t2 =>
            rw [h4] at h
            simp only [Py.bind_ok] at h
            exact ih _ _ _ (ih _ _ _ hr1 h4) h

theorem subdivideFn_cases (m : Mesh K) (split : List Nat → Py (List K × Int)) (fixedDepth : Bool) (maxDepth : Nat) (maxSimplices : Option Nat)
    (t t' : MeshTree K) (id : Nat) (h : subdivideFn m split fixedDepth maxDepth maxSimplices t id = .ok t') :
    t' = t ∨ ∃ pp i, meshSubdivide m t id pp i = .ok t' := by
  unfold subdivideFn at h
  cases h1 : depth t.h id with
  | error e => rw [h1] at h; simp at h
  | ok d =>
    rw [h1] at h
    simp only [Py.bind_ok] at h
    split at h
    · left; simp at h; exact h.symm
    · cases h2 : getE t.pis id with
      | error e => rw [h2] at h; simp at h
      | ok p =>
        rw [h2] at h
        simp only [Py.bind_ok] at h
        split at h
        · left; simp at h; exact h.symm
        · cases hst : stopTest fixedDepth maxSimplices p.length with
          | error e => rw [hst] at h; simp at h
          | ok stop =>
            rw [hst] at h
            simp only [Py.bind_ok] at h
            split at h
            · left; simp at h; exact h.symm
            · cases h3 : split p with
              | error e => rw [h3] at h; simp at h
              | ok q =>
                rw [h3] at h
                simp only [Py.bind_ok] at h
                exact Or.inr ⟨_, _, h⟩

/-- C42: the trees returned by `create_kd_tree` are among those of `C42_complete`, for every rule that chooses the splitting planes. -/
theorem C42_create_kd_tree {m : Mesh K} {split : List Nat → Py (List K × Int)} {fixedDepth : Bool} {maxDepth : Nat} {maxSimplices : Option Nat}
    {interest : Option (List Nat)} {t : MeshTree K} (h : createMeshTree m split fixedDepth maxDepth maxSimplices interest = .ok t) :
    MeshReachable m interest t := by
  unfold createMeshTree at h
  cases h1 : meshRoot m interest with
  | error e => rw [h1] at h; simp at h
  | ok t0 =>
    rw [h1] at h
    simp only [Py.bind_ok] at h
    refine recurseRec_reachable ?_ _ _ _ _ (MeshReachable.root h1) h
    intro t id t' hr hf
    rcases subdivideFn_cases m split fixedDepth maxDepth maxSimplices t t' id hf with rfl | ⟨pp, i, hs⟩
    · exact hr
    · exact MeshReachable.subdivide id pp i hr hs

omit [IsStrictOrderedRing K] in
theorem intersectLoop_ok {m : Mesh K} {k : Nat} (hvert : ∀ v ∈ m.vertices, v.length = k)
    (hmesh : ∀ s ∈ m.simplices, s ≠ [] ∧ ∀ i ∈ s, i < m.vertices.length) {aabb : Box (Ext K)} (hab : BoxDim aabb k) (l : List Nat)
    (hl : ∀ i ∈ l, i < m.simplices.length) : ∃ r, intersectLoop m aabb l = .ok r ∧ ∀ i ∈ r, i ∈ l := by
  induction l with
  | nil => exact ⟨[], rfl, by simp⟩
  | cons i is ih =>
    obtain ⟨rest, h6, h7⟩ := ih (fun j hj => hl j (by simp [hj]))
    have hi := hl i (by simp)
    obtain ⟨hne, hs⟩ := hmesh m.simplices[i] (List.getElem_mem hi)
    obtain ⟨v, hv⟩ : ∃ v, Complex.simplexVertices m.simplices[i] m.vertices = .ok v := by
      unfold Complex.simplexVertices
      obtain ⟨a, s, he⟩ := List.exists_cons_of_ne_nil hne
      have : 0 < m.vertices.length := by have := hs a (by rw [he]; simp); omega
      rw [getE_ok this]
      simp only [Py.bind_ok]
      exact ⟨_, mapM_eq_ok (fun i => m.vertices.getD i []) _ (fun j hj => by
        rw [getE_ok (hs j hj), List.getD_eq_getElem _ _ (hs j hj)])⟩
    obtain ⟨hvl, hvm⟩ := simplexVertices_mem hv
    obtain ⟨b, hb, hbd, _, _⟩ := C40_create v (by
      intro h0; rw [h0] at hvl
      simp at hvl; exact hne (List.length_eq_zero_iff.1 hvl.symm)) (fun p hp => hvert p (hvm p hp))
    have hbd' : BoxDim ((b.1.map fin, b.2.map fin) : Box (Ext K)) k := ⟨by simpa using hbd.1, by simpa using hbd.2⟩
    obtain ⟨c, hc, hcd, _⟩ := C40_intersection hab hbd'
    obtain ⟨e, he, _, _⟩ := C40_is_empty (α := Ext K) hcd
    unfold intersectLoop
    rw [getE_ok hi]
    simp only [Py.bind_ok, hv, hb, hc, he, h6]
    refine ⟨_, rfl, ?_⟩
    intro j hj
    split at hj
    · rcases List.mem_cons.1 hj with rfl | hj
      · simp
      · simp [h7 j hj]
    · simp [h7 j hj]

/-- C42: for a valid mesh and a rule that gives valid planes, `create_kd_tree` terminates and returns a tree (with the maximum depth respected), provided that either
`fixed_depth` is True or `max_simplices_in_leaf` is given. A node is left undivided exactly when it has the maximum depth, no simplex can intersect it, or
(without `fixed_depth`) at most `max_simplices_in_leaf` simplices can. -/
theorem C42_create_ok {m : Mesh K} {k : Nat} (hk : ∃ v, m.vertices[0]? = some v) (hvert : ∀ v ∈ m.vertices, v.length = k)
    (hmesh : ∀ s ∈ m.simplices, s ≠ [] ∧ ∀ i ∈ s, i < m.vertices.length) (split : List Nat → Py (List K × Int))
    (hsplit : ∀ l, l ≠ [] → (∀ i ∈ l, i < m.simplices.length) → ∃ pp i, split l = .ok (pp, i) ∧ pp.length = k ∧ 0 ≤ i ∧ i < k)
    (fixedDepth : Bool) (maxDepth : Nat) (maxSimplices : Option Nat) (hstop : fixedDepth = true ∨ maxSimplices ≠ none)
    (interest : Option (List Nat)) (hint : ∀ l, interest = some l → ∀ i ∈ l, i < m.simplices.length) :
    ∃ t, createMeshTree m split fixedDepth maxDepth maxSimplices interest = .ok t ∧ (∀ n l, At t.h n l → l.length ≤ maxDepth + 1) ∧
      ∀ n l nd, At t.h n l → t.h[n]? = some nd → ∃ p, t.pis[n]? = some p ∧
        (nd.children = none ↔ l.length = maxDepth + 1 ∨ p = [] ∨ (fixedDepth = false ∧ ∃ k, maxSimplices = some k ∧ p.length ≤ k)) := by
  replace hint : ∀ i ∈ rootPis m interest, i < m.simplices.length := fun i hi => by
    rcases mem_rootPis.1 hi with ⟨_, h⟩ | ⟨l, h1, h2⟩
    · exact h
    · exact hint l h1 i h2
  set Stop : List Nat → List Nat → Prop := fun l p => l.length = maxDepth + 1 ∨ p = [] ∨ (fixedDepth = false ∧ ∃ k, maxSimplices = some k ∧ p.length ≤ k) with hStop
  have step : ∀ (t : MeshTree K) (id : Nat) (l : List Nat) (nd : Node K), MeshReachable m interest t → At t.h id l → t.h[id]? = some nd →
      nd.children = none → (∀ p ∈ t.pis, ∀ i ∈ p, i < m.simplices.length) →
      ∃ t', subdivideFn m split fixedDepth maxDepth maxSimplices t id = .ok t' ∧
        ((t' = t ∧ ∀ p, t.pis[id]? = some p → Stop l p) ∨
          ((∀ p, t.pis[id]? = some p → ¬ Stop l p) ∧ l.length ≠ maxDepth + 1 ∧ ∃ pp i, meshSubdivide m t id pp i = .ok t')) ∧
        (∀ p ∈ t'.pis, ∀ i ∈ p, i < m.simplices.length) := by
    intro t id l nd hr hat hn hleaf hpis
    have inv := MeshReachable.inv hk hvert hr
    have hlt := lt_of_some hn
    have hd := (C41_address inv.reach hat).2.2
    have hl0 : 0 < l.length := by cases hat <;> simp
    unfold subdivideFn
    rw [hd]
    simp only [Py.bind_ok]
    split
    · rename_i hdep
      exact ⟨t, rfl, Or.inl ⟨rfl, fun p _ => Or.inl (by omega)⟩, hpis⟩
    · rename_i hdep
      have hp : t.pis[id]? = some (t.pis[id]'(by rw [inv.len]; exact hlt)) := by simp
      generalize t.pis[id]'(by rw [inv.len]; exact hlt) = p at hp
      have hpm := hpis p (List.mem_of_getElem? hp)
      rw [getE_some hp]
      simp only [Py.bind_ok]
      split
      · rename_i hemp
        exact ⟨t, rfl, Or.inl ⟨rfl, fun q hq => Or.inr (Or.inl (by rw [hp] at hq; cases hq; simpa using hemp))⟩, hpis⟩
      · rename_i hemp
        obtain ⟨stop, hst⟩ : ∃ stop, stopTest fixedDepth maxSimplices p.length = .ok stop := by
          unfold stopTest
          rcases hstop with h | h
          · rw [if_pos h]; exact ⟨_, rfl⟩
          · cases maxSimplices with
            | none => exact absurd rfl h
            | some n => split <;> exact ⟨_, rfl⟩
        rw [hst]
        simp only [Py.bind_ok]
        split
        · rename_i hstp
          refine ⟨t, rfl, Or.inl ⟨rfl, fun q hq => Or.inr (Or.inr ?_)⟩, hpis⟩
          rw [hp] at hq; cases hq
          subst hstp
          unfold stopTest at hst
          cases fixedDepth with
          | true => simp at hst
          | false =>
            cases maxSimplices with
            | none => simp at hst
            | some k => exact ⟨rfl, k, rfl, by simpa using hst⟩
        · rename_i hstp
          have hnot : ∀ q, t.pis[id]? = some q → ¬ Stop l q := by
            intro q hq
            rw [hp] at hq; cases hq
            rintro (h | h | ⟨h, k, h', h''⟩)
            · omega
            · exact hemp (by simp [h])
            · subst h h'
              simp only [stopTest] at hst
              simp [h''] at hst
              exact hstp hst
          obtain ⟨pp, i, hs1, hs2, hs3, hs4⟩ := hsplit p (by simpa using hemp) hpm
          rw [hs1]
          simp only [Py.bind_ok]
          have hndk := inv.reach.inv.dim _ _ hn
          obtain ⟨h', _, _, _, hsub, _⟩ := (C41_subdivide hn pp i).2.2 hleaf hs3 (by rw [hndk]; exact hs4) (by rw [hndk]; exact hs2)
          have hreach' : Reachable k h' := Reachable.subdivide id pp i inv.reach hsub
          obtain ⟨nd0, hn0, _, _, _, _, hh'⟩ := subdivide_eq hsub
          rw [hn] at hn0; cases hn0
          have hg := fun j => @subdivide_get K t.h id nd
            { nd with planePoint := some pp, planeIdx := some i.toNat, children := some (t.h.length, t.h.length + 1) }
            (newNode (some id) nd.k 0) (newNode (some id) nd.k 1) hn j
          rw [← hh'] at hg
          have hAt : At h' id l := by
            clear hd hl0 hpis hdep hp hpm hemp hst hnot
            have mono : ∀ n l, At t.h n l → At h' n l := by
              intro n l ha
              induction ha with
              | root => exact At.root
              | @left j l nj a b _ hnj hc ihh =>
                have hne : j ≠ id := by rintro rfl; rw [hn] at hnj; cases hnj; rw [hleaf] at hc; simp at hc
                have := lt_of_some hnj
                exact At.left ihh (by rw [hg, if_neg hne, if_neg (by omega), if_neg (by omega)]; exact hnj) hc
              | @right j l nj a b _ hnj hc ihh =>
                have hne : j ≠ id := by rintro rfl; rw [hn] at hnj; cases hnj; rw [hleaf] at hc; simp at hc
                have := lt_of_some hnj
                exact At.right ihh (by rw [hg, if_neg hne, if_neg (by omega), if_neg (by omega)]; exact hnj) hc
            exact mono id l hat
          have hid' : h'[id]? = some { nd with planePoint := some pp, planeIdx := some i.toNat, children := some (t.h.length, t.h.length + 1) } := by
            rw [hg, if_pos rfl]
          obtain ⟨bl, hbl, hbld, _⟩ := C41_node_aabb hreach' (At.left hAt hid' rfl)
          obtain ⟨br, hbr, hbrd, _⟩ := C41_node_aabb hreach' (At.right hAt hid' rfl)
          obtain ⟨lq, hlq, hlm⟩ := intersectLoop_ok hvert hmesh hbld p hpm
          obtain ⟨rq, hrq, hrm⟩ := intersectLoop_ok hvert hmesh hbrd p hpm
          have : meshSubdivide m t id pp i = .ok ⟨h', t.pis ++ [lq, rq]⟩ := by
            unfold meshSubdivide potentiallyIntersecting
            rw [hsub, getE_some hp]
            simp only [Py.bind_ok, hbl, hbr, hlq, hrq, Py.pure_eq]
          refine ⟨_, this, Or.inr ⟨hnot, by omega, pp, i, this⟩, ?_⟩
          intro q hq j hj
          rcases List.mem_append.1 hq with hq | hq
          · exact hpis q hq j hj
          · simp only [List.mem_cons, List.not_mem_nil, or_false] at hq
            rcases hq with rfl | rfl
            · exact hpm j (hlm j hj)
            · exact hpm j (hrm j hj)
  have hrec : ∀ f (t : MeshTree K) (id : Nat) (l : List Nat) (nd : Node K), MeshReachable m interest t → At t.h id l → t.h[id]? = some nd →
      nd.children = none → (∀ p ∈ t.pis, ∀ i ∈ p, i < m.simplices.length) → (∀ n l', At t.h n l' → l'.length ≤ maxDepth + 1) →
      maxDepth + 1 < f + l.length →
      ∃ t', recurseRec (subdivideFn m split fixedDepth maxDepth maxSimplices) f t id = .ok t' ∧ MeshReachable m interest t' ∧
        (∀ p ∈ t'.pis, ∀ i ∈ p, i < m.simplices.length) ∧ (∀ j, j ≠ id → j < t.h.length → t'.h[j]? = t.h[j]?) ∧ t.h.length ≤ t'.h.length ∧
        (∀ n l', At t'.h n l' → l'.length ≤ maxDepth + 1) ∧ (∀ n l', At t.h n l' → At t'.h n l') ∧
        (∀ j, j < t.h.length → t'.pis[j]? = t.pis[j]?) ∧
        (∀ j, j = id ∨ t.h.length ≤ j → j < t'.h.length → ∃ l' nd' p, At t'.h j l' ∧ t'.h[j]? = some nd' ∧ t'.pis[j]? = some p ∧
          (nd'.children = none ↔ Stop l' p)) := by
    intro f
    induction f with
    | zero => intro t id l nd _ hat _ _ _ h1 h2; have := h1 id l hat; omega
    | succ f ih =>
      intro t id l nd hr hat hn hleaf hpis h1 h2
      obtain ⟨t1, e1, e2, e3⟩ := step t id l nd hr hat hn hleaf hpis
      unfold recurseRec
      rw [e1]
      simp only [Py.bind_ok]
      rcases e2 with ⟨rfl, hst⟩ | ⟨hst, hdep, pp, i, hs⟩
      · rw [getE_some hn]
        simp only [Py.bind_ok, hleaf]
        refine ⟨t1, rfl, hr, e3, fun _ _ _ => rfl, le_refl _, h1, fun n l' h => h, fun _ _ => rfl, ?_⟩
        intro j hj hlt
        have hj : j = id := by omega
        subst hj
        have hp : t1.pis[j]? = some (t1.pis[j]'(by rw [(MeshReachable.inv hk hvert hr).len]; exact hlt)) := by simp
        exact ⟨l, nd, _, hat, hn, hp, by simp [hleaf, hst _ hp]⟩
      · have hr1 := MeshReachable.subdivide id pp i hr hs
        have hll := h1 id l hat
        have hlen := (MeshReachable.inv hk hvert hr).len
        obtain ⟨h', p, bl, br, lq, rq, hsub, hpp, _, _, _, _, rfl⟩ := meshSubdivide_eq hs
        have hlt := lt_of_some hn
        obtain ⟨nd0, hn0, _, _, _, _, hh'⟩ := subdivide_eq hsub
        rw [hn] at hn0; cases hn0
        have hg := fun j => @subdivide_get K t.h id nd
          { nd with planePoint := some pp, planeIdx := some i.toNat, children := some (t.h.length, t.h.length + 1) }
          (newNode (some id) nd.k 0) (newNode (some id) nd.k 1) hn j
        rw [← hh'] at hg
        have hlen' : h'.length = t.h.length + 2 := by rw [hh']; simp
        have mono : ∀ n l, At t.h n l → At h' n l := by
          intro n l ha
          induction ha with
          | root => exact At.root
          | @left j l nj a b _ hnj hc ihh =>
            have hne : j ≠ id := by rintro rfl; rw [hn] at hnj; cases hnj; rw [hleaf] at hc; simp at hc
            have := lt_of_some hnj
            exact At.left ihh (by rw [hg, if_neg hne, if_neg (by omega), if_neg (by omega)]; exact hnj) hc
          | @right j l nj a b _ hnj hc ihh =>
            have hne : j ≠ id := by rintro rfl; rw [hn] at hnj; cases hnj; rw [hleaf] at hc; simp at hc
            have := lt_of_some hnj
            exact At.right ihh (by rw [hg, if_neg hne, if_neg (by omega), if_neg (by omega)]; exact hnj) hc
        have hid' : h'[id]? = some { nd with planePoint := some pp, planeIdx := some i.toNat, children := some (t.h.length, t.h.length + 1) } := by
          rw [hg, if_pos rfl]
        have hatA := At.left (mono id l hat) hid' rfl
        have hatB := At.right (mono id l hat) hid' rfl
        have hA : h'[t.h.length]? = some (newNode (some id) nd.k 0) := by rw [hg, if_neg (by omega), if_pos rfl]
        have hB : h'[t.h.length + 1]? = some (newNode (some id) nd.k 1) := by rw [hg, if_neg (by omega), if_neg (by omega), if_pos rfl]
        have hinv := (MeshReachable.inv hk hvert hr).reach.inv
        have hinv' := (MeshReachable.inv hk hvert hr1).reach.inv
        simp only at hinv'
        have hdeep : ∀ n l', At h' n l' → l'.length ≤ maxDepth + 1 := by
          have uniq : ∀ l2, At h' id l2 → l2 = l := by
            intro l2 h2
            have k1 := (addressRec_at hinv' (mono id l hat) (id + 1) (by omega)).1
            have k2 := (addressRec_at hinv' h2 (id + 1) (by omega)).1
            rw [k1] at k2; cases k2; rfl
          have key : ∀ n l', At h' n l' → l'.length ≤ maxDepth + 1 ∧ (n < t.h.length → At t.h n l') := by
            intro n l' ha
            induction ha with
            | root => exact ⟨by simp, fun _ => At.root⟩
            | @left j l2 nj a b haj hnj hc ihh =>
              obtain ⟨g1, g2, _⟩ := hinv'.inner _ _ _ _ hnj hc
              by_cases hj : j = id
              · subst hj
                rw [hid'] at hnj; cases hnj
                simp only [Option.some.injEq, Prod.mk.injEq] at hc
                refine ⟨by rw [uniq l2 haj]; simp; omega, fun hlt2 => by omega⟩
              · rw [hg, if_neg hj] at hnj
                split at hnj
                · cases hnj; simp [newNode] at hc
                · split at hnj
                  · cases hnj; simp [newNode] at hc
                  · have := lt_of_some hnj
                    have := At.left (ihh.2 (by omega)) hnj hc
                    exact ⟨h1 _ _ this, fun _ => this⟩
            | @right j l2 nj a b haj hnj hc ihh =>
              obtain ⟨g1, g2, _⟩ := hinv'.inner _ _ _ _ hnj hc
              by_cases hj : j = id
              · subst hj
                rw [hid'] at hnj; cases hnj
                simp only [Option.some.injEq, Prod.mk.injEq] at hc
                refine ⟨by rw [uniq l2 haj]; simp; omega, fun hlt2 => by omega⟩
              · rw [hg, if_neg hj] at hnj
                split at hnj
                · cases hnj; simp [newNode] at hc
                · split at hnj
                  · cases hnj; simp [newNode] at hc
                  · have := lt_of_some hnj
                    have := At.right (ihh.2 (by omega)) hnj hc
                    exact ⟨h1 _ _ this, fun _ => this⟩
          exact fun n l' h => (key n l' h).1
        rw [getE_some hid']
        simp only [Py.bind_ok]
        obtain ⟨t2, q1, q2, q3, q4, q5, q6, q7, q8, q9⟩ := ih ⟨h', t.pis ++ [lq, rq]⟩ t.h.length _ _ hr1 hatA hA rfl e3 hdeep (by simp; omega)
        rw [q1]
        simp only [Py.bind_ok]
        have hB2 : t2.h[t.h.length + 1]? = some (newNode (some id) nd.k 1) := by
          rw [q4 (t.h.length + 1) (by omega) (by simp only; omega)]; exact hB
        obtain ⟨t3, r1, r2, r3, r4, r5, r6, r7, r8, r9⟩ := ih t2 (t.h.length + 1) _ _ q2 (q7 _ _ hatB) hB2 rfl q3 q6 (by simp; omega)
        simp only at q5
        have hpis3 : ∀ j, j < t.h.length → t3.pis[j]? = t.pis[j]? := by
          intro j hj
          rw [r8 j (by omega), q8 j (by simp only; omega)]
          exact List.getElem?_append_left (by omega)
        refine ⟨t3, r1, r2, r3, ?_, by omega, r6, fun n l' h => r7 _ _ (q7 _ _ (mono _ _ h)), hpis3, ?_⟩
        · intro j hj hl
          rw [r4 j (by omega) (by omega), q4 j (by omega) (by simp only; omega)]
          simp only
          rw [hg, if_neg hj, if_neg (by omega), if_neg (by omega)]
        · intro j hj hl
          by_cases hjid : j = id
          · subst hjid
            have hp : t.pis[j]? = some (t.pis[j]'(by omega)) := by simp
            refine ⟨l, { nd with planePoint := some pp, planeIdx := some i.toNat, children := some (t.h.length, t.h.length + 1) }, _,
              r7 _ _ (q7 _ _ (mono _ _ hat)), ?_, (hpis3 j hlt).trans hp, ?_⟩
            · rw [r4 j (by omega) (by omega), q4 j (by omega) (by simp only; omega)]
              exact hid'
            · simp [hst _ hp]
          · by_cases hb : j = t.h.length + 1 ∨ t2.h.length ≤ j
            · exact r9 j hb hl
            · obtain ⟨l', nd', p', g1, g2, g3, g4⟩ := q9 j (by simp only; omega) (by omega)
              exact ⟨l', nd', p', r7 _ _ g1, by rw [r4 j (by omega) (by omega)]; exact g2, by rw [r8 j (by omega)]; exact g3, g4⟩
  obtain ⟨v, hv⟩ := hk
  have h0 : meshRoot m interest = .ok ⟨createKdTree v.length, [rootPis m interest]⟩ := by
    unfold meshRoot; rw [getE_some hv]; rfl
  have hrt := MeshReachable.root h0
  obtain ⟨t, e1, e3, _, _, _, e2, _, _, e4⟩ := hrec (maxDepth + 1) ⟨createKdTree v.length, [rootPis m interest]⟩ 0 [0] (newNode none v.length 0) (MeshReachable.root h0)
    At.root rfl rfl (by simpa using hint) (by
      intro n l hat
      have : ∀ n l, At (createKdTree v.length : Heap K) n l → l = [0] := by
        intro n l ha
        cases ha with
        | root => rfl
        | @left i _ _ _ _ _ hn hc =>
          cases i with
          | zero => simp [createKdTree] at hn; rw [← hn] at hc; simp [newNode] at hc
          | succ i => simp [createKdTree] at hn
        | @right i _ _ _ _ _ hn hc =>
          cases i with
          | zero => simp [createKdTree] at hn; rw [← hn] at hc; simp [newNode] at hc
          | succ i => simp [createKdTree] at hn
      rw [this n l hat]; simp) (by simp)
  refine ⟨t, ?_, e2, ?_⟩
  · unfold createMeshTree
    rw [h0]
    exact e1
  · intro n l nd hat hn
    obtain ⟨l', nd', p, g1, g2, g3, g4⟩ := e4 n (by
      rcases Nat.eq_zero_or_pos n with h | h
      · exact Or.inl h
      · exact Or.inr (by simp [createKdTree]; omega)) (lt_of_some hn)
    rw [hn] at g2; cases g2
    have hinv := (MeshReachable.inv ⟨v, hv⟩ hvert e3).reach.inv
    have k1 := (addressRec_at hinv hat (n + 1) (by omega)).1
    have k2 := (addressRec_at hinv g1 (n + 1) (by omega)).1
    rw [k1] at k2; cases k2
    exact ⟨p, g3, g4⟩

omit [CommRing K] [IsStrictOrderedRing K] in
/-- C42, an error: with the default arguments (`fixed_depth=False`, `max_simplices_in_leaf=None`, maximum depth 5) `create_kd_tree` raises TypeError for every
mesh with at least one simplex. -/
theorem C42_default_arguments (m : Mesh K) (split : List Nat → Py (List K × Int)) (maxDepth : Nat) (hd : 0 < maxDepth)
    (hv : m.vertices ≠ []) (hs : m.simplices ≠ []) : createMeshTree m split false maxDepth none none = .error .type := by
  obtain ⟨v, vs, hv'⟩ := List.exists_cons_of_ne_nil hv
  obtain ⟨s, ss, hs'⟩ := List.exists_cons_of_ne_nil hs
  have h1 : meshRoot m none = .ok ⟨createKdTree v.length, [rootPis m none]⟩ := by
    unfold meshRoot; rw [hv']; rfl
  have h2 : (rootPis m none).isEmpty = false := by
    unfold rootPis; rw [hs']; simp
  unfold createMeshTree
  rw [h1]
  simp only [Py.bind_ok]
  unfold recurseRec
  have : subdivideFn m split false maxDepth none ⟨createKdTree v.length, [rootPis m none]⟩ 0 = .error .type := by
    unfold subdivideFn
    have hdep : depth (createKdTree v.length : Heap K) 0 = .ok 0 := rfl
    simp only [hdep, Py.bind_ok]
    rw [if_neg (by omega)]
    simp only [getE, List.getElem?_cons_zero, Py.bind_ok, h2]
    rfl
  rw [this]; rfl

end

/-- Two triangles that form a square. -/
def exampleMesh : Mesh Int := ⟨[[0, 1, 2], [1, 3, 2]], [[0, 0], [4, 0], [0, 4], [4, 4]]⟩

/-- A concrete mesh and splitting rule to which the theorems apply: the point (1, 3) belongs to both triangles. -/
example : letI : Sub (Ext Int) := ⟨fun a _ => a⟩
    letI : Mul (Ext Int) := ⟨fun a _ => a⟩
    letI : One (Ext Int) := ⟨fin 1⟩
    ∃ t, createMeshTree exampleMesh (fun _ => .ok ([2, 2], 0)) true 2 none none = .ok t ∧ findLeaf t.h 0 [1, 3] = .ok 3 ∧ t.pis[3]? = some [0, 1] ∧
      InMeshSimplex exampleMesh 2 0 [0, 4] := by
  refine ⟨_, rfl, rfl, rfl, rfl, _, _, rfl, rfl, [0, 0, 1], rfl, by decide, rfl, ?_⟩
  decide

/-- A leaf holds at most `max_simplices_in_leaf` triangles unless it has the maximum depth: four separate segments, at most two in a leaf, so that
one split is enough. -/
example : letI : Sub (Ext Int) := ⟨fun a _ => a⟩
    letI : Mul (Ext Int) := ⟨fun a _ => a⟩
    letI : One (Ext Int) := ⟨fin 1⟩
    ∃ t, createMeshTree (⟨[[0, 1], [2, 3], [4, 5], [6, 7]], [[0], [2], [4], [6], [10], [12], [14], [16]]⟩ : Mesh Int) (fun _ => .ok ([8], 0)) false 5
      (some 2) none = .ok t ∧ t.h.length = 3 ∧ t.pis = [[0, 1, 2, 3], [0, 1], [2, 3]] := ⟨_, rfl, rfl, rfl⟩

/-- The hypothesis of `C42_listed_exact` about the splitting planes holds for one split of the square. -/
example : letI : Sub (Ext Int) := ⟨fun a _ => a⟩
    letI : Mul (Ext Int) := ⟨fun a _ => a⟩
    letI : One (Ext Int) := ⟨fin 1⟩
    ∃ t, createMeshTree exampleMesh (fun _ => .ok ([2, 2], 0)) true 1 none none = .ok t ∧ t.h.length = 3 ∧
    (∀ (i : Nat) (l : List Nat) (nd : Node Int) (j : Nat) (pp : List Int) (z : Int) (b : Box (Ext Int)) (u v : Ext Int), At t.h i l → t.h[i]? = some nd →
      nd.planeIdx = some j → nd.planePoint = some pp → pp[j]? = some z → nodeAabb t.h i = .ok b → b.1[j]? = some u → b.2[j]? = some v →
      u ≤ fin z ∧ fin z ≤ v) := by
  refine ⟨_, rfl, rfl, ?_⟩
  intro i l nd j pp z b u v _ hn hj hp hz hb hu hv
  match i with
  | 0 =>
    have hb' : (Except.ok (([⊥, ⊥], [⊤, ⊤]) : Box (Ext Int)) : Py _) = .ok b := hb
    cases hb'
    cases hn
    cases hj
    cases hu; cases hv
    exact ⟨bot_le, le_top⟩
  | 1 => cases hn; cases hj
  | 2 => cases hn; cases hj
  | i + 3 => cases hn

end Verif.Props
