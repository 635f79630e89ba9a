import Verif.Spec.PiecewiseCall
import Verif.Props.Piecewise
import Verif.Props.MeshKdTree
import Verif.Props.Simplex
import Verif.Props.PointClouds
import Verif.Props.PiecewiseBases
/-!
# C81: calling a piecewise polynomial
-/

namespace Verif.Props
open Verif Verif.Poly Verif.Simplex Verif.SPoly Verif.L2G Verif.PP Verif.Spec

/-! ## What the search tree returns -/

section Tree
variable {K : Type} [CommRing K] [LinearOrder K] [IsStrictOrderedRing K] [Sub (Kd.Ext K)] [Mul (Kd.Ext K)] [One (Kd.Ext K)]
open Kd

omit [CommRing K] [IsStrictOrderedRing K] in
theorem intersectLoop_subset {m : Mesh K} {b : Aabb.Box (Ext K)} : ∀ {is l : List Nat}, intersectLoop m b is = .ok l → ∀ i ∈ l, i ∈ is := by
  intro is
  induction is with
  | nil =>
    intro l h
    simp only [intersectLoop, Except.ok.injEq] at h
    subst h
    simp
  | cons i is ih =>
    intro l h
    unfold intersectLoop at h
    cases h1 : getE m.simplices i with
    | error e => rw [h1] at h; simp at h
    | ok s =>
      rw [h1, Py.bind_ok] at h
      cases h2 : Complex.simplexVertices s m.vertices with
      | error e => rw [h2] at h; simp at h
      | ok v =>
        rw [h2, Py.bind_ok] at h
        cases h3 : Aabb.create v with
        | error e => rw [h3] at h; simp at h
        | ok bb =>
          rw [h3, Py.bind_ok] at h
          cases h4 : Aabb.intersection b (bb.1.map fin, bb.2.map fin) with
          | error e => rw [h4] at h; simp at h
          | ok c =>
            rw [h4, Py.bind_ok] at h
            cases h5 : Aabb.isEmpty c with
            | error e => rw [h5] at h; simp at h
            | ok e =>
              rw [h5, Py.bind_ok] at h
              cases h6 : intersectLoop m b is with
              | error e => rw [h6] at h; simp at h
              | ok rest =>
                rw [h6, Py.bind_ok] at h
                simp only [Py.pure_eq, Except.ok.injEq] at h
                have := ih h6
                subst h
                intro a ha
                split at ha
                · rcases List.mem_cons.1 ha with rfl | ha
                  · simp
                  · exact List.mem_cons_of_mem _ (this a ha)
                · exact List.mem_cons_of_mem _ (this a ha)

omit [CommRing K] [IsStrictOrderedRing K] in
theorem pis_subset {m : Mesh K} {interest : Option (List Nat)} {t : MeshTree K} (hr : MeshReachable m interest t) :
    ∀ p ∈ t.pis, ∀ i ∈ p, i ∈ rootPis m interest := by
  induction hr with
  | root h =>
    obtain ⟨v, -, rfl⟩ := meshRoot_eq h
    intro p hp
    simp only [List.mem_singleton] at hp
    subst hp
    exact fun i hi => hi
  | subdivide id pp i _ hs ih =>
    obtain ⟨h', p, bl, br, l, r, -, h2, -, -, h5, h6, rfl⟩ := meshSubdivide_eq hs
    have hp := ih p (List.mem_of_getElem? h2)
    intro q hq
    rcases List.mem_append.1 hq with hq | hq
    · exact ih q hq
    · simp only [List.mem_cons, List.not_mem_nil, or_false] at hq
      rcases hq with rfl | rfl
      · exact fun i hi => hp i (intersectLoop_subset h5 i hi)
      · exact fun i hi => hp i (intersectLoop_subset h6 i hi)
  | @cut t t' id _ hs ih =>
    unfold meshCut at hs
    cases h1 : cutSubtree t.h id with
    | error e => rw [h1] at hs; simp at hs
    | ok h' =>
      rw [h1] at hs
      simp only [Py.bind_ok, Py.pure_eq, Except.ok.injEq] at hs
      subst hs
      exact ih

end Tree

section Call
variable {K V : Type} [Field K] [LinearOrder K] [IsStrictOrderedRing K] [AddCommGroup V] [DecidableEq V] [Module K V] {m : Nat}
variable [Sub (Kd.Ext K)] [Mul (Kd.Ext K)] [One (Kd.Ext K)]

omit [LinearOrder K] [IsStrictOrderedRing K] [Sub (Kd.Ext K)] [Mul (Kd.Ext K)] [One (Kd.Ext K)] [Field K] in
theorem cell_lt {triangles : List (List ℕ)} {vertices : List (Fin m → K)} {j : ℕ} {v : Vertices K m m} (h : cell triangles vertices j = .ok v) :
    j < triangles.length := by
  unfold cell at h
  cases h1 : getE triangles j with
  | error e => rw [h1] at h; simp at h
  | ok T => exact (List.getElem?_eq_some_iff.1 (Kd.getE_eq_ok h1)).1

omit [LinearOrder K] [IsStrictOrderedRing K] [Sub (Kd.Ext K)] [Mul (Kd.Ext K)] [One (Kd.Ext K)] [Field K] in
theorem cell_eq {triangles : List (List ℕ)} {vertices : List (Fin m → K)} {j : ℕ} {v : Vertices K m m} (h : cell triangles vertices j = .ok v) :
    ∃ T, triangles[j]? = some T ∧ Complex.simplexVertices T vertices = .ok (List.ofFn v) := by
  unfold cell at h
  cases h1 : getE triangles j with
  | error e => rw [h1] at h; simp at h
  | ok T =>
    rw [h1, Py.bind_ok] at h
    unfold cellVertices at h
    cases h2 : Complex.simplexVertices T vertices with
    | error e => rw [h2] at h; simp at h
    | ok l =>
      rw [h2, Py.bind_ok] at h
      split at h
      · rename_i hl
        obtain rfl := Except.ok.inj h
        refine ⟨T, Kd.getE_eq_ok h1, ?_⟩
        rw [h2]
        refine congrArg Except.ok ?_
        apply List.ext_getElem
        · simp [hl]
        · intro i h3 h4
          rw [List.getElem_ofFn]
      · cases h

omit [LinearOrder K] [IsStrictOrderedRing K] [Sub (Kd.Ext K)] [Mul (Kd.Ext K)] [One (Kd.Ext K)] [Field K] in
theorem simplexVertices_map {P Q : Type} (f : P → Q) {T : List ℕ} {vertices l : List P} (h : Complex.simplexVertices T vertices = .ok l) :
    Complex.simplexVertices T (vertices.map f) = .ok (l.map f) := by
  have hget : ∀ {i : ℕ} {a : P}, getE vertices i = .ok a → getE (vertices.map f) i = .ok (f a) := by
    intro i a ha
    have := Kd.getE_eq_ok ha
    unfold getE
    rw [List.getElem?_map, this]
    rfl
  unfold Complex.simplexVertices at h ⊢
  cases h1 : getE vertices 0 with
  | error e => rw [h1] at h; simp at h
  | ok a =>
    rw [h1, Py.bind_ok] at h
    rw [hget h1, Py.bind_ok]
    clear h1
    induction T generalizing l with
    | nil =>
      simp only [List.mapM_nil, Py.pure_eq, Except.ok.injEq] at h
      subst h
      rfl
    | cons i T ih =>
      rw [List.mapM_cons] at h ⊢
      cases h2 : getE vertices i with
      | error e => rw [h2] at h; simp at h
      | ok b =>
        rw [h2, Py.bind_ok] at h
        cases h3 : T.mapM (fun i => getE vertices i) with
        | error e => rw [h3] at h; simp at h
        | ok l' =>
          rw [h3, Py.bind_ok] at h
          simp only [Py.pure_eq, Except.ok.injEq] at h
          subst h
          rw [hget h2, Py.bind_ok, ih h3, Py.bind_ok]
          rfl

omit [Sub (Kd.Ext K)] [Mul (Kd.Ext K)] [One (Kd.Ext K)] [IsStrictOrderedRing K] in
theorem inCell_mesh {triangles : List (List ℕ)} {vertices : List (Fin m → K)} {j : ℕ} {x : Fin m → K} (h : InCell triangles vertices j x) :
    InMeshSimplex (meshOf triangles vertices) m j (List.ofFn x) := by
  obtain ⟨v, hv, w, h0, h1, h2⟩ := h
  obtain ⟨T, hT, hl⟩ := cell_eq hv
  refine ⟨by simp, T, _, hT, simplexVertices_map List.ofFn hl, List.ofFn w, by simp, ?_, by rw [List.sum_ofFn, h1], ?_⟩
  · intro c hc
    obtain ⟨i, rfl⟩ := List.mem_ofFn.1 hc
    exact h0 i
  · intro i hi
    have hz : List.zipWith (fun (c : K) (v : List K) => c * v.getD i 0) (List.ofFn w) ((List.ofFn v).map List.ofFn) =
        List.ofFn (fun k => w k * v k ⟨i, by simpa using hi⟩) := by
      apply List.ext_getElem
      · simp
      · intro k h3 h4
        have hi' : i < m := by simpa using hi
        rw [List.getElem_zipWith, List.getElem_map, List.getElem_ofFn, List.getElem_ofFn, List.getElem_ofFn, List.getD_eq_getElem _ _ (by simpa using hi'),
          List.getElem_ofFn]
    rw [hz, List.sum_ofFn, List.getElem_ofFn]
    have := congrFun h2 ⟨i, by simpa using hi⟩
    rw [this]
    simp

omit [Sub (Kd.Ext K)] [Mul (Kd.Ext K)] [One (Kd.Ext K)] in
theorem inside_iff {triangles : List (List ℕ)} {vertices : List (Fin m → K)} {j : ℕ} {v : Vertices K m m} (hv : cell triangles vertices j = .ok v)
    (hpos : 0 < edgeDet v) (x : Fin m → K) : insideSimplex x v true 0 = true ↔ InCell triangles vertices j x := by
  rw [C39_inside_partial v hpos x]
  constructor
  · intro h
    exact ⟨v, hv, h⟩
  · rintro ⟨v', hv', h⟩
    rw [hv] at hv'
    obtain rfl := Except.ok.inj hv'
    exact h

omit [AddCommGroup V] [DecidableEq V] [Module K V] in
/-- The candidates in the leaf: only simplices the tree was built for, and all of those that contain the point. -/
theorem leaf_spec {p : PObj K V m (Kd.MeshTree K)} {S : List ℕ} (hr : Kd.MeshReachable (meshOf p.triangles p.vertices) (some S) p.tree) (x : Fin m → K) :
    ∃ js, leafOf p.tree x = .ok js ∧ (∀ j ∈ js, j ∈ S) ∧ ∀ j ∈ S, InCell p.triangles p.vertices j x → j ∈ js := by
  have hk : ∃ v, (meshOf p.triangles p.vertices).vertices[0]? = some v := by
    have : ∃ v, Kd.meshRoot (meshOf p.triangles p.vertices) (some S) = .ok v := by
      generalize p.tree = t at hr
      induction hr with
      | root h => exact ⟨_, h⟩
      | subdivide _ _ _ _ _ ih => exact ih
      | cut _ _ _ ih => exact ih
    obtain ⟨t, ht⟩ := this
    obtain ⟨v, hv, -⟩ := meshRoot_eq ht
    exact ⟨v, hv⟩
  have hvert : ∀ v ∈ (meshOf p.triangles p.vertices).vertices, v.length = m := by
    intro v hv
    obtain ⟨a, -, rfl⟩ := List.mem_map.1 hv
    simp
  have inv := MeshReachable.inv hk hvert hr
  obtain ⟨n, nd, l, h1, h2, h3, h4, h5⟩ := C41_find_leaf inv.reach (List.ofFn x) (by simp)
  have hn : n < p.tree.pis.length := by
    rw [inv.len]
    exact (List.getElem?_eq_some_iff.1 h3).1
  refine ⟨p.tree.pis[n], ?_, ?_, ?_⟩
  · unfold leafOf
    rw [h1, Py.bind_ok]
    unfold getE
    rw [List.getElem?_eq_getElem hn]
  · exact pis_subset hr _ (List.getElem_mem hn)
  · intro j hj hx
    obtain ⟨-, second⟩ := C42_complete hk hvert hr j (Or.inr ⟨_, rfl, hj⟩) (List.ofFn x) (inCell_mesh hx)
    obtain ⟨q, hq, hm⟩ := second n l h2 h5
    rw [List.getElem?_eq_getElem hn] at hq
    rw [Option.some.inj hq]
    exact hm

omit [IsStrictOrderedRing K] [Sub (Kd.Ext K)] [Mul (Kd.Ext K)] [One (Kd.Ext K)] [LinearOrder K] [Field K] in
theorem findCell_spec {triangles : List (List ℕ)} {vertices : List (Fin m → K)} {inside : (Fin m → K) → Vertices K m m → Bool} {x : Fin m → K} :
    ∀ {js : List ℕ}, (∀ j ∈ js, ∃ v, cell triangles vertices j = .ok v) →
    (∃ j ∈ js, ∃ v, cell triangles vertices j = .ok v ∧ inside x v = true ∧ findCell triangles vertices inside x js = .ok (some j)) ∨
    (findCell triangles vertices inside x js = .ok none ∧ ∀ j ∈ js, ∀ v, cell triangles vertices j = .ok v → inside x v = false) := by
  intro js
  induction js with
  | nil => intro _; right; simp [findCell]
  | cons j js ih =>
    intro h
    obtain ⟨v, hv⟩ := h j (by simp)
    unfold findCell
    rw [hv, Py.bind_ok]
    by_cases hi : inside x v = true
    · left
      exact ⟨j, by simp, v, hv, hi, by rw [if_pos hi]⟩
    · rw [if_neg hi]
      rcases ih (fun i hi => h i (by simp [hi])) with ⟨i, h1, w, h2, h3, h4⟩ | ⟨h1, h2⟩
      · left
        exact ⟨i, by simp [h1], w, h2, h3, h4⟩
      · right
        refine ⟨h1, fun i hi' w hw => ?_⟩
        rcases List.mem_cons.1 hi' with rfl | hi'
        · rw [hv] at hw
          obtain rfl := Except.ok.inj hw
          simpa using hi
        · exact h2 i hi' w hw

omit [DecidableEq V] in
/-- What a call returns: the value on one of the simplices in `S` that contain the point, zero if there is none. -/
theorem callAt_cases {p : PObj K V m (Kd.MeshTree K)} (h : WellFormed p) {S : List ℕ}
    (hr : Kd.MeshReachable (meshOf p.triangles p.vertices) (some S) p.tree) (hlt : ∀ j ∈ S, j < p.triangles.length)
    (hpos : PositivelyOriented p.triangles p.vertices) (x : Fin m → K) :
    (∃ j ∈ S, InCell p.triangles p.vertices j x ∧ p.callAt x = p.evaluateOnSimplex j x) ∨
    (p.callAt x = .ok 0 ∧ ∀ j ∈ S, ¬ InCell p.triangles p.vertices j x) := by
  obtain ⟨js, h1, h2, h3⟩ := leaf_spec hr x
  have hcells : ∀ j ∈ js, ∃ v, cell p.triangles p.vertices j = .ok v := fun j hj => by
    obtain ⟨v, hv, -⟩ := h.space.cells j (hlt j (h2 j hj))
    exact ⟨v, hv⟩
  unfold PObj.callAt PObj.call
  rw [h1, Py.bind_ok]
  rcases findCell_spec (inside := fun x v => insideSimplex x v true 0) (x := x) hcells with ⟨j, e1, v, e2, e3, e4⟩ | ⟨e1, e2⟩
  · left
    rw [e4, Py.bind_ok]
    exact ⟨j, h2 j e1, (inside_iff e2 (hpos j v e2) x).1 e3, rfl⟩
  · right
    rw [e1, Py.bind_ok]
    refine ⟨rfl, fun j hj hx => ?_⟩
    obtain ⟨v, hv, -⟩ := id hx
    have := e2 j (h3 j hj hx) v hv
    simp only [(inside_iff hv (hpos j v hv) x).2 hx] at this
    cases this

/-! ## C81: values -/

/-- **C81** Calling a piecewise polynomial on a mesh of positively oriented simplices returns the value on each simplex that contains the point, if this value does
not depend on the simplex (`SingleValued`: continuous functions on conforming meshes, and discontinuous functions at the points that are in only one simplex). -/
theorem C81_call {p : PObj K V m (Kd.MeshTree K)} (h : WellFormed p) (hc : Covered p) (hpos : PositivelyOriented p.triangles p.vertices)
    {F : ℕ → (Fin m → K) → V} (hF : Denotes p F) {x : Fin m → K} (hs : SingleValued p x) {j : ℕ} (hj : InCell p.triangles p.vertices j x) :
    p.callAt x = .ok (F j x) := by
  obtain ⟨S, hS⟩ := hc
  obtain ⟨v, hv, -⟩ := id hj
  have hlt := cell_lt hv
  rcases callAt_cases h hS.1 hS.2.2 hpos x with ⟨i, h1, h2, h3⟩ | ⟨h1, h2⟩
  · obtain ⟨v', hv', -⟩ := id h2
    have hlt' := cell_lt hv'
    rcases hs with ⟨hcont, hconf⟩ | hone
    · obtain ⟨y, e1, e2⟩ := C47_continuous h hcont hlt' hlt (hconf i j hlt' hlt x h2 hj)
      rw [h3, e1, ← e2]
      exact hF j hlt x
    · obtain rfl := hone i j h2 hj
      rw [h3]
      exact hF i hlt x
  · have hn : j ∉ p.support := fun hm => h2 j (hS.2.1 j hm) hj
    rw [h1, ← hF j hlt x]
    unfold PObj.evaluateOnSimplex
    rw [if_pos hn]

omit [DecidableEq V] in
/-- **C81** At points that are in several simplices, a discontinuous function takes the value on one of them. -/
theorem C81_call_discontinuous {p : PObj K V m (Kd.MeshTree K)} (h : WellFormed p) (hc : Covered p) (hpos : PositivelyOriented p.triangles p.vertices)
    {F : ℕ → (Fin m → K) → V} (hF : Denotes p F) {x : Fin m → K} (hx : ∃ j, InCell p.triangles p.vertices j x) :
    ∃ j, InCell p.triangles p.vertices j x ∧ p.callAt x = .ok (F j x) := by
  obtain ⟨S, hS⟩ := hc
  rcases callAt_cases h hS.1 hS.2.2 hpos x with ⟨i, h1, h2, h3⟩ | ⟨h1, h2⟩
  · obtain ⟨v', hv', -⟩ := id h2
    exact ⟨i, h2, by rw [h3]; exact hF i (cell_lt hv') x⟩
  · obtain ⟨j, hj⟩ := hx
    obtain ⟨v, hv, -⟩ := id hj
    have hn : j ∉ p.support := fun hm => h2 j (hS.2.1 j hm) hj
    refine ⟨j, hj, ?_⟩
    rw [h1, ← hF j (cell_lt hv) x]
    unfold PObj.evaluateOnSimplex
    rw [if_pos hn]

omit [DecidableEq V] in
/-- **C81** Outside of the mesh the value is zero. -/
theorem C81_outside {p : PObj K V m (Kd.MeshTree K)} (h : WellFormed p) (hc : Covered p) (hpos : PositivelyOriented p.triangles p.vertices) {x : Fin m → K}
    (hx : ∀ j, ¬ InCell p.triangles p.vertices j x) : p.callAt x = .ok 0 := by
  obtain ⟨S, hS⟩ := hc
  rcases callAt_cases h hS.1 hS.2.2 hpos x with ⟨i, h1, h2, h3⟩ | ⟨h1, h2⟩
  · exact absurd h2 (hx i)
  · exact h1

omit [DecidableEq V] in
/-- **C81** (finding) On a mesh of negatively oriented simplices every piecewise polynomial is zero everywhere when it is called. -/
theorem C81_negative {p : PObj K V m (Kd.MeshTree K)} (h : WellFormed p) (hc : Covered p)
    (hneg : ∀ j v, cell p.triangles p.vertices j = .ok v → edgeDet v < 0) (x : Fin m → K) : p.callAt x = .ok 0 := by
  obtain ⟨S, hS⟩ := hc
  obtain ⟨js, h1, h2, h3⟩ := leaf_spec hS.1 x
  have hcells : ∀ j ∈ js, ∃ v, cell p.triangles p.vertices j = .ok v := fun j hj => by
    obtain ⟨v, hv, -⟩ := h.space.cells j (hS.2.2 j (h2 j hj))
    exact ⟨v, hv⟩
  unfold PObj.callAt PObj.call
  rw [h1, Py.bind_ok]
  rcases findCell_spec (inside := fun x v => insideSimplex x v true 0) (x := x) hcells with ⟨j, e1, v, e2, e3, e4⟩ | ⟨e1, e2⟩
  · rw [C39_negative_orientation v (hneg j v e2) x true] at e3
    cases e3
  · rw [e1, Py.bind_ok]
    rfl

/-! ## C81: objects with a search tree for their support -/

theorem bind_ok_cont {α β : Type} {x : Py α} {f : α → Py β} {s : β} (h : (x >>= f) = .ok s) : ∃ a, f a = .ok s := by
  cases x with
  | error e => simp at h
  | ok a => exact ⟨a, h⟩

theorem mapM_ok_mem {α β : Type} {f : α → Py β} : ∀ {l : List α} {r : List β}, l.mapM f = .ok r → ∀ x ∈ l, ∃ y, f x = .ok y := by
  intro l
  induction l with
  | nil => simp
  | cons a l ih =>
    intro r h
    rw [List.mapM_cons] at h
    cases h1 : f a with
    | error e => rw [h1] at h; simp at h
    | ok y =>
      rw [h1, Py.bind_ok] at h
      cases h2 : l.mapM f with
      | error e => rw [h2] at h; simp at h
      | ok ys =>
        intro x hx
        rcases List.mem_cons.1 hx with rfl | hx
        · exact ⟨y, h1⟩
        · exact ih h2 x hx

section
variable {K V W : Type} [Field K] [DecidableEq K] [AddCommGroup V] [DecidableEq V] [Module K V] [AddCommGroup W] [DecidableEq W] [Module K W] {m : Nat} {Tr : Type}

omit [Module K V] in
theorem new_eq {mkTree : List ℕ → Py Tr} {b : Basis} {cont : Bool} {coeff : List V} {triangles : List (List ℕ)} {vertices : List (Fin m → K)}
    {r : ℕ} {tau : Option (Int → List ℕ → Py Int)} {boundary : Option (List (List ℕ))} {keepLast : Bool} {support : Option (List ℕ)} {tree : Option Tr}
    {polys : Option (List (ℕ × List (SObj K K m)))} {p : PObj K V m Tr}
    (hp : PObj.new mkTree b cont coeff triangles vertices r tau boundary keepLast support tree polys = .ok p) :
    p.triangles = triangles ∧ p.vertices = vertices ∧ (∀ S, support = some S → p.support = S) ∧ (∀ T, tree = some T → p.tree = T) ∧
      (tree = none → mkTree p.support = .ok p.tree) ∧ (∃ d, polysArg b triangles vertices r p.support polys = .ok d) ∧
      supportArg p.tau p.coeff (MI.generateAll m p.r) p.triangles.length support = .ok p.support := by
  unfold PObj.new at hp
  cases h1 : tauArg cont coeff.length triangles r tau boundary keepLast with
  | error e => rw [h1] at hp; simp at hp
  | ok t =>
    rw [h1, Py.bind_ok] at hp
    cases h2 : getE coeff 0 with
    | error e => rw [h2] at hp; simp at hp
    | ok c =>
      rw [h2, Py.bind_ok] at hp
      cases h3 : getE vertices 0 with
      | error e => rw [h3] at hp; simp at hp
      | ok c =>
        rw [h3, Py.bind_ok] at hp
        cases h4 : supportArg t coeff (MI.generateAll m r) triangles.length support with
        | error e => rw [h4] at hp; simp at hp
        | ok S =>
          rw [h4, Py.bind_ok] at hp
          have hS : ∀ S', support = some S' → S = S' := by
            rintro S' rfl
            exact (Except.ok.inj h4).symm
          cases tree with
          | some T =>
            simp only [Py.bind_ok] at hp
            cases h6 : polysArg b triangles vertices r S polys with
            | error e => rw [h6] at hp; simp at hp
            | ok d =>
              rw [h6, Py.bind_ok] at hp
              simp only [Py.pure_eq, Except.ok.injEq] at hp
              subst hp
              exact ⟨rfl, rfl, hS, fun T' h => Option.some.inj h, by simp, ⟨d, h6⟩, h4⟩
          | none =>
            simp only at hp
            cases h5 : mkTree S with
            | error e => rw [h5] at hp; simp at hp
            | ok T =>
              rw [h5, Py.bind_ok] at hp
              cases h6 : polysArg b triangles vertices r S polys with
              | error e => rw [h6] at hp; simp at hp
              | ok d =>
                rw [h6, Py.bind_ok] at hp
                simp only [Py.pure_eq, Except.ok.injEq] at hp
                subst hp
                exact ⟨rfl, rfl, hS, by simp, fun _ => h5, ⟨d, h6⟩, h4⟩

/-- `s` was made from `p`: it has the mesh and the tree of `p`, and it is supported on simplices in the support of `p`. -/
structure Inherits {K V W : Type} {m : Nat} {Tr : Type} (s : PObj K V m Tr) (p : PObj K W m Tr) : Prop where
  triangles : s.triangles = p.triangles
  vertices : s.vertices = p.vertices
  tree : s.tree = p.tree
  support : ∀ j ∈ s.support, j ∈ p.support

omit [Module K V] [AddCommGroup W] [DecidableEq W] [Module K W] in
theorem inherits_new {mkTree : List ℕ → Py Tr} {b : Basis} {cont : Bool} {coeff : List V} {r : ℕ} {tau : Option (Int → List ℕ → Py Int)}
    {boundary : Option (List (List ℕ))} {keepLast : Bool} {S : List ℕ} {polys : Option (List (ℕ × List (SObj K K m)))} {p : PObj K W m Tr}
    {s : PObj K V m Tr} (hs : PObj.new mkTree b cont coeff p.triangles p.vertices r tau boundary keepLast (some S) (some p.tree) polys = .ok s)
    (hS : ∀ j ∈ S, j ∈ p.support) : Inherits s p := by
  obtain ⟨h1, h2, h3, h4, -, -⟩ := new_eq hs
  exact ⟨h1, h2, h4 _ rfl, by rw [h3 S rfl]; exact hS⟩

omit [Module K V] [DecidableEq W] [Module K W] in
theorem inherits_remake {p : PObj K W m Tr} (h : WellFormed p) {coeff : List V} {support : Option (List ℕ)} {s : PObj K V m Tr}
    (hs : p.remake coeff support = .ok s) : Inherits s p := by
  unfold PObj.remake at hs
  obtain ⟨h1, h2, h3, h4, -, ⟨d, h6⟩, -⟩ := new_eq hs
  refine ⟨h1, h2, h4 _ rfl, fun j hj => ?_⟩
  by_contra hn
  have hk := h.keys j hn
  unfold polysArg at h6
  simp only at h6
  obtain ⟨a, ha⟩ := mapM_ok_mem h6 j hj
  rw [hk] at ha
  simp [keyE] at ha

omit [DecidableEq W] [Module K W] [AddCommGroup W] [Field K] [DecidableEq K] [AddCommGroup V] [DecidableEq V] [Module K V] in
theorem Inherits.trans {U : Type} {s : PObj K V m Tr} {p : PObj K W m Tr} {q : PObj K U m Tr} (h1 : Inherits s p) (h2 : Inherits p q) : Inherits s q :=
  ⟨h1.triangles.trans h2.triangles, h1.vertices.trans h2.vertices, h1.tree.trans h2.tree, fun j hj => h2.support j (h1.support j hj)⟩

theorem inherits_elevate {p s : PObj K V m Tr} (h : WellFormed p) {n : ℕ} (hs : p.degreeElevate n = .ok s) : Inherits s p := by
  unfold PObj.degreeElevate at hs
  cases h1 : pyAssert (decide (n ≥ p.r)) with
  | error e => rw [h1] at hs; simp at hs
  | ok u =>
    rw [h1, Py.bind_ok] at hs
    split at hs
    · exact inherits_remake h hs
    · cases h2 : genMap p.cont p.triangles n p.boundary p.keepLast with
      | error e => rw [h2] at hs; simp at hs
      | ok M =>
        rw [h2, Py.bind_ok] at hs
        obtain ⟨c, hs⟩ := bind_ok_cont hs
        exact inherits_new hs (fun j hj => hj)

omit [Module K V] in
theorem inherits_combineSame {p q s : PObj K V m Tr} (h : WellFormed p) {op : V → V → V} (hs : PP.combineSame op p q = .ok s) : Inherits s p := by
  unfold PP.combineSame at hs
  revert hs
  cases pyAssert (decide (p.basis = q.basis)) with
  | error e => intro hs; simp at hs
  | ok _ =>
    rw [Py.bind_ok]
    cases sameMesh p q with
    | error e => intro hs; simp at hs
    | ok _ =>
      rw [Py.bind_ok]
      split
      · cases npBinary op p.coeff q.coeff with
        | error e => intro hs; simp at hs
        | ok c =>
          rw [Py.bind_ok]
          intro hs
          exact inherits_remake h hs
      · intro hs; simp at hs

theorem inherits_combine [CharZero K] {p q s : PObj K V m Tr} (h : WellFormed p) (hcase : p.r = q.r ∨ (Full p ∧ Fits (max p.r q.r) m)) {op : V → V → V}
    (hs : PP.combine op p q = .ok s) : Inherits s p := by
  unfold PP.combine at hs
  revert hs
  cases pyAssert (decide (p.basis = q.basis)) with
  | error e => intro hs; simp at hs
  | ok _ =>
    rw [Py.bind_ok]
    cases sameMesh p q with
    | error e => intro hs; simp at hs
    | ok _ =>
      rw [Py.bind_ok]
      split
      · exact inherits_combineSame h
      · rename_i hr
        obtain ⟨hfull, hf⟩ := hcase.resolve_left hr
        split
        · cases q.degreeElevate p.r with
          | error e => intro hs; simp at hs
          | ok q' =>
            rw [Py.bind_ok]
            exact inherits_combineSame h
        · rename_i hlt
          obtain ⟨F, hF⟩ := h.denotes
          obtain ⟨p', e1, e2, -⟩ := (C48_elevate h hfull hF q.r).1 (by omega) (Or.inr (by rwa [max_eq_right (by omega)] at hf))
          rw [e1, Py.bind_ok]
          intro hs
          exact (inherits_combineSame e2 hs).trans (inherits_elevate h e1)

theorem inherits_mul {p q s : PObj K K m Tr} (hs : p.mul q = .ok s) : Inherits s p := by
  unfold PObj.mul at hs
  revert hs
  cases sameMesh p q with
  | error e => intro hs; simp at hs
  | ok _ =>
    rw [Py.bind_ok]
    cases pyAssert (decide (p.keepLast = q.keepLast)) with
    | error e => intro hs; simp at hs
    | ok _ =>
      rw [Py.bind_ok]
      simp only []
      cases genMap p.cont p.triangles (p.r + q.r) p.boundary p.keepLast with
      | error e => intro hs; simp at hs
      | ok M =>
        rw [Py.bind_ok]
        intro hs
        obtain ⟨c, hs⟩ := bind_ok_cont hs
        exact inherits_new hs (fun j hj => (List.mem_filter.1 hj).1)

theorem inherits_pow {p s : PObj K K m Tr} (h : WellFormed p) {k : ℕ} (hk : k ≠ 0) (hs : p.powNat k = .ok s) : Inherits s p := by
  match k, hk with
  | 1, _ => exact inherits_remake h hs
  | k + 2, _ =>
    unfold PObj.powNat at hs
    revert hs
    cases p.powNat (k + 1) with
    | error e => intro hs; simp at hs
    | ok q =>
      rw [Py.bind_ok]
      exact inherits_mul

end

omit [Module K V] in
/-- **C81** An object that was constructed without a given tree holds a tree for its support. -/
theorem C81_new {split : List ℕ → Py (List K × Int)} {b : Basis} {cont : Bool} {coeff : List V} {triangles : List (List ℕ)} {vertices : List (Fin m → K)}
    {r : ℕ} {tau : Option (Int → List ℕ → Py Int)} {boundary : Option (List (List ℕ))} {keepLast : Bool} {support : Option (List ℕ)}
    {polys : Option (List (ℕ × List (SObj K K m)))} {p : PObj K V m (Kd.MeshTree K)}
    (hp : PObj.new (buildTree split triangles vertices) b cont coeff triangles vertices r tau boundary keepLast support none polys = .ok p)
    (h : WellFormed p) : CoveredBy p p.support := by
  obtain ⟨h1, h2, -, -, h5, -⟩ := new_eq hp
  have h5 := h5 rfl
  rw [← h1, ← h2] at h5
  exact ⟨C42_create_kd_tree h5, fun j hj => hj, h.support⟩

/-! ## C81: the operations act on the values -/

section Operations
variable {U : Type} [AddCommGroup U] [DecidableEq U] [Module K U]

omit [IsStrictOrderedRing K] [AddCommGroup V] [DecidableEq V] [Module K V] [AddCommGroup U] [DecidableEq U] [Module K U] [Field K] in
theorem covered_of_inherits {p : PObj K V m (Kd.MeshTree K)} {s : PObj K U m (Kd.MeshTree K)} (h : Inherits s p) {S : List ℕ} (hc : CoveredBy p S) : CoveredBy s S := by
  obtain ⟨h1, h2, h3⟩ := hc
  refine ⟨by rw [h.triangles, h.vertices, h.tree]; exact h1, fun j hj => h2 j (h.support j hj), by rw [h.triangles]; exact h3⟩

/-- A function that is computed from another one on each simplex is computed from its values. -/
theorem call_map {p : PObj K V m (Kd.MeshTree K)} {s : PObj K U m (Kd.MeshTree K)} (hp : WellFormed p) (hs : WellFormed s) (hcp : Covered p) (hi : Inherits s p)
    (hcont : s.cont = p.cont) (hpos : PositivelyOriented p.triangles p.vertices) {F : ℕ → (Fin m → K) → V} (hF : Denotes p F) {f : V → U} (hf : f 0 = 0)
    (hG : Denotes s (fun j x => f (F j x))) {x : Fin m → K} (hx : SingleValued p x) : Covered s ∧ ∃ a, p.callAt x = .ok a ∧ s.callAt x = .ok (f a) := by
  have hcs : Covered s := by
    obtain ⟨S, hS⟩ := hcp
    exact ⟨S, covered_of_inherits hi hS⟩
  refine ⟨hcs, ?_⟩
  have hxs : SingleValued s x := by
    unfold SingleValued at hx ⊢
    rw [hcont, hi.triangles, hi.vertices]
    exact hx
  have hpos' : PositivelyOriented s.triangles s.vertices := by rw [hi.triangles, hi.vertices]; exact hpos
  by_cases hj : ∃ j, InCell p.triangles p.vertices j x
  · obtain ⟨j, hj⟩ := hj
    exact ⟨F j x, C81_call hp hcp hpos hF hx hj, C81_call hs hcs hpos' hG hxs (by rw [hi.triangles, hi.vertices]; exact hj)⟩
  · rw [not_exists] at hj
    exact ⟨0, C81_outside hp hcp hpos hj, by rw [hf]; exact C81_outside hs hcs hpos' (by rw [hi.triangles, hi.vertices]; exact hj)⟩

/-- A function that is computed from two other ones on each simplex is computed from their values. -/
theorem call_map₂ {p q s : PObj K V m (Kd.MeshTree K)} (hp : WellFormed p) (hq : WellFormed q) (hs : WellFormed s) (hcp : Covered p) (hcq : Covered q)
    (hi : Inherits s p) (hcont : s.cont = p.cont) (hqt : q.triangles = p.triangles) (hqv : q.vertices = p.vertices) (hqc : p.cont = true → q.cont = true)
    (hpos : PositivelyOriented p.triangles p.vertices) {F G : ℕ → (Fin m → K) → V} (hF : Denotes p F) (hG : Denotes q G) {f : V → V → V} (hf : f 0 0 = 0)
    (hH : Denotes s (fun j x => f (F j x) (G j x))) {x : Fin m → K} (hx : SingleValued p x) :
    Covered s ∧ ∃ a b, p.callAt x = .ok a ∧ q.callAt x = .ok b ∧ s.callAt x = .ok (f a b) := by
  have hcs : Covered s := by
    obtain ⟨S, hS⟩ := hcp
    exact ⟨S, covered_of_inherits hi hS⟩
  refine ⟨hcs, ?_⟩
  have hxs : SingleValued s x := by
    unfold SingleValued at hx ⊢
    rw [hcont, hi.triangles, hi.vertices]
    exact hx
  have hxq : SingleValued q x := by
    unfold SingleValued at hx ⊢
    rw [hqt, hqv]
    exact hx.imp (fun h => ⟨hqc h.1, h.2⟩) id
  have hpos' : PositivelyOriented s.triangles s.vertices := by rw [hi.triangles, hi.vertices]; exact hpos
  have hposq : PositivelyOriented q.triangles q.vertices := by rw [hqt, hqv]; exact hpos
  by_cases hj : ∃ j, InCell p.triangles p.vertices j x
  · obtain ⟨j, hj⟩ := hj
    exact ⟨F j x, G j x, C81_call hp hcp hpos hF hx hj, C81_call hq hcq hposq hG hxq (by rw [hqt, hqv]; exact hj),
      C81_call hs hcs hpos' hH hxs (by rw [hi.triangles, hi.vertices]; exact hj)⟩
  · rw [not_exists] at hj
    exact ⟨0, 0, C81_outside hp hcp hpos hj, C81_outside hq hcq hposq (by rw [hqt, hqv]; exact hj),
      by rw [hf]; exact C81_outside hs hcs hpos' (by rw [hi.triangles, hi.vertices]; exact hj)⟩

/-- **C81** `(p + q)(x) = p(x) + q(x)` at every point of space at which the functions are single valued, whenever the sum is returned. -/
theorem C81_add {p q s : PObj K V m (Kd.MeshTree K)} (hp : WellFormed p) (hq : WellFormed q) (hcp : Covered p) (hcq : Covered q) (hk : SameKind p q)
    (hcase : p.r = q.r ∨ (Full p ∧ Fits (max p.r q.r) m)) (hpos : PositivelyOriented p.triangles p.vertices) (hs : p.add q = .ok s) {x : Fin m → K}
    (hx : SingleValued p x) : Covered s ∧ ∃ a b, p.callAt x = .ok a ∧ q.callAt x = .ok b ∧ s.callAt x = .ok (a + b) := by
  obtain ⟨F, hF⟩ := hp.denotes
  obtain ⟨G, hG⟩ := hq.denotes
  obtain ⟨h1, h2, -, h3⟩ := (C48_add hp hq hk hF hG hcase).1 s hs
  exact call_map₂ hp hq h1 hcp hcq (inherits_combine hp hcase hs) h2.cont hk.triangles.symm hk.vertices.symm (fun h => by rw [← hk.cont]; exact h) hpos hF hG
    (f := (· + ·)) (by simp) h3 hx

/-- **C81** `(p - q)(x) = p(x) - q(x)`. -/
theorem C81_sub {p q s : PObj K V m (Kd.MeshTree K)} (hp : WellFormed p) (hq : WellFormed q) (hcp : Covered p) (hcq : Covered q) (hk : SameKind p q)
    (hcase : p.r = q.r ∨ (Full p ∧ Fits (max p.r q.r) m)) (hpos : PositivelyOriented p.triangles p.vertices) (hs : p.sub q = .ok s) {x : Fin m → K}
    (hx : SingleValued p x) : Covered s ∧ ∃ a b, p.callAt x = .ok a ∧ q.callAt x = .ok b ∧ s.callAt x = .ok (a - b) := by
  obtain ⟨F, hF⟩ := hp.denotes
  obtain ⟨G, hG⟩ := hq.denotes
  obtain ⟨h1, h2, -, h3⟩ := (C48_sub hp hq hk hF hG hcase).1 s hs
  exact call_map₂ hp hq h1 hcp hcq (inherits_combine hp hcase hs) h2.cont hk.triangles.symm hk.vertices.symm (fun h => by rw [← hk.cont]; exact h) hpos hF hG
    (f := (· - ·)) (by simp) h3 hx

/-- **C81** `(p * q)(x) = p(x) q(x)`. -/
theorem C81_mul {p q s : PObj K K m (Kd.MeshTree K)} (hp : WellFormed p) (hq : WellFormed q) (hcp : Covered p) (hcq : Covered q) (hfull : Full p)
    (hpq : Compatible p q) (hpos : PositivelyOriented p.triangles p.vertices) (hs : p.mul q = .ok s) {x : Fin m → K}
    (hx : SingleValued p x) : Covered s ∧ ∃ a b, p.callAt x = .ok a ∧ q.callAt x = .ok b ∧ s.callAt x = .ok (a * b) := by
  obtain ⟨F, hF⟩ := hp.denotes
  obtain ⟨G, hG⟩ := hq.denotes
  obtain ⟨h1, h2, -, h3⟩ : WellFormed s ∧ SameKind s p ∧ s.r = p.r + q.r ∧ Denotes s (fun j x => F j x * G j x) := by
    obtain ⟨e1, e2⟩ := C48_mul hp hq hfull hpq hF hG
    by_cases hc : (∀ j ∈ p.support, j ∉ q.support) ∨ Fits (p.r + q.r) m
    · obtain ⟨s', e3, e4⟩ := e1 hc
      obtain rfl := Except.ok.inj (hs.symm.trans e3)
      exact e4
    · obtain ⟨e, he⟩ := e2 hc
      rw [hs] at he
      cases he
  exact call_map₂ hp hq h1 hcp hcq (inherits_mul hs) h2.cont hpq.triangles hpq.vertices hpq.cont hpos hF hG (f := (· * ·)) (by simp) h3 hx

/-- **C81** `(c p)(x) = c p(x)` and `(p / c)(x) = p(x) / c`. -/
theorem C81_scale {p : PObj K V m (Kd.MeshTree K)} (hp : WellFormed p) (hcp : Covered p) (hpos : PositivelyOriented p.triangles p.vertices) (c : K)
    {x : Fin m → K} (hx : SingleValued p x) :
    (∃ s, p.smul c = .ok s ∧ Covered s ∧ ∃ a, p.callAt x = .ok a ∧ s.callAt x = .ok (c • a)) ∧
    (c ≠ 0 → ∃ s, p.divConst c = .ok s ∧ Covered s ∧ ∃ a, p.callAt x = .ok a ∧ s.callAt x = .ok (c⁻¹ • a)) := by
  obtain ⟨F, hF⟩ := hp.denotes
  refine ⟨?_, fun hc => ?_⟩
  · obtain ⟨s, h1, h2, h3, -, h4⟩ := C48_smul hp hF c
    exact ⟨s, h1, call_map hp h2 hcp (inherits_remake hp h1) h3.cont hpos hF (f := fun a => c • a) (by simp) h4 hx⟩
  · obtain ⟨s, h1, h2, h3, -, h4⟩ := C48_div hp hF c hc
    exact ⟨s, h1, call_map hp h2 hcp (inherits_remake hp h1) h3.cont hpos hF (f := fun a => c⁻¹ • a) (by simp) h4 hx⟩

/-- **C81** Degree elevation does not change the values. -/
theorem C81_elevate {p s : PObj K V m (Kd.MeshTree K)} (hp : WellFormed p) (hcp : Covered p) (hfull : Full p)
    (hpos : PositivelyOriented p.triangles p.vertices) {n : ℕ} (hn : n = p.r ∨ Fits n m) (hs : p.degreeElevate n = .ok s) {x : Fin m → K} (hx : SingleValued p x) :
    Covered s ∧ ∃ a, p.callAt x = .ok a ∧ s.callAt x = .ok a := by
  obtain ⟨F, hF⟩ := hp.denotes
  obtain ⟨h1, h2, -⟩ := C48_elevate hp hfull hF n
  by_cases hle : p.r ≤ n
  · obtain ⟨s', e1, e2, e3, -, -, e4⟩ := h1 hle hn
    obtain rfl := Except.ok.inj (hs.symm.trans e1)
    exact call_map hp e2 hcp (inherits_elevate hp hs) e3.cont hpos hF (f := id) rfl e4 hx
  · rw [h2 (by omega)] at hs
    cases hs

/-- **C81** `(p ** k)(x) = p(x) ** k` for positive exponents. -/
theorem C81_pow {p s : PObj K K m (Kd.MeshTree K)} (hp : WellFormed p) (hcp : Covered p) (hfull : Full p) (hpos : PositivelyOriented p.triangles p.vertices)
    {k : ℕ} (hk : k ≠ 0) (hs : p.powNat k = .ok s) {x : Fin m → K} (hx : SingleValued p x) :
    Covered s ∧ ∃ a, p.callAt x = .ok a ∧ s.callAt x = .ok (a ^ k) := by
  obtain ⟨F, hF⟩ := hp.denotes
  obtain ⟨h1, h2⟩ := C48_pow hp hfull hF k hk
  by_cases hc : p.support = [] ∨ k = 1 ∨ Fits (k * p.r) m
  · obtain ⟨s', e1, e2, e3, -, e4⟩ := h1 hc
    obtain rfl := Except.ok.inj (hs.symm.trans e1)
    exact call_map hp e2 hcp (inherits_pow hp hk hs) e3.cont hpos hF (f := fun a => a ^ k) (by simp [hk]) e4 hx
  · obtain ⟨e, he⟩ := h2 hc
    rw [hs] at he
    cases he

/-- **C81** Components of vector valued functions: `p[i](x) = p(x)[i]`. -/
theorem C81_component {n : ℕ} {p : PObj K (Fin n → K) m (Kd.MeshTree K)} (hp : WellFormed p) (hcp : Covered p) (hfull : Full p)
    (hpos : PositivelyOriented p.triangles p.vertices) (i : Fin n) {x : Fin m → K} (hx : SingleValued p x) :
    ∃ s, p.component i = .ok s ∧ Covered s ∧ ∃ a, p.callAt x = .ok a ∧ s.callAt x = .ok (a i) := by
  obtain ⟨F, hF⟩ := hp.denotes
  obtain ⟨s, h1, h2, h3, -, h4⟩ := (C48_component hp hfull hF).1 i
  refine ⟨s, h1, call_map hp h2 hcp ?_ h3.cont hpos hF (f := fun a => a i) rfl h4 hx⟩
  unfold PObj.component at h1
  rw [dif_pos i.2] at h1
  exact inherits_remake hp h1

/-- **C81** Multiplication of a scalar valued function with a vector. -/
theorem C81_outer {n : ℕ} {p : PObj K K m (Kd.MeshTree K)} (hp : WellFormed p) (hcp : Covered p) (hpos : PositivelyOriented p.triangles p.vertices)
    (c : Fin n → K) {x : Fin m → K} (hx : SingleValued p x) :
    ∃ s, p.outer c = .ok s ∧ Covered s ∧ ∃ a, p.callAt x = .ok a ∧ s.callAt x = .ok (a • c) := by
  obtain ⟨F, hF⟩ := hp.denotes
  obtain ⟨s, h1, h2, h3, -, h4⟩ := C48_outer hp hF c
  exact ⟨s, h1, call_map hp h2 hcp (inherits_remake hp h1) h3.cont hpos hF (f := fun a => a • c) (by simp) h4 hx⟩

/-- **C81** (finding) The power zero uses the search tree of the base, which was built for the simplices in `S` (for a new object: its support): the value is 1 in
these simplices and 0 at all other points, although the function is 1 on each simplex of the mesh. -/
theorem C81_pow_zero {p : PObj K K m (Kd.MeshTree K)} (hp : WellFormed p) {S : List ℕ} (hcp : CoveredBy p S) (hfull : Full p)
    (hall : p.cont = true → ∀ v, v < p.vertices.length → ∃ T ∈ p.triangles, v ∈ T) (hkeep : p.cont = true ∨ p.keepLast = false)
    (hpos : PositivelyOriented p.triangles p.vertices) :
    ∃ s, p.powNat 0 = .ok s ∧ WellFormed s ∧ s.triangles = p.triangles ∧ Denotes s (fun _ _ => 1) ∧
      (∀ x, (∃ j ∈ S, InCell p.triangles p.vertices j x) → s.callAt x = .ok 1) ∧
      ∀ x, (∀ j ∈ S, ¬ InCell p.triangles p.vertices j x) → s.callAt x = .ok 0 := by
  obtain ⟨s, h1, h2, h3, h4, h5⟩ := C48_pow_zero hp hfull hall hkeep
  have hpos' : PositivelyOriented s.triangles s.vertices := by rw [h3.triangles, h3.vertices]; exact hpos
  have hcase : ∀ x, (∃ j ∈ S, InCell s.triangles s.vertices j x ∧ s.callAt x = s.evaluateOnSimplex j x) ∨
      (s.callAt x = .ok 0 ∧ ∀ j ∈ S, ¬ InCell s.triangles s.vertices j x) := fun x =>
    callAt_cases h2 (by rw [h3.triangles, h3.vertices, h4]; exact hcp.1) (by rw [h3.triangles]; exact hcp.2.2) hpos' x
  rw [h3.triangles, h3.vertices] at hcase
  refine ⟨s, h1, h2, h3.triangles, h5, fun x hx => ?_, fun x hx => ?_⟩
  · rcases hcase x with ⟨j, hj, -, e⟩ | ⟨-, e⟩
    · rw [e]
      exact h5 j (by rw [h3.triangles]; exact hcp.2.2 j hj) x
    · obtain ⟨j, hj, hx⟩ := hx
      exact absurd hx (e j hj)
  · rcases hcase x with ⟨j, hj, e, -⟩ | ⟨e, -⟩
    · exact absurd e (hx j hj)
    · exact e

end Operations

end Call

/-! ## C81: from the constructor to the values -/

/-- **C81** The support that the constructor determines: it contains each simplex on which a coefficient is not zero. If no degrees of freedom are left out, it
contains no other simplices. (A degree of freedom that was left out has the number -1, and the constructor then tests the last coefficient.) -/
theorem C81_support {K V : Type} [Field K] [DecidableEq K] [CharZero K] [AddCommGroup V] [DecidableEq V] [Module K V] {m r : ℕ} {Tr : Type} {mkTree : List ℕ → Py Tr}
    {b : Basis} {cont : Bool} {coeff : List V} {triangles : List (List ℕ)} {vertices : List (Fin m → K)} {tau : Option (Int → List ℕ → Py Int)}
    {boundary : Option (List (List ℕ))} {keepLast : Bool} {tree : Option Tr} {polys : Option (List (ℕ × List (SObj K K m)))} {p : PObj K V m Tr}
    (h : PObj.new mkTree b cont coeff triangles vertices r tau boundary keepLast none tree polys = .ok p) (hp : WellFormed p) {j : ℕ}
    (hj : j < p.triangles.length) :
    ((∃ ν, IsIndex m p.r ν ∧ coeffAt p.tau p.coeff j ν ≠ 0) → j ∈ p.support) ∧
      (Full p → j ∈ p.support → ∃ ν, IsIndex m p.r ν ∧ coeffAt p.tau p.coeff j ν ≠ 0) := by
  obtain ⟨-, -, -, -, -, -, hs⟩ := new_eq h
  obtain ⟨M, t, -, hM, ht⟩ := hp.data
  rw [hM, supportArg_eq hp.coeff ht] at hs
  have hs := Except.ok.inj hs
  rw [← hs, mem_sup]
  have hval : ∀ ν, IsIndex m p.r ν → (t j ν = -1 ∧ coeffAt p.tau p.coeff j ν = 0) ∨ coeffAt p.tau p.coeff j ν = rd p.coeff t j ν := by
    intro ν hν
    unfold coeffAt rd
    rw [hM, ht.tau j hj ν]
    rcases ht.range j hj ν hν with e | ⟨i, -, e⟩
    · left
      rw [e]
      exact ⟨rfl, rfl⟩
    · right
      rw [e, if_neg (by omega)]
      rfl
  refine ⟨fun ⟨ν, hν, hne⟩ => ⟨hj, ν, hν, ?_⟩, fun hf ⟨_, ν, hν, hne⟩ => ⟨ν, hν, ?_⟩⟩
  · rcases hval ν hν with ⟨-, e⟩ | e
    · exact absurd e hne
    · rwa [← e]
  · rcases hval ν hν with ⟨e, -⟩ | e
    · obtain ⟨i, -, e'⟩ := ht.full hf hj hν
      omega
    · rwa [e]

section Construct
open PointCloud
variable [Sub (Kd.Ext ℝ)] [Mul (Kd.Ext ℝ)] [One (Kd.Ext ℝ)] {k r : Nat} {V : Type} [AddCommGroup V] [DecidableEq V] [Module ℝ V]

theorem buildTree_ok {eigh : Eigh (k + 1)} (he : IsEigh eigh) {cont : Bool} {triangles : List (List ℕ)} {vertices : List (Fin (k + 1) → ℝ)}
    {boundary : Option (List (List ℕ))} (hsp : IsSpace cont triangles vertices r boundary) (S : List ℕ) (hS : ∀ j ∈ S, j < triangles.length) :
    ∃ T, buildTree (splitPlane eigh (meshOf triangles vertices)) triangles vertices S = .ok T := by
  have hmem : ∀ s ∈ triangles, s ≠ [] ∧ ∀ i ∈ s, i < vertices.length := by
    intro s hs
    obtain ⟨j, hj, rfl⟩ := List.getElem_of_mem hs
    refine ⟨fun h => ?_, ?_⟩
    · have := (hsp.mesh.simplex _ hs).1
      rw [h] at this
      simp at this
    · obtain ⟨v, hv, -⟩ := hsp.cells j hj
      obtain ⟨T, hT, hl⟩ := cell_eq hv
      rw [List.getElem?_eq_getElem hj] at hT
      obtain rfl := Option.some.inj hT
      intro i hi
      unfold Complex.simplexVertices at hl
      obtain ⟨_, hl⟩ := bind_ok_cont hl
      obtain ⟨y, hy⟩ := mapM_ok_mem hl i hi
      exact (List.getElem?_eq_some_iff.1 (Kd.getE_eq_ok hy)).1
  have hk : ∃ v, (meshOf triangles vertices).vertices[0]? = some v := by
    obtain ⟨T, hT⟩ := List.exists_mem_of_ne_nil _ hsp.mesh.ne
    obtain ⟨h1, h2⟩ := hmem T hT
    obtain ⟨i, hi⟩ := List.exists_mem_of_ne_nil _ h1
    have := h2 i hi
    exact ⟨List.ofFn (vertices[0]'(by omega)), by simp only [meshOf, List.getElem?_map, List.getElem?_eq_getElem (show 0 < vertices.length by omega), Option.map_some]⟩
  obtain ⟨t, h, -⟩ := C76_create_kd_tree he (meshOf triangles vertices) hk
    (by intro v hv; obtain ⟨a, -, rfl⟩ := List.mem_map.1 hv; simp) (by simpa [meshOf] using hmem) false 10 (some 5) (Or.inr (by simp)) (some S) (fun l hl => Option.some.inj hl ▸ hS)
  exact ⟨t, h⟩

/-- **C81** From the constructor to the values: on every mesh of simplices in at least one dimension the constructor (with the search tree that `create_kd_tree`
builds) returns an object. If the simplices are positively oriented, calling it at a point returns the combination of the basis polynomials with the coefficients of
a simplex that contains the point, evaluated at its barycentric coordinates, and zero at points outside of the mesh. -/
theorem C81_construct {eigh : Eigh (k + 1)} (he : IsEigh eigh) {b : Basis} (hb : b ≠ .monomial) {cont : Bool} {triangles : List (List ℕ)}
    {vertices : List (Fin (k + 1) → ℝ)} {boundary : Option (List (List ℕ))} {keepLast : Bool} (hsp : IsSpace cont triangles vertices r boundary)
    (hf : Fits r (k + 1)) {M : L2G.Map} (hM : genMap cont triangles r boundary keepLast = .ok M) {coeff : List V} (hn : M.numDofs = coeff.length)
    (hc : coeff ≠ []) {tau : Option (Int → List Nat → Py Int)} (htau : (tau = none ∧ (cont = true ∨ keepLast = false)) ∨ tau = some M.tau) :
    ∃ p : PObj ℝ V (k + 1) (Kd.MeshTree ℝ), PObj.new (buildTree (splitPlane eigh (meshOf triangles vertices)) triangles vertices) b cont coeff triangles vertices r tau
        boundary keepLast none none none = .ok p ∧ WellFormed p ∧ CoveredBy p p.support ∧ p.cont = cont ∧ p.triangles = triangles ∧ p.vertices = vertices ∧
      (PositivelyOriented triangles vertices → ∀ x, SingleValued p x →
        (∀ j v w, cell triangles vertices j = .ok v → IsBarycentric v x w → (∀ i, 0 ≤ w i) →
          p.callAt x = .ok (combination b r (coeffAt M.tau coeff j) w)) ∧
        ((∀ j, ¬ InCell triangles vertices j x) → p.callAt x = .ok 0)) := by
  obtain ⟨p, h1, h2, h3, h4, h5, h6, h7, h8, h9, h10, h11, h12⟩ := C48_construct hb hsp hf hM hn hc htau (buildTree_ok he hsp)
  have hcov := C81_new h1 h2
  refine ⟨p, h1, h2, hcov, h4, h6, h7, fun hpos x hx => ⟨fun j v w hv hw h0 => ?_, fun hout => ?_⟩⟩
  · obtain ⟨F, hF⟩ := h2.denotes
    have hlt := cell_lt hv
    rw [C81_call h2 ⟨_, hcov⟩ (by rw [h6, h7]; exact hpos) hF hx (j := j) (by rw [h6, h7]; exact ⟨v, hv, w, h0, hw⟩), ← hF j (by rw [h6]; exact hlt) x]
    exact h12 j hlt v hv x w hw
  · exact C81_outside h2 ⟨_, hcov⟩ (by rw [h6, h7]; exact hpos) (by rw [h6, h7]; exact hout)

end Construct

section Square
open PointCloud

/-! ### The square -/

theorem squareReal_in0 {x : Fin 2 → ℝ} : InCell squareTriangles squareReal 0 x ↔ 0 ≤ x 0 ∧ 0 ≤ x 1 ∧ x 0 + x 1 ≤ 1 := by
  unfold InCell
  rw [squareReal_cell0]
  constructor
  · rintro ⟨v, hv, w, h0, h1, h2⟩
    obtain rfl := Except.ok.inj hv
    rw [Fin.sum_univ_three] at h1
    have a0 := congrFun h2 0
    have a1 := congrFun h2 1
    simp [Fin.sum_univ_three] at a0 a1
    have := h0 0; have := h0 1; have := h0 2
    refine ⟨?_, ?_, ?_⟩ <;> linarith
  · rintro ⟨h0, h1, h2⟩
    refine ⟨_, rfl, ![1 - x 0 - x 1, x 0, x 1], ?_, ?_, ?_⟩
    · intro i
      fin_cases i <;> simp <;> linarith
    · simp [Fin.sum_univ_three]; try ring
    · funext i
      fin_cases i <;> simp [Fin.sum_univ_three]

theorem squareReal_in1 {x : Fin 2 → ℝ} : InCell squareTriangles squareReal 1 x ↔ x 0 ≤ 1 ∧ x 1 ≤ 1 ∧ 1 ≤ x 0 + x 1 := by
  unfold InCell
  rw [squareReal_cell1]
  constructor
  · rintro ⟨v, hv, w, h0, h1, h2⟩
    obtain rfl := Except.ok.inj hv
    rw [Fin.sum_univ_three] at h1
    have a0 := congrFun h2 0
    have a1 := congrFun h2 1
    simp [Fin.sum_univ_three] at a0 a1
    have := h0 0; have := h0 1; have := h0 2
    refine ⟨?_, ?_, ?_⟩ <;> linarith
  · rintro ⟨h0, h1, h2⟩
    refine ⟨_, rfl, ![1 - x 1, x 0 + x 1 - 1, 1 - x 0], ?_, ?_, ?_⟩
    · intro i
      fin_cases i <;> simp <;> linarith
    · simp [Fin.sum_univ_three]
    · funext i
      fin_cases i <;> simp [Fin.sum_univ_three]

theorem squareReal_two {j : ℕ} {x : Fin 2 → ℝ} (h : InCell squareTriangles squareReal j x) : j = 0 ∨ j = 1 := by
  obtain ⟨v, hv, -⟩ := h
  have := cell_lt hv
  simp [squareTriangles] at this
  omega

theorem squareReal_conforming : Conforming squareTriangles squareReal := by
  have face : ∀ x : Fin 2 → ℝ, x 0 + x 1 = 1 → OnCommonFace squareReal [0, 1, 2] [1, 3, 2] x ∧ OnCommonFace squareReal [1, 3, 2] [0, 1, 2] x := by
    intro x hx
    have e1 : [0, 1, 2].toFinset ∩ [1, 3, 2].toFinset = ({1, 2} : Finset ℕ) := by decide
    have e2 : [1, 3, 2].toFinset ∩ [0, 1, 2].toFinset = ({1, 2} : Finset ℕ) := by decide
    have key : ∑ i ∈ ({1, 2} : Finset ℕ), (if i = 1 then x 0 else x 1) = 1 ∧
        x = ∑ i ∈ ({1, 2} : Finset ℕ), (if i = 1 then x 0 else x 1) • squareReal.getD i 0 := by
      constructor
      · simpa using hx
      · funext i
        fin_cases i <;> simp [squareReal]
    exact ⟨⟨_, by rw [e1]; exact key⟩, ⟨_, by rw [e2]; exact key⟩⟩
  have same : ∀ j (hj : j < squareTriangles.length) x, InCell squareTriangles squareReal j x →
      OnCommonFace squareReal squareTriangles[j] squareTriangles[j] x := by
    intro j hj x hx
    have : j = 0 ∨ j = 1 := squareReal_two hx
    rcases this with rfl | rfl
    · refine ⟨fun i => if i = 0 then 1 - x 0 - x 1 else if i = 1 then x 0 else x 1, ?_, ?_⟩
      · simp [squareTriangles]
      · funext i
        fin_cases i <;> simp [squareTriangles, squareReal]
    · refine ⟨fun i => if i = 1 then 1 - x 1 else if i = 3 then x 0 + x 1 - 1 else 1 - x 0, ?_, ?_⟩
      · simp [squareTriangles]
      · funext i
        fin_cases i <;> simp [squareTriangles, squareReal]
  intro j j' hj hj' x h h'
  rcases squareReal_two h with rfl | rfl <;> rcases squareReal_two h' with rfl | rfl
  · exact same 0 hj x h
  · obtain ⟨-, -, a⟩ := squareReal_in0.1 h
    obtain ⟨-, -, b⟩ := squareReal_in1.1 h'
    exact (face x (le_antisymm a b)).1
  · obtain ⟨-, -, a⟩ := squareReal_in0.1 h'
    obtain ⟨-, -, b⟩ := squareReal_in1.1 h
    exact (face x (le_antisymm a b)).2
  · exact same 1 hj x h

/-- The function on the square that is 1 in one vertex and 0 in the other vertices. -/
example [Sub (Kd.Ext ℝ)] [Mul (Kd.Ext ℝ)] [One (Kd.Ext ℝ)] {eigh : Eigh 2} (he : IsEigh eigh) : ∃ p : PObj ℝ ℝ 2 (Kd.MeshTree ℝ),
    PObj.new (buildTree (splitPlane eigh (meshOf squareTriangles squareReal)) squareTriangles squareReal) .bernstein true [1, 0, 0, 0] squareTriangles squareReal 1
      none none false none none none = .ok p ∧ p.callAt ![1 / 4, 1 / 4] = .ok (1 / 2) ∧ p.callAt ![3, 1] = .ok 0 := by
  obtain ⟨M, hM, hn, h0, h1, h2⟩ : ∃ M, genMap true squareTriangles 1 none false = .ok M ∧ M.numDofs = 4 ∧ M.tau 0 [0, 0] = .ok 0 ∧ M.tau 0 [1, 0] = .ok 1 ∧
    M.tau 0 [0, 1] = .ok 2 := ⟨_, rfl, rfl, rfl, rfl, rfl⟩
  obtain ⟨p, h, hw, hcov, hc, ht, hv, hcall⟩ := C81_construct he (b := .bernstein) (by simp) (squareReal_space true 1 (by norm_num) none (by simp [AreSimplices]))
    (Or.inr (by norm_num)) hM (coeff := ([1, 0, 0, 0] : List ℝ)) hn (by simp) (tau := none) (Or.inl ⟨rfl, Or.inl rfl⟩)
  have hsv : ∀ x, SingleValued p x := fun x => Or.inl ⟨hc, by rw [ht, hv]; exact squareReal_conforming⟩
  have hbary : IsBarycentric (fun i : Fin 3 => [![(0 : ℝ), 0], ![1, 0], ![0, 1]][(i : ℕ)]'(i.2)) ![1 / 4, 1 / 4] ![1 / 2, 1 / 4, 1 / 4] := by
    constructor
    · simp [Fin.sum_univ_three]
      norm_num
    · funext i
      fin_cases i <;> simp [Fin.sum_univ_three]
  refine ⟨p, h, ?_, ?_⟩
  · rw [(hcall squareReal_pos _ (hsv _)).1 0 _ ![1 / 2, 1 / 4, 1 / 4] squareReal_cell0 hbary ?_]
    · congr 1
      have e : (Fintype.piFinset fun _ : Fin 2 => Finset.range 2).filter (fun ν => ∑ i, ν i ≤ 1) = {![0, 0], ![1, 0], ![0, 1]} := by decide
      unfold combination
      rw [e]
      simp [coeffAt, h0, h1, h2, List.ofFn_succ]
      norm_num [Poly.basisFn, Spec.bernstein, Spec.monomial, Spec.multinomial]
    · intro i
      fin_cases i <;> norm_num
  · refine (hcall squareReal_pos _ (hsv _)).2 fun j hj => ?_
    rcases squareReal_two hj with rfl | rfl
    · have := squareReal_in0.1 hj
      norm_num at this
    · have := squareReal_in1.1 hj
      norm_num at this

/-- Its square is called correctly, its power zero is not: the function is 1 on the second triangle, but calling it there returns 0. -/
example [Sub (Kd.Ext ℝ)] [Mul (Kd.Ext ℝ)] [One (Kd.Ext ℝ)] {eigh : Eigh 2} (he : IsEigh eigh) : ∃ p s q : PObj ℝ ℝ 2 (Kd.MeshTree ℝ),
    PObj.new (buildTree (splitPlane eigh (meshOf squareTriangles squareReal)) squareTriangles squareReal) .bernstein true [1, 0, 0, 0] squareTriangles squareReal 1
      none none false none none none = .ok p ∧ p.powNat 2 = .ok q ∧ (∃ a, p.callAt ![1 / 4, 1 / 4] = .ok a ∧ q.callAt ![1 / 4, 1 / 4] = .ok (a ^ 2)) ∧
    p.powNat 0 = .ok s ∧ s.evaluateOnSimplex 1 ![3 / 4, 3 / 4] = .ok 1 ∧ s.callAt ![3 / 4, 3 / 4] = .ok 0 := by
  obtain ⟨M, hM, hn, h0, h1, h2⟩ : ∃ M, genMap true squareTriangles 1 none false = .ok M ∧ M.numDofs = 4 ∧ M.tau 1 [0, 0] = .ok 1 ∧ M.tau 1 [1, 0] = .ok 3 ∧
    M.tau 1 [0, 1] = .ok 2 := ⟨_, rfl, rfl, rfl, rfl, rfl⟩
  obtain ⟨p, hnew, q1, q2, q3, q4, q5, q6, q7, q8, q9, q10, q11⟩ := C48_construct (K := ℝ) (V := ℝ) (m := 2) (b := .bernstein) (by simp)
    (squareReal_space true 1 (by norm_num) none (by simp [AreSimplices])) (Or.inr (by norm_num)) hM (coeff := ([1, 0, 0, 0] : List ℝ)) hn (by simp)
    (tau := none) (Or.inl ⟨rfl, Or.inl rfl⟩) (buildTree_ok he (squareReal_space true 1 (by norm_num) none (by simp [AreSimplices])))
  have hfull : Full p := Or.inr (by rw [q7]; rfl)
  have hcov := C81_new hnew q1
  have hpos : PositivelyOriented p.triangles p.vertices := by rw [q5, q6]; exact squareReal_pos
  have hsv : ∀ x, SingleValued p x := fun x => Or.inl ⟨q3, by rw [q5, q6]; exact squareReal_conforming⟩
  have hsup : 1 ∉ p.support := by
    intro h
    obtain ⟨ν, hν, hne⟩ := (C81_support hnew q1 (j := 1) (by rw [q5]; simp [squareTriangles])).2 hfull h
    rw [q9] at hν
    obtain ⟨hl, hs⟩ := hν
    match ν, hl with
    | [a, b], _ =>
      simp at hs
      have : (a = 0 ∧ b = 0) ∨ (a = 1 ∧ b = 0) ∨ (a = 0 ∧ b = 1) := by omega
      rcases this with ⟨rfl, rfl⟩ | ⟨rfl, rfl⟩ | ⟨rfl, rfl⟩ <;> simp [coeffAt, q4, q10, h0, h1, h2] at hne
  obtain ⟨s, e1, e2, e0, e3, e4, e5⟩ := C81_pow_zero q1 hcov hfull (by
    intro _ v hv
    rw [q6] at hv
    rw [q5]
    simp [squareReal] at hv
    have : v = 0 ∨ v = 1 ∨ v = 2 ∨ v = 3 := by omega
    rcases this with rfl | rfl | rfl | rfl
    · exact ⟨[0, 1, 2], by simp [squareTriangles], by simp⟩
    · exact ⟨[0, 1, 2], by simp [squareTriangles], by simp⟩
    · exact ⟨[0, 1, 2], by simp [squareTriangles], by simp⟩
    · exact ⟨[1, 3, 2], by simp [squareTriangles], by simp⟩) (Or.inl q3) hpos
  obtain ⟨F, hF⟩ := q1.denotes
  obtain ⟨q, g1, -⟩ := (C48_pow q1 hfull hF 2 (by norm_num)).1 (Or.inr (Or.inr (Or.inr (by rw [q9]; norm_num))))
  refine ⟨p, s, q, hnew, g1, (C81_pow q1 ⟨_, hcov⟩ hfull hpos (by norm_num) g1 (hsv _)).2, e1, e3 1 (by rw [e0, q5]; simp [squareTriangles]) _, e5 _ fun j hj hx => ?_⟩
  rw [q5, q6] at hx
  rcases squareReal_two hx with rfl | rfl
  · have := squareReal_in0.1 hx
    norm_num at this
  · exact hsup hj

end Square

end Verif.Props
