import Verif.Lemmas.PiecewiseHeap
import Verif.Props.Piecewise
import Verif.Props.PiecewiseDrop
/-!
# C92: piecewise polynomials and the arrays and sets they refer to
-/

namespace Verif.Props
open Verif Verif.Poly Verif.Simplex Verif.Spec Verif.SPoly Verif.PP Verif.PPHeap Verif.Spec.PPValues

variable {K : Type} [Field K] [LinearOrder K] {m n : Nat} {T : Type}

/-- **C92** (values). A program that does not assign to an array of triangles, boundary simplices or vertices after it has constructed a piecewise polynomial
with it, and does not change the sets that `support()` returns, gets, for every history of operations, the results of a program in which
piecewise polynomials are values with their own mesh, support and search tree. -/
theorem C92_refines (S : Search K m T) (ops : List (Op K m n)) (hops : Careful ops) :
    (Heap.empty : Heap K m n T).results S ops = (Store.empty : Store K m n T).results S ops := by
  refine results_eq S ops [] hops ?_
  have := relAll_empty (K := K) (m := m) (n := n) (T := T)
  exact ⟨this.arrays, this.scalars.mono (fun _ h => h.elim) (fun _ h => h.elim), this.vectors.mono (fun _ h => h.elim) (fun _ h => h.elim)⟩

/-- A program that fills the arrays before it constructs piecewise polynomials, and uses other arrays for the next mesh. -/
example (t : List (List ℕ)) (v w : List (Fin 2 → ℚ)) : Careful ([.indexArray t, .pointArray v, .writePoints 0 w,
    .scalar (.new .bernstein true [1, 2, 3] 0 0 1 none false none), .pointArray v, .writePoints 1 w,
    .scalar (.new .lagrange false [1, 2, 3] 0 1 1 none false none), .scalar (.scale 0 2)] : List (Op ℚ 2 2)) := by
  refine ⟨?_, ?_, ?_⟩
  · intro before l u after h op hop hu
    have hm : (Op.writeIndex l u : Op ℚ 2 2) ∈ ([.indexArray t, .pointArray v, .writePoints 0 w,
      .scalar (.new .bernstein true [1, 2, 3] 0 0 1 none false none), .pointArray v, .writePoints 1 w,
      .scalar (.new .lagrange false [1, 2, 3] 0 1 1 none false none), .scalar (.scale 0 2)] : List (Op ℚ 2 2)) := by rw [h]; simp
    simp at hm
  · intro before l u after h op hop hu
    rcases before with _ | ⟨a, _ | ⟨b, _ | ⟨c, _ | ⟨d, _ | ⟨e, _ | ⟨f, _ | ⟨g, _ | ⟨i, k⟩⟩⟩⟩⟩⟩⟩⟩ <;> simp at h
    · obtain ⟨rfl, rfl, ⟨rfl, rfl⟩, rfl⟩ := h
      simp at hop
      rcases hop with rfl | rfl <;> simp [UsesPoints] at hu
    · obtain ⟨rfl, rfl, rfl, rfl, rfl, ⟨rfl, rfl⟩, rfl⟩ := h
      simp at hop
      rcases hop with rfl | rfl | rfl | rfl | rfl <;> simp [UsesPoints] at hu
  · simp [EditsSupport]

/-- **C92** (evaluation on a simplex is fixed). Whatever a program does with the arrays of the mesh, the coefficients of an existing piecewise polynomial
never change; and as long as it does not change sets that `support()` returned, the support and the values that `evaluate_on_simplex` returns
do not change either. -/
theorem C92_evaluate_fixed (S : Search K m T) (ops more : List (Op K m n)) (a j : Nat) (x : Fin m → K) :
    (a < ((Heap.empty : Heap K m n T).after S ops).scalars.length →
      (((Heap.empty : Heap K m n T).after S (ops ++ more)).step S (.scalar (.coeff a))).2 =
        (((Heap.empty : Heap K m n T).after S ops).step S (.scalar (.coeff a))).2 ∧
      ((∀ op ∈ more, ¬ EditsSupport op) →
        (((Heap.empty : Heap K m n T).after S (ops ++ more)).step S (.scalar (.evaluate a j x))).2 =
          (((Heap.empty : Heap K m n T).after S ops).step S (.scalar (.evaluate a j x))).2 ∧
        (((Heap.empty : Heap K m n T).after S (ops ++ more)).step S (.scalar (.support a))).2 =
          (((Heap.empty : Heap K m n T).after S ops).step S (.scalar (.support a))).2)) ∧
    (a < ((Heap.empty : Heap K m n T).after S ops).vectors.length →
      (((Heap.empty : Heap K m n T).after S (ops ++ more)).step S (.vector (.coeff a))).2 =
        (((Heap.empty : Heap K m n T).after S ops).step S (.vector (.coeff a))).2 ∧
      ((∀ op ∈ more, ¬ EditsSupport op) →
        (((Heap.empty : Heap K m n T).after S (ops ++ more)).step S (.vector (.evaluate a j x))).2 =
          (((Heap.empty : Heap K m n T).after S ops).step S (.vector (.evaluate a j x))).2 ∧
        (((Heap.empty : Heap K m n T).after S (ops ++ more)).step S (.vector (.support a))).2 =
          (((Heap.empty : Heap K m n T).after S ops).step S (.vector (.support a))).2)) := by
  rw [after_append]
  obtain ⟨_, ok, _⟩ := good_after S ops (h := (Heap.empty : Heap K m n T)) ok_empty
  obtain ⟨f, _, g⟩ := good_after S more ok
  constructor
  · intro ha
    obtain ⟨p, p', v1, v2, e1, e2, e3, e4, e5⟩ := view_fixed f.scalars ok.scalars f.mem ha
    simp only [Heap.step, Heap.scalarResult, PPHeap.ustep, query, v1, v2, Py.bind_ok, e2]
    refine ⟨trivial, fun he => ?_⟩
    rw [evaluate_congr e1 e2 e3 e4 (e5 (g he)), e5 (g he)]
    exact ⟨rfl, rfl⟩
  · intro ha
    obtain ⟨p, p', v1, v2, e1, e2, e3, e4, e5⟩ := view_fixed f.vectors ok.vectors f.mem ha
    simp only [Heap.step, Heap.vectorResult, PPHeap.ustep, query, v1, v2, Py.bind_ok, e2]
    refine ⟨trivial, fun he => ?_⟩
    rw [evaluate_congr e1 e2 e3 e4 (e5 (g he)), e5 (g he)]
    exact ⟨rfl, rfl⟩

/-- **C92** (finding). The set of simplices that `support()` returns is shared with multiples: a program that computes `q = a * c` and then removes all
elements of `q.support()` has changed `a` to the zero function. -/
theorem C92_shared_support (S : Search K m T) (ops : List (Op K m n)) (a j : Nat) (x : Fin m → K) (c : K) (hc : c ≠ 0)
    (hq : (((Heap.empty : Heap K m n T).after S ops).step S (.scalar (.scale a c))).2 = .ok (.inl .nothing)) :
    (((Heap.empty : Heap K m n T).after S (ops ++ [.scalar (.scale a c),
      .scalar (.editSupport ((Heap.empty : Heap K m n T).after S ops).scalars.length [])])).step S (.scalar (.evaluate a j x))).2 = .ok (.inl (.value 0)) := by
  rw [after_append]
  obtain ⟨_, ok, _⟩ := good_after S ops (h := (Heap.empty : Heap K m n T)) ok_empty
  generalize (Heap.empty : Heap K m n T).after S ops = h at *
  have hstep : ∃ q, (h.step S (.scalar (.scale a c))).1.scalars = h.scalars ++ [q] ∧ (h.step S (.scalar (.scale a c))).1.mem = h.mem ∧
      ∃ p, h.scalars[a]? = some p ∧ q.addr.support = p.addr.support := by
    simp only [Heap.step, Heap.scalarResult, PPHeap.ustep] at hq ⊢
    cases h1 : h.scalars[a]? with
    | none => simp only [view, deref, h1, Py.bind_error, result, Except.map] at hq; cases hq
    | some p =>
      generalize (view h.mem h.scalars a >>= fun p => p.smul c) = y at hq ⊢
      cases y with
      | error e => simp only [result, Except.map] at hq; cases hq
      | ok q =>
        simp only [originOf, h1, Option.map_some, decide_eq_true hc, if_true, result]
        exact ⟨_, rfl, trivial, p, rfl, rfl⟩
  obtain ⟨q, s1, s2, p, hp, hqp⟩ := hstep
  have hv := ok.scalars p (List.mem_of_getElem? hp)
  show ((((h.step S (.scalar (.scale a c))).1.step S (.scalar (.editSupport h.scalars.length []))).1).step S (.scalar (.evaluate a j x))).2 = _
  generalize (h.step S (.scalar (.scale a c))).1 = h' at *
  have e1 : (h'.step S (.scalar (.editSupport h.scalars.length []))).1 = ⟨{ h.mem with sets := h.mem.sets.set p.addr.support [] }, h.scalars ++ [q], h'.vectors⟩ := by
    simp only [Heap.step, Heap.scalarResult, PPHeap.ustep, editSupport, s1, s2, List.getElem?_append_right (le_refl _), Nat.sub_self,
      List.getElem?_cons_zero, hqp]
  rw [e1]
  have hv' : Valid { h.mem with sets := h.mem.sets.set p.addr.support [] } p.addr := hv.mono ⟨le_refl _, le_refl _, by simp⟩
  obtain ⟨o, n1, at1, _⟩ := hv'.now
  have hsup : o.support = [] := by
    have := at1.support
    rw [show ({ h.mem with sets := h.mem.sets.set p.addr.support [] } : Memory K m).sets = h.mem.sets.set p.addr.support [] from rfl,
      List.getElem?_set_self hv.support] at this
    exact (Option.some.inj this).symm
  have hview : view { h.mem with sets := h.mem.sets.set p.addr.support [] } (h.scalars ++ [q]) a = .ok o := by
    unfold view
    rw [deref_ok.2 (Verif.PolyHeap.get_append_some hp [q])]
    exact n1
  simp only [Heap.step, Heap.scalarResult, PPHeap.ustep, query, hview, Py.bind_ok, PObj.evaluateOnSimplex, hsup, List.not_mem_nil, not_false_eq_true, if_true,
    Py.pure_eq, Except.map]

/-- The constructor and an assignment to the array of vertices. -/
theorem moved_view {b : Basis} {cont : Bool} {xs : List K} {t : List (List Nat)} {v w : List (Fin m → K)} {r : Nat} {p : PObj K K m (T × List Nat)}
    (S : Search K m T) (hw : v.length = w.length)
    (hp : PObj.new (S.tree t v) b cont xs t v r none none false none none none = .ok p) :
    ∃ rest : Ref K K m T, (Heap.empty : Heap K m n T).after S [.indexArray t, .pointArray v, .scalar (.new b cont xs 0 0 r none false none), .writePoints 0 w] =
        ⟨⟨[t], [w], [p.support]⟩, [rest], []⟩ ∧
      view (⟨[t], [w], [p.support]⟩ : Memory K m) [rest] 0 = .ok { p with vertices := w } := by
  obtain ⟨e1, e2, e3, e4⟩ := new_fresh hp
  refine ⟨⟨p, ⟨0, 0, none, 0, 0⟩⟩, ?_, ?_⟩
  · simp [Heap.after, Heap.step, Heap.empty, Heap.scalarResult, PPHeap.ustep, construct, deref, derefOption, hp, result, hw, Except.map]
  · simp only [view, deref, List.getElem?_cons_zero, Py.bind_ok, Ref.now, derefOption, Py.pure_eq, Except.ok.injEq]
    rw [← e1, ← e3, ← e4]

theorem results_append (S : Search K m T) (ops more : List (Op K m n)) :
    ∀ h : Heap K m n T, h.results S (ops ++ more) = h.results S ops ++ (h.after S ops).results S more := by
  induction ops with
  | nil => exact fun _ => rfl
  | cons op ops ih =>
    intro h
    simp only [List.cons_append, Heap.results, ih, Heap.after, List.foldl_cons]

/-- **C92** (finding). A program that assigns to the array of vertices after it has constructed `p`: `evaluate_on_simplex` still returns the values of `p`,
but `restrict_to_simplex` returns the polynomial of the piecewise polynomial `q` with the same coefficients on the new vertices, and a call searches the
point in the simplices with the new vertices and then evaluates the polynomial of the old simplex. -/
theorem C92_moved_vertices {b : Basis} {cont : Bool} {xs : List K} {t : List (List Nat)} {v w : List (Fin m → K)} {r : Nat}
    {p q : PObj K K m (T × List Nat)} (S : Search K m T) (j : Nat) (x : Fin m → K) (hw : v.length = w.length)
    (hp : PObj.new (S.tree t v) b cont xs t v r none none false none none none = .ok p)
    (hq : PObj.new (S.tree t w) b cont xs t w r none none false none none none = .ok q) :
    (Heap.empty : Heap K m n T).results S [.indexArray t, .pointArray v, .scalar (.new b cont xs 0 0 r none false none), .writePoints 0 w,
      .scalar (.evaluate 0 j x), .scalar (.restrict 0 j x), .scalar (.call 0 x)] =
    [.ok (.inl .nothing), .ok (.inl .nothing), .ok (.inl .nothing), .ok (.inl .nothing),
      (p.evaluateOnSimplex j x).map (fun y => .inl (.value y)),
      (q.restrictToSimplex j >>= fun s => s.call x).map (fun y => .inl (.value y)),
      (S.leafOf p.tree x >>= fun js => findCell t w S.inside x js >>= fun i =>
        match i with
        | none => .ok 0
        | some i => p.evaluateOnSimplex i x).map (fun y => .inl (.value y))] := by
  obtain ⟨rest, h1, h2⟩ := moved_view (n := n) S hw hp
  obtain ⟨c1, c2, c3, c4, c5, c6, c7, c8⟩ := new_twice hp hq
  obtain ⟨e1, -⟩ := new_fresh hp
  rw [show ([.indexArray t, .pointArray v, .scalar (.new b cont xs 0 0 r none false none), .writePoints 0 w,
      .scalar (.evaluate 0 j x), .scalar (.restrict 0 j x), .scalar (.call 0 x)] : List (Op K m n)) =
      [.indexArray t, .pointArray v, .scalar (.new b cont xs 0 0 r none false none), .writePoints 0 w] ++
      [.scalar (.evaluate 0 j x), .scalar (.restrict 0 j x), .scalar (.call 0 x)] from rfl, results_append, h1]
  have hpre : (Heap.empty : Heap K m n T).results S [.indexArray t, .pointArray v, .scalar (.new b cont xs 0 0 r none false none), .writePoints 0 w] =
      [.ok (.inl .nothing), .ok (.inl .nothing), .ok (.inl .nothing), .ok (.inl .nothing)] := by
    simp [Heap.results, Heap.step, Heap.empty, Heap.scalarResult, PPHeap.ustep, construct, deref, derefOption, hp, result, hw, Except.map]
  rw [hpre]
  have hr : ({ p with vertices := w } : PObj K K m (T × List Nat)).restrictToSimplex j = q.restrictToSimplex j :=
    restrict_congr (p := { p with vertices := w }) (q := q) c1 c2 c3 c4 c5 c6 c7.symm j
  have he : ∀ i, ({ p with vertices := w } : PObj K K m (T × List Nat)).evaluateOnSimplex i x = p.evaluateOnSimplex i x :=
    fun i => evaluate_congr (p := { p with vertices := w }) (q := p) rfl rfl rfl rfl rfl i x
  simp only [Heap.results, Heap.step, Heap.scalarResult, PPHeap.ustep, query, h2, Py.bind_ok, hr, he, PObj.call, List.cons_append, List.nil_append]
  rw [e1]
  congr 4
  congr 1
  · cases p.evaluateOnSimplex j x <;> rfl
  · congr 1
    · cases q.restrictToSimplex j with
      | error e => rfl
      | ok s => simp only [Py.bind_ok]; cases s.call x <;> rfl
    · congr 1
      cases S.leafOf p.tree x with
      | error e => rfl
      | ok js =>
        simp only [Py.bind_ok]
        cases findCell t w S.inside x js with
        | error e => rfl
        | ok i =>
          simp only [Py.bind_ok]
          cases i with
          | none => rfl
          | some i => simp only; cases p.evaluateOnSimplex i x <;> rfl

/-! ### The hypotheses are met -/

/-- The points 0 and `a`. -/
def movedPoints (a : ℚ) : List (Fin 1 → ℚ) := [fun _ => 0, fun _ => a]

theorem moved_cell (a : ℚ) : cell [[0, 1]] (movedPoints a) 0 = .ok (fun i _ => (i : ℕ) * a) := by
  have : cell [[0, 1]] (movedPoints a) 0 = .ok (fun i => (movedPoints a)[(i : ℕ)]'(i.2)) := rfl
  rw [this]
  congr 1
  funext i k
  fin_cases i <;> simp [movedPoints]

theorem moved_space {a : ℚ} (ha : a ≠ 0) : IsSpace true [[0, 1]] (movedPoints a) 1 none where
  mesh := ⟨by simp, by simp [movedPoints]⟩
  cells := fun j hj => by
    obtain rfl : j = 0 := by simpa using hj
    exact ⟨_, moved_cell a, by simpa [edgeDet] using ha⟩
  boundary := by simp [AreSimplices]
  continuous := fun _ => ⟨by simp [NoDuplicates], by norm_num⟩

/-- The function `x / a` on the interval `[0, a]`. -/
theorem moved_function {a : ℚ} (ha : a ≠ 0) (S : Search ℚ 1 Unit) (hS : ∀ t v s, S.create t v s = .ok ()) :
    ∃ p : PObj ℚ ℚ 1 (Unit × List Nat), PObj.new (S.tree [[0, 1]] (movedPoints a)) .lagrange true [0, 1] [[0, 1]] (movedPoints a) 1 none none false none none none = .ok p ∧
      WellFormed p ∧ Full p ∧ p.triangles = [[0, 1]] ∧ p.vertices = movedPoints a ∧ p.r = 1 ∧ Denotes p (fun _ x => x 0 / a) := by
  obtain ⟨M, hM, hn, h0, h1⟩ : ∃ M, genMap true [[0, 1]] 1 none false = .ok M ∧ M.numDofs = 2 ∧ M.tau 0 [0] = .ok 0 ∧ M.tau 0 [1] = .ok 1 := ⟨_, rfl, rfl, rfl, rfl⟩
  obtain ⟨p, hnew, q1, q2, q3, q4, q5, q6, q7, q8, q9, q10, q11⟩ := C48_construct (Tr := Unit × List Nat) (b := .lagrange) (by simp)
    (moved_space ha) (Or.inr (by norm_num)) hM (coeff := [(0 : ℚ), 1]) hn (by simp) (tau := none) (Or.inl ⟨rfl, Or.inl rfl⟩)
    (mkTree := S.tree [[0, 1]] (movedPoints a)) (fun s _ => ⟨((), s), by unfold Search.tree; rw [hS]; rfl⟩)
  refine ⟨p, hnew, q1, Or.inr (by rw [q7]; rfl), q5, q6, q9, ?_⟩
  intro j hj x
  rw [q5] at hj
  obtain rfl : j = 0 := by simpa using hj
  rw [q11 0 hj _ (moved_cell a) x ![1 - x 0 / a, x 0 / a] ⟨by simp [Fin.sum_univ_succ], by funext i; fin_cases i; simp [Fin.sum_univ_succ]; field_simp⟩]
  have : combination .lagrange 1 (coeffAt M.tau [(0 : ℚ), 1] 0) ![1 - x 0 / a, x 0 / a] =
      val .lagrange 1 1 (coeffAt M.tau [(0 : ℚ), 1] 0) (fun i => ![1 - x 0 / a, x 0 / a] i.succ) := rfl
  rw [this, val_affine]
  have e0 : coeffAt M.tau [(0 : ℚ), 1] 0 [0] = 0 := by unfold coeffAt; rw [show M.tau ((0 : ℕ) : ℤ) [0] = .ok 0 from h0]; rfl
  have e1 : coeffAt M.tau [(0 : ℚ), 1] 0 [1] = 1 := by unfold coeffAt; rw [show M.tau ((0 : ℕ) : ℤ) [1] = .ok 1 from h1]; rfl
  rw [e0, e1]
  simp

/-- `C92_moved_vertices` for `p(x) = x` on the interval `[0, 1]`, whose end point is moved to 2, with a search that returns all simplices: at the point 3/2
`evaluate_on_simplex` returns 3/2, `restrict_to_simplex` a polynomial with the value 3/4, and the call returns 3/2. -/
example (S : Search ℚ 1 Unit) (hS : ∀ t v s, S.create t v s = .ok ()) (hl : ∀ s x, S.leaf () s x = .ok [0])
    (hi : ∀ (x : Fin 1 → ℚ) v, S.inside x v = decide (v 0 0 ≤ x 0 ∧ x 0 ≤ v 1 0)) :
    (Heap.empty : Heap ℚ 1 2 Unit).results S [.indexArray [[0, 1]], .pointArray (movedPoints 1), .scalar (.new .lagrange true [0, 1] 0 0 1 none false none),
      .writePoints 0 (movedPoints 2), .scalar (.evaluate 0 0 fun _ => 3 / 2), .scalar (.restrict 0 0 fun _ => 3 / 2), .scalar (.call 0 fun _ => 3 / 2)] =
    [.ok (.inl .nothing), .ok (.inl .nothing), .ok (.inl .nothing), .ok (.inl .nothing),
      .ok (.inl (.value (3 / 2))), .ok (.inl (.value (3 / 4))), .ok (.inl (.value (3 / 2)))] := by
  obtain ⟨p, p1, p2, p3, p4, p5, p6, p7⟩ := moved_function one_ne_zero S hS
  obtain ⟨q, q1, q2, q3, q4, q5, q6, q7⟩ := moved_function two_ne_zero S hS
  rw [C92_moved_vertices S 0 _ (show (movedPoints 1).length = (movedPoints 2).length from rfl) p1 q1, p7 0 (by rw [p4]; simp)]
  obtain ⟨v, s, e1, e2, e3, -⟩ := (C48_restrict q2 q3 q7 (Or.inr (by rw [q6]; norm_num))).1 0 (by rw [q4]; simp)
  have hc : s.call (fun _ => 3 / 2) = .ok ((3 / 2 : ℚ) / 2) := e3.2 _
  have hf : findCell [[0, 1]] (movedPoints 2) S.inside (fun _ => (3 / 2 : ℚ)) [0] = .ok (some 0) := by
    unfold findCell
    rw [moved_cell, Py.bind_ok, hi, if_pos (by norm_num)]
  rw [e2, Py.bind_ok, hc]
  obtain ⟨⟨⟩, l⟩ := p.tree
  unfold Search.leafOf
  rw [hl, Py.bind_ok, hf, Py.bind_ok]
  simp only
  rw [p7 0 (by rw [p4]; simp)]
  norm_num [Except.map]

/-- `C92_shared_support`: the multiple of the function `x` on `[0, 1]` exists. -/
example (S : Search ℚ 1 Unit) (hS : ∀ t v s, S.create t v s = .ok ()) :
    (((Heap.empty : Heap ℚ 1 2 Unit).after S [.indexArray [[0, 1]], .pointArray (movedPoints 1), .scalar (.new .lagrange true [0, 1] 0 0 1 none false none)]).step S
      (.scalar (.scale 0 3))).2 = .ok (.inl .nothing) := by
  obtain ⟨p, p1, p2, p3, p4, p5, p6, p7⟩ := moved_function one_ne_zero S hS
  obtain ⟨e1, e2, e3, e4⟩ := new_fresh p1
  have h1 : (Heap.empty : Heap ℚ 1 2 Unit).after S [.indexArray [[0, 1]], .pointArray (movedPoints 1), .scalar (.new .lagrange true [0, 1] 0 0 1 none false none)] =
      ⟨⟨[[[0, 1]]], [movedPoints 1], [p.support]⟩, [⟨p, ⟨0, 0, none, 0, 0⟩⟩], []⟩ := by
    simp [Heap.after, Heap.step, Heap.empty, Heap.scalarResult, PPHeap.ustep, construct, deref, derefOption, p1, result]
  have h2 : view (⟨[[[0, 1]]], [movedPoints 1], [p.support]⟩ : Memory ℚ 1) [⟨p, ⟨0, 0, none, 0, 0⟩⟩] 0 = .ok p := by
    simp only [view, deref, List.getElem?_cons_zero, Py.bind_ok, Ref.now, derefOption, Py.pure_eq, Except.ok.injEq]
    obtain ⟨_, _, _, _, _, _, _, _, _, _, ⟨_, _⟩, _⟩ := p
    simp only at e1 e2 e3 e4
    subst e1 e2 e3 e4
    rfl
  obtain ⟨q, hq, -⟩ := C48_smul p2 p7 3
  rw [h1]
  simp only [Heap.step, Heap.scalarResult, PPHeap.ustep, h2, Py.bind_ok, hq, result, originOf, List.getElem?_cons_zero, Option.map_some, Except.map]
  rw [if_pos (by norm_num)]

end Verif.Props
