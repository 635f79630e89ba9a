import Verif.Lemmas.PiecewiseDrop
import Verif.Props.Piecewise
/-!
# C48: spaces with vanishing boundary values, and operands with different numberings
-/

namespace Verif.Props
open Verif Verif.Poly Verif.Simplex Verif.SPoly Verif.L2G Verif.Spec Verif.PP

variable {K V : Type} [Field K] [DecidableEq K] [CharZero K] [AddCommGroup V] [DecidableEq V] [Module K V] {m r : Nat} {Tr : Type}

/-- **C48** In a space with left out degrees of freedom, the restriction to a simplex of the support is right exactly if the simplex has no such
degrees of freedom or the last entry of the coefficient list is zero: the number -1 of a left out degree of freedom is used as a list index. -/
theorem C48_restrict_dropped {p : PObj K V m Tr} (h : WellFormed p) {F : ℕ → (Fin m → K) → V} (hF : Denotes p F) {j : ℕ} (hj : j ∈ p.support) :
    ∃ v s, cell p.triangles p.vertices j = .ok v ∧ p.restrictToSimplex j = .ok s ∧
      (RepresentsOn s v (F j) ↔ ((∀ ν, IsIndex m p.r ν → p.tau j ν ≠ .ok (-1)) ∨ p.coeff.getLast h.coeff = 0)) :=
  restrict_right_iff h hF hj

/-- **C48** The support computed by the constructor: in a space without left out degrees of freedom, it consists of the simplices on which the
function is not the zero function. -/
theorem C48_support {b : Basis} (hb : b ≠ .monomial) {cont : Bool} {triangles : List (List ℕ)} {vertices : List (Fin m → K)}
    {boundary : Option (List (List ℕ))} {keepLast : Bool} (hsp : IsSpace cont triangles vertices r boundary) (hf : Fits r m)
    (hfull : keepLast = true ∨ boundary.getD [] = []) {coeff : List V} (hc : coeff ≠ [])
    {mkTree : List ℕ → Py Tr} {p : PObj K V m Tr} (hp : PObj.new mkTree b cont coeff triangles vertices r none boundary keepLast none none none = .ok p) :
    p.support.Nodup ∧ ∀ j, j ∈ p.support ↔ j < triangles.length ∧ ∃ x y, p.evaluateOnSimplex j x = .ok y ∧ y ≠ 0 := by
  obtain ⟨M, N, t, hM, ht⟩ := genMap_spec hsp keepLast
  have hcond : (cont = true ∨ keepLast = false) ∧ M.numDofs = coeff.length := by
    by_contra hcon
    unfold PObj.new tauArg at hp
    simp only [hM, Py.bind_ok] at hp
    by_cases h1 : cont = true ∨ keepLast = false
    · rw [if_neg (by rcases h1 with h1 | h1 <;> rw [h1] <;> simp), decide_eq_false (fun h2 => hcon ⟨h1, h2⟩)] at hp
      exact absurd hp (by simp [pyAssert, Py.bind_error])
    · push Not at h1
      have h2 : cont = false := by simpa using h1.1
      have h3 : keepLast = true := by simpa using h1.2
      rw [h2, h3] at hp
      exact absurd hp (by simp [Py.bind_error])
  obtain rfl : N = coeff.length := by have := ht.num; omega
  have htree : ∃ T, mkTree (sup m r coeff t triangles.length) = .ok T := by
    unfold PObj.new at hp
    rw [tauArg_ok hM hcond.2 (Or.inl ⟨rfl, hcond.1⟩), Py.bind_ok] at hp
    obtain ⟨x, hx⟩ := hsp.vertices_ne
    obtain ⟨c, hc'⟩ : ∃ c, getE coeff 0 = .ok c := ⟨_, getE_ok (List.length_pos_iff.2 hc)⟩
    rw [hc', Py.bind_ok, hx, Py.bind_ok, supportArg_eq hc ht, Py.bind_ok] at hp
    simp only at hp
    cases hT : mkTree (sup m r coeff t triangles.length) with
    | ok T => exact ⟨T, rfl⟩
    | error e => rw [hT] at hp; exact absurd hp (by simp [Py.bind_error])
  obtain ⟨T, hT⟩ := htree
  obtain ⟨p', q1, q2, q3, q4, q5, q6, q7, q8, q9, q10, q11, q12, q13⟩ := new_general hb hsp hM ht hc (tauArg_ok hM hcond.2 (Or.inl ⟨rfl, hcond.1⟩)) (supportArg_eq hc ht)
    (fun j hj => (mem_sup.1 hj).1) (fun j hj hj' ν hν => sup_cover hj hj' hν) (treeO := none) hT (polysO := none) (Or.inl ⟨rfl, hf⟩)
  obtain rfl : p = p' := Except.ok.inj (hp.symm.trans q1)
  refine ⟨by rw [q12]; exact List.nodup_range.filter _, fun j => ?_⟩
  rw [q12, mem_sup]
  refine and_congr_right (fun hj => ?_)
  obtain ⟨F, hF⟩ := q2.denotes
  have h1 := zero_iff q2 hF q6 (t := t) (by rw [q4, q11, q7, q9, q10, q5]; exact ht) (j := j) (by rw [q7]; exact hj)
  have h2 : (∃ x y, p.evaluateOnSimplex j x = .ok y ∧ y ≠ 0) ↔ ¬ ∀ x, F j x = 0 := by
    have h3 := hF j (by rw [q7]; exact hj)
    constructor
    · rintro ⟨x, y, h4, h5⟩ h6
      rw [h3 x, h6] at h4
      exact h5 (Except.ok.inj h4).symm
    · intro h4
      push Not at h4
      obtain ⟨x, hx⟩ := h4
      exact ⟨x, _, h3 x, hx⟩
  rw [h2, h1, q11, q5]
  push Not
  exact exists_congr (fun ν => and_congr_right (fun hν => by rw [rd_full ht hfull hj hν]))

/-! ## A mesh with one interval -/

/-- The unit interval. -/
def C48_interval : List (Fin 1 → ℚ) := [fun _ => 0, fun _ => 1]

theorem interval_cell : cell [[0, 1]] C48_interval 0 = .ok (fun i _ => (i : ℕ)) := by
  have : cell [[0, 1]] C48_interval 0 = .ok (fun i => C48_interval[(i : ℕ)]'(i.2)) := rfl
  rw [this]
  congr 1
  funext i k
  fin_cases i <;> rfl

theorem interval_det : edgeDet (fun (i : Fin 2) (_ : Fin 1) => ((i : ℕ) : ℚ)) ≠ 0 := by
  simp [edgeDet]

theorem interval_down (x : Fin 1 → ℚ) : createAffineMap (down (fun (i : Fin 2) (_ : Fin 1) => ((i : ℕ) : ℚ))) x = x := by
  rw [down_bary (w := ![1 - x 0, x 0]) _ interval_det]
  · funext i
    fin_cases i
    rfl
  · constructor
    · simp [Fin.sum_univ_succ]
    · funext i
      fin_cases i
      simp [Fin.sum_univ_succ]

theorem interval_up (x : Fin 1 → ℚ) : createAffineMap (up (fun (i : Fin 2) (_ : Fin 1) => ((i : ℕ) : ℚ))) x = x := by
  have := interval_down (createAffineMap (up (fun (i : Fin 2) (_ : Fin 1) => ((i : ℕ) : ℚ))) x)
  rw [down_up _ interval_det] at this
  exact this.symm

theorem interval_space (r : ℕ) (hr : r ≠ 0) (b : List (List ℕ)) (hb : AreSimplices b) : IsSpace true [[0, 1]] C48_interval r (some b) where
  mesh := ⟨by simp, by simp⟩
  cells := fun j hj => by
    obtain rfl : j = 0 := by simpa using hj
    exact ⟨_, interval_cell, interval_det⟩
  boundary := hb
  continuous := fun _ => ⟨by simp [NoDuplicates], hr⟩

theorem interval_map1 : ∃ M, genMap true [[0, 1]] 1 (some [[1]]) false = .ok M ∧ M.numDofs = 1 ∧ M.tau 0 [0] = .ok 0 ∧ M.tau 0 [1] = .ok (-1) :=
  ⟨_, rfl, rfl, rfl, rfl⟩

theorem interval_map2 : ∃ M, genMap true [[0, 1]] 2 (some [[1]]) false = .ok M ∧ M.numDofs = 2 ∧ M.tau 0 [0] = .ok 0 ∧ M.tau 0 [1] = .ok 1 ∧
    M.tau 0 [2] = .ok (-1) :=
  ⟨_, rfl, rfl, rfl, rfl, rfl⟩

theorem interval_map1' : ∃ M, genMap true [[0, 1]] 1 (some [[1]]) true = .ok M ∧ M.numDofs = 2 ∧ M.tau 0 [0] = .ok 0 ∧ M.tau 0 [1] = .ok 1 :=
  ⟨_, rfl, rfl, rfl, rfl⟩

theorem interval_boundary : AreSimplices [[1]] := by simp [AreSimplices]

/-- Multi-indices with one component and norm at most one. -/
theorem index_one {μ : Fin 1 → ℕ} (h : μ ∈ S 1 1) : μ = (fun _ => 0) ∨ μ = (fun _ => 1) := by
  have h1 := mem_S.1 h
  simp only [Fin.sum_univ_succ, Finset.univ_eq_empty, Finset.sum_empty, add_zero] at h1
  rcases Nat.le_one_iff_eq_zero_or_eq_one.1 h1 with h2 | h2
  · left; funext i; fin_cases i; exact h2
  · right; funext i; fin_cases i; exact h2

/-- The affine function with given values at the end points of the interval. -/
theorem val_affine (c : List ℕ → ℚ) (x : Fin 1 → ℚ) : val .lagrange 1 1 c x = c [0] * (1 - x 0) + c [1] * x 0 := by
  have hp : IsPoly (K := ℚ) 1 1 (fun x : Fin 1 → ℚ => c [0] * (1 - x 0) + c [1] * x 0) := by
    have h1 : IsPoly (K := ℚ) 1 1 (fun x : Fin 1 → ℚ => (1 : ℚ) - x 0) := ((isPoly_const 1 (1 : ℚ)).mono (by norm_num)).sub (isPoly_coord 0)
    exact (h1.const_mul _).add ((isPoly_coord 0).const_mul _)
  refine val_lagrange_values hp c (fun μ hμ => ?_) x
  rcases index_one hμ with rfl | rfl <;> simp [lpt]

/-- The function `1 - x` on the unit interval as an element of the space of piecewise linear functions that vanish at the vertex 1. -/
theorem interval_object : ∃ p : PObj ℚ ℚ 1 Unit, PObj.new (fun _ => .ok ()) .lagrange true [1] [[0, 1]] C48_interval 1 none (some [[1]]) false none none none = .ok p ∧
    WellFormed p ∧ p.basis = .lagrange ∧ p.cont = true ∧ p.coeff = [1] ∧ p.triangles = [[0, 1]] ∧
    p.vertices = C48_interval ∧ p.boundary = some [[1]] ∧ p.keepLast = false ∧ p.r = 1 ∧ p.support = [0] ∧ Denotes p (fun _ x => 1 - x 0) := by
  obtain ⟨M, hM, hn, h0, h1⟩ := interval_map1
  obtain ⟨M', N, t, hM', ht⟩ := genMap_spec (interval_space 1 (by norm_num) _ interval_boundary) false
  obtain rfl : M = M' := Except.ok.inj (hM.symm.trans hM')
  obtain rfl : N = [(1 : ℚ)].length := by
    have := ht.num
    simp only [List.length_cons, List.length_nil]
    omega
  have hsup : sup 1 1 [(1 : ℚ)] t [[0, 1]].length = [0] := by
    unfold sup
    rw [show List.range [[0, 1]].length = [0] from rfl]
    refine List.filter_eq_self.2 (fun j hj => ?_)
    obtain rfl : j = 0 := by simpa using hj
    refine decide_eq_true ⟨[0], by decide, ?_⟩
    unfold rd
    rw [Except.ok.inj ((ht.tau 0 (by simp) [0]).symm.trans h0)]
    simp
  obtain ⟨p, hnew, q1, q2, q3, q4, q5, q6, q7, q8, q9, q10, q11⟩ := C48_construct (Tr := Unit) (b := .lagrange) (by simp)
    (interval_space 1 (by norm_num) _ interval_boundary) (Or.inr (by norm_num)) hM (coeff := [(1 : ℚ)]) hn (by simp) (tau := none) (Or.inl ⟨rfl, Or.inl rfl⟩)
    (mkTree := fun _ => .ok ()) (fun _ _ => ⟨_, rfl⟩)
  have hs : p.support = [0] := by
    obtain ⟨p', hnew', -, -, -, -, -, -, -, -, -, -, r1, -⟩ := new_general (b := .lagrange) (by simp) (interval_space 1 (by norm_num) _ interval_boundary) hM ht (by simp)
      (tauArg_ok hM hn (tauO := none) (Or.inl ⟨rfl, Or.inl rfl⟩)) (supportArg_eq (by simp) ht) (fun j hj => (mem_sup.1 hj).1)
      (fun j hj hj' ν hν => sup_cover hj hj' hν) (mkTree := fun _ => .ok ()) (treeO := none) rfl (polysO := none) (Or.inl ⟨rfl, Or.inr (by norm_num)⟩)
    obtain rfl : p = p' := Except.ok.inj (hnew.symm.trans hnew')
    rw [r1, hsup]
  have hD : Denotes p (fun _ x => 1 - x 0) := by
    intro j hj x
    rw [q5] at hj
    obtain rfl : j = 0 := by simpa using hj
    rw [q11 0 hj _ interval_cell x ![1 - x 0, x 0] ⟨by simp [Fin.sum_univ_succ], by funext i; fin_cases i; simp [Fin.sum_univ_succ]⟩]
    have : combination .lagrange 1 (coeffAt M.tau [(1 : ℚ)] 0) ![1 - x 0, x 0] = val .lagrange 1 1 (coeffAt M.tau [(1 : ℚ)] 0) (fun i => ![1 - x 0, x 0] i.succ) := rfl
    rw [this, val_affine]
    have e0 : coeffAt M.tau [(1 : ℚ)] 0 [0] = 1 := by unfold coeffAt; rw [show M.tau ((0 : ℕ) : ℤ) [0] = .ok 0 from h0]; rfl
    have e1 : coeffAt M.tau [(1 : ℚ)] 0 [1] = 0 := by unfold coeffAt; rw [show M.tau ((0 : ℕ) : ℤ) [1] = .ok (-1) from h1]; rfl
    rw [e0, e1]
    simp
  exact ⟨p, hnew, q1, q2, q3, q4, q5, q6, q7, q8, q9, hs, hD⟩

/-- A consistent object with two coefficients in the space of piecewise quadratic functions that vanish at the vertex 1: the value at the middle of
the interval is the second coefficient. -/
theorem interval_middle {a c : ℚ} {M : L2G.Map} (hM : genMap true [[0, 1]] 2 (some [[1]]) false = .ok M) (hn : M.numDofs = 2) (h1 : M.tau 0 [1] = .ok 1)
    {S : List ℕ} (hS : S = [0]) :
    ∃ q : PObj ℚ ℚ 1 Unit, PObj.new (fun _ => .ok ()) .lagrange true [a, c] [[0, 1]] C48_interval 2 (some M.tau) (some [[1]]) false (some S) (some ()) none = .ok q ∧
      q.evaluateOnSimplex 0 (fun _ => 1 / 2) = .ok c := by
  have hsp := interval_space 2 (by norm_num) _ interval_boundary
  obtain ⟨M', N, t, hM', ht⟩ := genMap_spec hsp false
  obtain rfl : M = M' := Except.ok.inj (hM.symm.trans hM')
  obtain rfl : N = [a, c].length := by
    have := ht.num
    simp only [List.length_cons, List.length_nil]
    omega
  obtain ⟨q, q1, q2, q3, q4, q5, q6, q7, q8, q9, q10, q11, q12, q13⟩ := new_given (Tr := Unit) (b := .lagrange) (by simp) hsp hM ht (by simp) (support := S)
    (by rw [hS]; simp) (fun j hj hj' => absurd (by rw [hS]; simpa using hj) hj') (fun _ => .ok ()) () (Or.inr (Or.inr (by norm_num)))
  refine ⟨q, q1, ?_⟩
  rw [eval_eq q2 q6 (t := t) (by rw [q4, q11, q7, q9, q10, q5]; exact ht) (by rw [q7]; simp) (by rw [q7, q8]; exact interval_cell), interval_down, q3, q11, q5]
  have hx : (fun _ => 1 / 2 : Fin 1 → ℚ) = lpt ℚ 2 (fun _ => 1) := by
    funext i
    simp [lpt]
  rw [hx, val_lpt _ (mem_S.2 (by simp))]
  have h2 : t 0 [1] = 1 := Except.ok.inj ((ht.tau 0 (by simp) [1]).symm.trans h1)
  unfold loc
  rw [show List.ofFn (fun _ : Fin 1 => 1) = [1] from rfl, h2]
  rfl

/-- **C48** In a space with vanishing boundary values, degree elevation and products can be wrong: `p` is the function `1 - x` on the unit
interval in the space of continuous functions that vanish at the vertex 1. Elevated to degree two it has the value 1 at `x = 1/2`, and the product
`p * p` has the value 0 there. -/
theorem C48_dropped_wrong : ∃ p : PObj ℚ ℚ 1 Unit,
    PObj.new (fun _ => .ok ()) .lagrange true [1] [[0, 1]] C48_interval 1 none (some [[1]]) false none none none = .ok p ∧ WellFormed p ∧
    Denotes p (fun _ x => 1 - x 0) ∧
    (∃ q, p.degreeElevate 2 = .ok q ∧ q.evaluateOnSimplex 0 (fun _ => 1 / 2) = .ok 1) ∧
    (∃ q, p.mul p = .ok q ∧ q.evaluateOnSimplex 0 (fun _ => 1 / 2) = .ok 0) := by
  obtain ⟨p, hnew, h, hb, hc, hco, htr, hve, hbo, hk, hr, hs, hF⟩ := interval_object
  obtain ⟨M1, t, hg, hM1, ht⟩ := h.data
  obtain ⟨M1', hM1', hn1, h10, h11⟩ := interval_map1
  obtain rfl : M1 = M1' := by
    rw [hc, htr, hr, hbo, hk] at hg
    exact Except.ok.inj (hg.symm.trans hM1')
  obtain ⟨M2, hM2, hn2, h20, h21, h22⟩ := interval_map2
  have hcell : cell p.triangles p.vertices 0 = .ok (fun i _ => (i : ℕ)) := by rw [htr, hve]; exact interval_cell
  have hmis : MI.generateAll 1 2 = [[0], [1], [2]] := rfl
  refine ⟨p, hnew, h, hF, ?_, ?_⟩
  · obtain ⟨d, hd1, hd2, -⟩ := selevate_mk (K := ℚ) .lagrange 1 1 2 (rd p.coeff t 0) (by norm_num) interval_det
    have hrd : ∀ ν, IsIndex 1 1 ν → rd p.coeff t 0 ν = (1 : ℚ) := by
      intro ν hν
      unfold rd
      rw [hco]
      rcases ht.range 0 (by rw [htr]; simp) ν (by rw [hr]; exact hν) with h1 | ⟨i, hi, h1⟩
      · rw [if_pos h1]
        rfl
      · rw [hco] at hi
        obtain rfl : i = 0 := by simpa using hi
        rw [h1]
        rfl
    have hd3 : ∀ ν, IsIndex 1 2 ν → d ν = 1 := fun ν hν => val_inj (K := ℚ) (b := .lagrange) (d := fun _ => (1 : ℚ))
      (fun u => by rw [hd1, val_congr hrd, val_lagrange_one, val_lagrange_one]) hν.1 hν.2
    have hrestr := restrict_rd h hM1 ht (j := 0) (by rw [hs]; simp) hcell interval_det (by rw [hr]; exact Or.inr (by norm_num))
    rw [hb, hr] at hrestr
    obtain ⟨q, hq, hq'⟩ := interval_middle (a := 1) (c := 1) hM2 hn2 h21 (S := p.support) hs
    refine ⟨q, ?_, hq'⟩
    rw [← hq]
    have hstep : (do
        let q ← p.restrictToSimplex 0
        let q ← q.degreeElevate 2
        storeLoop M2.tau (0 : ℕ) (fun k _ => getE q.poly.coeff k) (MI.generateAll 1 2) 0 [0, 0]) = .ok [(1 : ℚ), 1] := by
      rw [hrestr, Py.bind_ok, hd2 (Or.inr (by norm_num)), Py.bind_ok, hmis]
      have e : (mkObj .lagrange 1 2 d).coeff = [(1 : ℚ), 1, 1] := by
        change tab 1 2 d = [(1 : ℚ), 1, 1]
        unfold tab
        rw [show MI.mis 1 2 = [[0], [1], [2]] from rfl]
        simp only [List.map_cons, List.map_nil]
        rw [hd3 _ ⟨rfl, by simp⟩, hd3 _ ⟨rfl, by simp⟩, hd3 _ ⟨rfl, by simp⟩]
      simp only [e, storeLoop, Nat.cast_zero, h20, h21, h22, Py.bind_ok]
      rfl
    unfold PObj.degreeElevate
    rw [decide_eq_true (by rw [hr]; norm_num), pyAssert_true, Py.bind_ok, if_neg (by rw [hr]; norm_num), hc, htr, hbo, hk, hM2, Py.bind_ok, hn2, hb, hve]
    rw [show List.range [[0, 1]].length = [0] from rfl, List.foldlM_cons]
    have hz : zeros ℚ (2 : ℤ).toNat = [0, 0] := rfl
    rw [hz, hstep, Py.bind_ok]
    rfl
  · obtain ⟨q, hq, hq'⟩ := interval_middle (a := 1) (c := 0) hM2 hn2 h21 (S := p.support.filter (fun j => decide (j ∈ p.support))) (by rw [hs]; rfl)
    refine ⟨q, ?_, hq'⟩
    rw [← hq]
    have hstep : mulLoopLagrange p p M2.tau 2 [0, 0] 0 = .ok [(1 : ℚ), 0] := by
      unfold mulLoopLagrange
      rw [hcell, Py.bind_ok, hmis]
      have hp : ∀ k : ℕ, k ≤ 2 → ∀ c : ℕ, (do
          let x ← lagrangePointSimplex (fun i _ => ((i : ℕ) : ℚ) : Vertices ℚ 1 1) 2 [k]
          let a ← p.evaluateOnSimplex 0 x
          let b ← p.evaluateOnSimplex 0 x
          return a * b) = .ok ((1 - (k : ℚ) / 2) * (1 - (k : ℚ) / 2)) := by
        intro k hk' _
        rw [lagrangePointSimplex_eq (fun i _ => ((i : ℕ) : ℚ) : Vertices ℚ 1 1) 2 [k] rfl (by simpa using hk'), Py.bind_ok, interval_up, hF 0 (by rw [htr]; simp), Py.bind_ok, Py.bind_ok, Py.pure_eq]
        simp
      simp only [storeLoop, Nat.cast_zero, h20, h21, h22, Py.bind_ok]
      rw [hp 0 (by norm_num) 0, hp 1 (by norm_num) 0, hp 2 (by norm_num) 0]
      norm_num
      rfl
    have hnew2 : p.mul p = (do
        let coeff ← (p.support.filter (fun j => decide (j ∈ p.support))).foldlM (mulLoopLagrange p p M2.tau 2) [0, 0]
        PObj.new (fun _ => .ok p.tree) .lagrange true coeff [[0, 1]] C48_interval 2 (some M2.tau) (some [[1]]) false
          (some (p.support.filter (fun j => decide (j ∈ p.support)))) (some p.tree) none) := by
      unfold PObj.mul sameMesh
      rw [decide_eq_true rfl, pyAssert_true, Py.bind_ok, decide_eq_true rfl, pyAssert_true, Py.bind_ok, hbo]
      unfold boundaryCheck
      simp only []
      rw [decide_eq_true trivial, pyAssert_true, Py.bind_ok, Py.bind_ok, hc, htr, hr, hk, hM2, Py.bind_ok, hn2, hb, hve]
      rfl
    rw [hnew2]
    have hf : p.support.filter (fun j => decide (j ∈ p.support)) = [0] := by rw [hs]; rfl
    rw [hf, List.foldlM_cons, hstep, Py.bind_ok]
    rfl

/-- The function `x` in the space of piecewise linear functions on the unit interval with the boundary vertex 1 numbered last. -/
theorem interval_object_last : ∃ p : PObj ℚ ℚ 1 Unit, PObj.new (fun _ => .ok ()) .lagrange true [0, 1] [[0, 1]] C48_interval 1 none (some [[1]]) true none none none = .ok p ∧
    WellFormed p ∧ p.basis = .lagrange ∧ p.cont = true ∧ p.coeff = [0, 1] ∧ p.triangles = [[0, 1]] ∧
    p.vertices = C48_interval ∧ p.boundary = some [[1]] ∧ p.keepLast = true ∧ p.r = 1 ∧ 0 ∈ p.support ∧ Denotes p (fun _ x => x 0) := by
  obtain ⟨M, hM, hn, h0, h1⟩ := interval_map1'
  obtain ⟨p, hnew, q1, q2, q3, q4, q5, q6, q7, q8, q9, q10, q11⟩ := C48_construct (Tr := Unit) (b := .lagrange) (by simp)
    (interval_space 1 (by norm_num) _ interval_boundary) (Or.inr (by norm_num)) hM (coeff := [(0 : ℚ), 1]) hn (by simp) (tau := none) (Or.inl ⟨rfl, Or.inl rfl⟩)
    (mkTree := fun _ => .ok ()) (fun _ _ => ⟨_, rfl⟩)
  have hD : Denotes p (fun _ x => x 0) := by
    intro j hj x
    rw [q5] at hj
    obtain rfl : j = 0 := by simpa using hj
    rw [q11 0 hj _ interval_cell x ![1 - x 0, x 0] ⟨by simp [Fin.sum_univ_succ], by funext i; fin_cases i; simp [Fin.sum_univ_succ]⟩]
    have : combination .lagrange 1 (coeffAt M.tau [(0 : ℚ), 1] 0) ![1 - x 0, x 0] = val .lagrange 1 1 (coeffAt M.tau [(0 : ℚ), 1] 0) (fun i => ![1 - x 0, x 0] i.succ) := rfl
    rw [this, val_affine]
    have e0 : coeffAt M.tau [(0 : ℚ), 1] 0 [0] = 0 := by unfold coeffAt; rw [show M.tau ((0 : ℕ) : ℤ) [0] = .ok 0 from h0]; rfl
    have e1 : coeffAt M.tau [(0 : ℚ), 1] 0 [1] = 1 := by unfold coeffAt; rw [show M.tau ((0 : ℕ) : ℤ) [1] = .ok 1 from h1]; rfl
    rw [e0, e1]
    simp
  refine ⟨p, hnew, q1, q2, q3, q4, q5, q6, q7, q8, q9, ?_, hD⟩
  rw [(C48_support (by simp) (interval_space 1 (by norm_num) _ interval_boundary) (Or.inr (by norm_num)) (Or.inl rfl) (by simp) hnew).2]
  exact ⟨by simp, fun _ => 1, 1, hD 0 (by rw [q5]; simp) _, by norm_num⟩

/-- **C48** Operands with different numberings of the boundary degrees of freedom are not rejected by `+`, and the sum can be wrong: the sum of `x`
(boundary degrees of freedom last) and `1 - x` (in the space without the boundary degree of freedom) has the value 2 at `x = 1`. -/
theorem C48_add_mixed_wrong : ∃ p q s : PObj ℚ ℚ 1 Unit,
    PObj.new (fun _ => .ok ()) .lagrange true [0, 1] [[0, 1]] C48_interval 1 none (some [[1]]) true none none none = .ok p ∧
    PObj.new (fun _ => .ok ()) .lagrange true [1] [[0, 1]] C48_interval 1 none (some [[1]]) false none none none = .ok q ∧
    Denotes p (fun _ x => x 0) ∧ Denotes q (fun _ x => 1 - x 0) ∧ p.add q = .ok s ∧ s.evaluateOnSimplex 0 (fun _ => 1) = .ok 2 := by
  obtain ⟨p, hnew, h, hb, hc, hco, htr, hve, hbo, hk, hr, hs, hF⟩ := interval_object_last
  obtain ⟨q, hnewq, hq, hbq, hcq, hcoq, htrq, hveq, hboq, hkq, hrq, hsq, hG⟩ := interval_object
  obtain ⟨M, t, hg, hM, ht⟩ := h.data
  obtain ⟨M', hM', hn, h0, h1⟩ := interval_map1'
  obtain rfl : M = M' := by
    rw [hc, htr, hr, hbo, hk] at hg
    exact Except.ok.inj (hg.symm.trans hM')
  obtain ⟨s, e1, e2, e3, e4, e5, e6, e7, e8⟩ := (remake_none h hM hg ht (coeff := [(1 : ℚ), 2]) (by rw [hco]; rfl)).1 (fun j hj => by
    have := (mem_sup.1 hj).1
    rw [htr] at this
    obtain rfl : j = 0 := by simpa using this
    exact hs)
  refine ⟨p, q, s, hnew, hnewq, hF, hG, ?_, ?_⟩
  · unfold PObj.add PP.combine
    have hadd : npBinary (· + ·) p.coeff q.coeff = .ok [(1 : ℚ), 2] := by
      rw [hco, hcoq]
      unfold npBinary
      norm_num
    have hmesh : sameMesh p q = .ok () := by
      unfold sameMesh
      rw [decide_eq_true (by rw [htr, htrq]), decide_eq_true (by rw [hve, hveq]), hbo, hboq]
      rfl
    have hsame : PP.combineSame (· + ·) p q = .ok s := by
      unfold PP.combineSame
      rw [decide_eq_true (by rw [hb, hbq]), pyAssert_true, Py.bind_ok, hmesh, Py.bind_ok, if_pos (by rw [hr, hrq]), hadd, Py.bind_ok, e1]
    rw [decide_eq_true (by rw [hb, hbq]), pyAssert_true, Py.bind_ok, hmesh, Py.bind_ok, if_pos (by rw [hr, hrq])]
    exact hsame
  · rw [eval_eq e2 (e7.trans hM) (t := t) (by rw [e3.cont, e4, e3.triangles, e3.boundary, e3.keepLast, e5]; have := ht; rw [hco] at this; exact this) (by rw [e3.triangles, htr]; simp)
      (by rw [e3.triangles, e3.vertices, htr, hve]; exact interval_cell), interval_down, e3.basis, hb, e4, hr, e5, val_affine]
    have e0 : t 0 [1] = 1 := Except.ok.inj ((ht.tau 0 (by rw [htr]; simp) [1]).symm.trans h1)
    unfold loc
    rw [e0]
    norm_num

/-! ## A mesh with two intervals -/

/-- The vertices 0, 1, 2 on the line. -/
def C48_line : List (Fin 1 → ℚ) := [fun _ => 0, fun _ => 1, fun _ => 2]

theorem line_cell : ∀ j < 2, cell [[0, 1], [1, 2]] C48_line j = .ok (fun i _ => (i : ℕ) + (j : ℕ))
  | 0, _ => by
    have : cell [[0, 1], [1, 2]] C48_line 0 = .ok (fun i => [fun _ => 0, fun _ => 1][(i : ℕ)]'(i.2)) := by
      have : cell [[0, 1], [1, 2]] C48_line 0 = .ok (fun i => [C48_line[0], C48_line[1]][(i : ℕ)]'(i.2)) := rfl
      exact this
    rw [this]
    congr 1
    funext i k
    fin_cases i <;> simp
  | 1, _ => by
    have : cell [[0, 1], [1, 2]] C48_line 1 = .ok (fun i => [fun _ => 1, fun _ => 2][(i : ℕ)]'(i.2)) := rfl
    rw [this]
    congr 1
    funext i k
    fin_cases i
    · simp
    · simp; norm_num

theorem line_det (j : ℕ) : edgeDet (fun (i : Fin 2) (_ : Fin 1) => ((i : ℕ) : ℚ) + j) ≠ 0 := by
  simp [edgeDet]

theorem line_space : IsSpace false [[0, 1], [1, 2]] C48_line 0 none where
  mesh := ⟨by simp, by simp⟩
  cells := fun j hj => ⟨_, line_cell j (by simpa using hj), line_det j⟩
  boundary := by simp [AreSimplices]
  continuous := fun h => by simp at h

theorem line_object (a c : ℚ) : ∃ p : PObj ℚ ℚ 1 Unit, PObj.new (fun _ => .ok ()) .bernstein false [a, c] [[0, 1], [1, 2]] C48_line 0 none none false none none none = .ok p ∧
    WellFormed p ∧ p.basis = .bernstein ∧ p.cont = false ∧ p.triangles = [[0, 1], [1, 2]] ∧
    p.vertices = C48_line ∧ p.boundary = none ∧ p.keepLast = false ∧ p.r = 0 ∧ Denotes p (fun j _ => if j = 0 then a else c) := by
  obtain ⟨M, hM, hn, h0, h1⟩ : ∃ M, genMap false [[0, 1], [1, 2]] 0 none false = .ok M ∧ M.numDofs = 2 ∧ M.tau 0 [0] = .ok 0 ∧ M.tau 1 [0] = .ok 1 :=
    ⟨_, rfl, rfl, rfl, rfl⟩
  obtain ⟨p, hnew, q1, q2, q3, q4, q5, q6, q7, q8, q9, q10, q11⟩ := C48_construct (Tr := Unit) (b := .bernstein) (by simp)
    line_space (Or.inr (by norm_num)) hM (coeff := [a, c]) hn (by simp) (tau := none) (Or.inl ⟨rfl, Or.inr rfl⟩)
    (mkTree := fun _ => .ok ()) (fun _ _ => ⟨_, rfl⟩)
  refine ⟨p, hnew, q1, q2, q3, q5, q6, q7, q8, q9, ?_⟩
  intro j hj x
  rw [q5] at hj
  have hj2 : j < 2 := by simpa using hj
  rw [q11 j hj _ (line_cell j hj2) x ![1 - (x 0 - j), x 0 - j] ⟨by simp [Fin.sum_univ_succ], by funext i; fin_cases i; simp [Fin.sum_univ_succ]; ring⟩]
  have : combination .bernstein 0 (coeffAt M.tau [a, c] j) ![1 - (x 0 - j), x 0 - j] = val .bernstein 1 0 (coeffAt M.tau [a, c] j) (fun i => ![1 - (x 0 - j), x 0 - j] i.succ) := rfl
  rw [this]
  have e : ∀ ν, IsIndex 1 0 ν → coeffAt M.tau [a, c] j ν = (fun _ => (if j = 0 then a else c)) ν := by
    intro ν hν
    obtain rfl : ν = [0] := by
      obtain ⟨μ, hμ, rfl⟩ := isIndex_iff.1 hν
      have := mem_S.1 hμ
      simp at this
      simp [this]
    unfold coeffAt
    obtain rfl | rfl : j = 0 ∨ j = 1 := by omega
    · rw [show M.tau ((0 : ℕ) : ℤ) [0] = .ok 0 from h0]; rfl
    · rw [show M.tau ((1 : ℕ) : ℤ) [0] = .ok 1 from h1]; rfl
  rw [val_congr e]
  have h2 := val_smul (K := ℚ) .bernstein 1 0 (if j = 0 then a else c) (fun _ => (1 : ℚ)) (fun i => ![1 - (x 0 - j), x 0 - j] i.succ)
  rw [val_bernstein_one] at h2
  simpa using h2

/-- **C48** A sum of two consistent functions in the same space can fail: `p` is one on the first interval and zero on the second, `q` the other way
round; `p + q` raises KeyError. -/
theorem C48_add_key_error : ∃ p q : PObj ℚ ℚ 1 Unit,
    PObj.new (fun _ => .ok ()) .bernstein false [1, 0] [[0, 1], [1, 2]] C48_line 0 none none false none none none = .ok p ∧
    PObj.new (fun _ => .ok ()) .bernstein false [0, 1] [[0, 1], [1, 2]] C48_line 0 none none false none none none = .ok q ∧
    WellFormed p ∧ WellFormed q ∧ SameKind p q ∧ p.add q = .error .key := by
  obtain ⟨p, hnew, h, hb, hc, htr, hve, hbo, hk, hr, hF⟩ := line_object 1 0
  obtain ⟨q, hnewq, hq, hbq, hcq, htrq, hveq, hboq, hkq, hrq, hG⟩ := line_object 0 1
  have hkind : SameKind p q := ⟨by rw [hb, hbq], by rw [hc, hcq], by rw [htr, htrq], by rw [hve, hveq], by rw [hbo, hboq], by rw [hk, hkq]⟩
  refine ⟨p, q, hnew, hnewq, h, hq, hkind, ?_⟩
  obtain ⟨-, h2, h3, -⟩ := C48_add h hq hkind hF hG (Or.inl (by rw [hr, hrq]))
  have h1 : 1 ∉ p.support := by
    rw [(C48_support (by simp) line_space (Or.inr (by norm_num)) (Or.inr rfl) (by simp) hnew).2]
    rintro ⟨-, x, y, h4, h5⟩
    rw [hF 1 (by rw [htr]; simp)] at h4
    exact h5 (by have := Except.ok.inj h4; simpa using this.symm)
  cases hs : p.add q with
  | error e => rw [h2 e hs]
  | ok s =>
    have := (h3 (by unfold Full; rw [hbo]; right; rfl)).1 ⟨s, hs⟩ 1 (by rw [htr]; simp) h1 (fun _ => 0)
    norm_num at this

end Verif.Props
