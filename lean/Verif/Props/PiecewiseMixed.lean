import Verif.Props.PiecewiseDrop
/-!
# C48: products of continuous and discontinuous functions

`__mul__` compares the mesh and the boundary handling of the operands, but not whether they are continuous. The product belongs to the kind of space of
the first operand.
-/

namespace Verif.Props
open Verif Verif.Poly Verif.Simplex Verif.SPoly Verif.L2G Verif.Spec Verif.PP

theorem line_space' (cont : Bool) (r : ℕ) (hr : r ≠ 0) : IsSpace cont [[0, 1], [1, 2]] C48_line r none where
  mesh := ⟨by simp, by simp⟩
  cells := fun j hj => ⟨_, line_cell j (by simpa using hj), line_det j⟩
  boundary := by simp [AreSimplices]
  continuous := fun _ => ⟨by simp [NoDuplicates]; exact ⟨0, by simp⟩, hr⟩

theorem line_map : ∃ M, genMap true [[0, 1], [1, 2]] 1 none false = .ok M ∧ M.numDofs = 3 ∧ M.tau 0 [0] = .ok 0 ∧ M.tau 0 [1] = .ok 1 ∧
    M.tau 1 [0] = .ok 1 ∧ M.tau 1 [1] = .ok 2 :=
  ⟨_, rfl, rfl, rfl, rfl, rfl, rfl⟩

theorem line_map0 : ∃ M, genMap false [[0, 1], [1, 2]] 0 none false = .ok M ∧ M.numDofs = 2 ∧ M.tau 0 [0] = .ok 0 ∧ M.tau 1 [0] = .ok 1 :=
  ⟨_, rfl, rfl, rfl, rfl⟩

theorem line_down (j : ℕ) (x : Fin 1 → ℚ) : createAffineMap (down (fun (i : Fin 2) (_ : Fin 1) => ((i : ℕ) : ℚ) + (j : ℕ))) x = fun _ => x 0 - j := by
  rw [down_bary (w := ![1 - (x 0 - j), x 0 - j]) _ (line_det j)]
  · funext i
    fin_cases i
    rfl
  · constructor
    · simp [Fin.sum_univ_succ]
    · funext i
      fin_cases i
      simp [Fin.sum_univ_succ]
      ring

/-- A continuous piecewise linear function on two intervals, with the given values at the vertices, on the second interval. -/
theorem line_continuous (a b c : ℚ) {M : L2G.Map} (hM : genMap true [[0, 1], [1, 2]] 1 none false = .ok M) :
    ∃ p : PObj ℚ ℚ 1 Unit,
      PObj.new (fun _ => .ok ()) .lagrange true [a, b, c] [[0, 1], [1, 2]] C48_line 1 (some M.tau) none false (some [0, 1]) (some ()) none = .ok p ∧
      WellFormed p ∧ p.basis = .lagrange ∧ p.cont = true ∧ p.triangles = [[0, 1], [1, 2]] ∧ p.vertices = C48_line ∧ p.boundary = none ∧
      p.keepLast = false ∧ p.r = 1 ∧ p.support = [0, 1] ∧
      Denotes p (fun j x => if j = 0 then a * (1 - x 0) + b * x 0 else b * (2 - x 0) + c * (x 0 - 1)) := by
  have hsp := line_space' true 1 (by norm_num)
  obtain ⟨M', N, t, hM', ht⟩ := genMap_spec hsp false
  obtain rfl : M = M' := Except.ok.inj (hM.symm.trans hM')
  obtain ⟨M', hM', hn, h00, h01, h10, h11⟩ := line_map
  obtain rfl : M = M' := Except.ok.inj (hM.symm.trans hM')
  obtain rfl : N = [a, b, c].length := by
    have := ht.num
    simp only [List.length_cons, List.length_nil]
    omega
  obtain ⟨q, q1, q2, q3, q4, q5, q6, q7, q8, q9, q10, q11, q12, q13⟩ := new_given (Tr := Unit) (b := .lagrange) (by simp) hsp hM ht (by simp)
    (support := [0, 1]) (by simp) (fun j hj hj' => absurd (by have : j < 2 := by simpa using hj
                                                              simp; omega) hj') (fun _ => .ok ()) () (Or.inr (Or.inr (by norm_num)))
  refine ⟨q, q1, q2, q3, q4, q7, q8, q9, q10, q11, q12, fun j hj x => ?_⟩
  rw [q7] at hj
  have hj2 : j < 2 := by simpa using hj
  rw [eval_eq q2 q6 (t := t) (by rw [q4, q11, q7, q9, q10, q5]; exact ht) (by rw [q7]; exact hj) (by rw [q7, q8]; exact line_cell j hj2), line_down, q3, q11, q5,
    val_affine]
  congr 1
  unfold loc
  obtain rfl | rfl : j = 0 ∨ j = 1 := by omega
  · rw [Except.ok.inj ((ht.tau 0 (by simp) [0]).symm.trans h00), Except.ok.inj ((ht.tau 0 (by simp) [1]).symm.trans h01)]
    simp
  · rw [Except.ok.inj ((ht.tau 1 (by simp) [0]).symm.trans h10), Except.ok.inj ((ht.tau 1 (by simp) [1]).symm.trans h11)]
    simp only [List.length_cons, List.length_nil]
    rw [if_neg (by norm_num), if_neg (by norm_num), if_neg (by norm_num)]
    simp only [Nat.cast_one]
    change b * _ + c * _ = _
    ring

/-- A piecewise constant function on two intervals. -/
theorem line_constant (a b : ℚ) :
    ∃ p : PObj ℚ ℚ 1 Unit, (∃ tau, PObj.new (fun _ => .ok ()) .lagrange false [a, b] [[0, 1], [1, 2]] C48_line 0 tau none false (some [0, 1]) (some ()) none = .ok p) ∧
      WellFormed p ∧ p.basis = .lagrange ∧ p.cont = false ∧ p.triangles = [[0, 1], [1, 2]] ∧ p.vertices = C48_line ∧ p.boundary = none ∧
      p.keepLast = false ∧ p.r = 0 ∧ p.support = [0, 1] ∧ Denotes p (fun j _ => if j = 0 then a else b) := by
  obtain ⟨M, hM, hn, h0, h1⟩ := line_map0
  obtain ⟨M', N, t, hM', ht⟩ := genMap_spec line_space false
  obtain rfl : M = M' := Except.ok.inj (hM.symm.trans hM')
  obtain rfl : N = [a, b].length := by
    have := ht.num
    simp only [List.length_cons, List.length_nil]
    omega
  obtain ⟨q, q1, q2, q3, q4, q5, q6, q7, q8, q9, q10, q11, q12, q13⟩ := new_given (Tr := Unit) (b := .lagrange) (by simp) line_space hM ht (by simp)
    (support := [0, 1]) (by simp) (fun j hj hj' => absurd (by have : j < 2 := by simpa using hj
                                                              simp; omega) hj') (fun _ => .ok ()) () (Or.inr (Or.inr (by norm_num)))
  refine ⟨q, ⟨_, q1⟩, q2, q3, q4, q7, q8, q9, q10, q11, q12, fun j hj x => ?_⟩
  rw [q7] at hj
  have hj2 : j < 2 := by simpa using hj
  rw [eval_eq q2 q6 (t := t) (by rw [q4, q11, q7, q9, q10, q5]; exact ht) (by rw [q7]; exact hj) (by rw [q7, q8]; exact line_cell j hj2), q3, q11, q5]
  congr 1
  have e : ∀ ν, IsIndex 1 0 ν → loc [a, b] t j ν = (fun _ => (if j = 0 then a else b)) ν := by
    intro ν hν
    obtain rfl : ν = [0] := by
      obtain ⟨μ, hμ, rfl⟩ := isIndex_iff.1 hν
      have := mem_S.1 hμ
      simp at this
      simp [this]
    unfold loc
    obtain rfl | rfl : j = 0 ∨ j = 1 := by omega
    · rw [Except.ok.inj ((ht.tau 0 (by simp) [0]).symm.trans h0)]
      simp
    · rw [Except.ok.inj ((ht.tau 1 (by simp) [0]).symm.trans h1)]
      simp
  rw [val_congr e]
  have h2 := val_smul (K := ℚ) .lagrange 1 0 (if j = 0 then a else b) (fun _ => (1 : ℚ))
    (createAffineMap (down (fun (i : Fin 2) (_ : Fin 1) => ((i : ℕ) : ℚ) + (j : ℕ))) x)
  rw [val_lagrange_one] at h2
  simpa using h2

/-- **C48** The product of a continuous and a discontinuous function can be wrong without an error: `p` is the constant function one as a continuous
piecewise linear function on the intervals from 0 to 1 and from 1 to 2, and `q` is one on the first and two on the second interval. The product
`p * q` is returned as a continuous function, and on the first interval it is `1 + x` instead of one. -/
theorem C48_mul_mixed_wrong : ∃ p q : PObj ℚ ℚ 1 Unit, WellFormed p ∧ WellFormed q ∧ p.cont = true ∧ q.cont = false ∧
    Denotes p (fun _ _ => 1) ∧ Denotes q (fun j _ => if j = 0 then 1 else 2) ∧
    ∃ s, p.mul q = .ok s ∧ Denotes s (fun j x => if j = 0 then 1 + x 0 else 2) := by
  obtain ⟨M, hM, hn, h00, h01, h10, h11⟩ := line_map
  obtain ⟨p, pnew, hp, pb, pc, ptr, pve, pbo, pk, pr, ps, pF⟩ := line_continuous 1 1 1 hM
  obtain ⟨q, qnew, hq, qb, qc, qtr, qve, qbo, qk, qr, qs, qF⟩ := line_constant 1 2
  obtain ⟨s, snew, hs, sb, sc, str, sve, sbo, sk, sr, ss, sF⟩ := line_continuous 1 2 2 hM
  have pF' : Denotes p (fun _ _ => 1) := by
    intro j hj x
    rw [pF j hj x]
    congr 1
    simp only []
    split_ifs <;> ring
  refine ⟨p, q, hp, hq, pc, qc, pF', qF, s, ?_, ?_⟩
  · rw [← snew]
    have hmis : MI.generateAll 1 1 = [[0], [1]] := rfl
    have hval : ∀ (j : ℕ) (hj : j < 2) (k : ℕ) (hk : k ≤ 1), (do
        let x ← lagrangePointSimplex (fun i _ => ((i : ℕ) : ℚ) + (j : ℕ) : Vertices ℚ 1 1) 1 [k]
        let a ← p.evaluateOnSimplex j x
        let b ← q.evaluateOnSimplex j x
        return a * b) = .ok (if j = 0 then (1 : ℚ) else 2) := by
      intro j hj k hk
      rw [lagrangePointSimplex_eq _ 1 [k] rfl (by simpa using hk), Py.bind_ok, pF' j (by rw [ptr]; simpa using hj), Py.bind_ok,
        qF j (by rw [qtr]; simpa using hj), Py.bind_ok, Py.pure_eq, one_mul]
    have hstep0 : mulLoopLagrange p q M.tau 1 [0, 0, 0] 0 = .ok [(1 : ℚ), 1, 0] := by
      unfold mulLoopLagrange
      rw [ptr, pve, line_cell 0 (by norm_num), Py.bind_ok, hmis]
      have v0 := hval 0 (by norm_num) 0 (by norm_num)
      have v1 := hval 0 (by norm_num) 1 (by norm_num)
      simp only [storeLoop]
      rw [show M.tau ((0 : ℕ) : ℤ) [0] = .ok 0 from h00, show M.tau ((0 : ℕ) : ℤ) [1] = .ok 1 from h01, v0, v1]
      rfl
    have hstep1 : mulLoopLagrange p q M.tau 1 [1, 1, 0] 1 = .ok [(1 : ℚ), 2, 2] := by
      unfold mulLoopLagrange
      rw [ptr, pve, line_cell 1 (by norm_num), Py.bind_ok, hmis]
      have v0 := hval 1 (by norm_num) 0 (by norm_num)
      have v1 := hval 1 (by norm_num) 1 (by norm_num)
      simp only [storeLoop]
      rw [show M.tau ((1 : ℕ) : ℤ) [0] = .ok 1 from h10, show M.tau ((1 : ℕ) : ℤ) [1] = .ok 2 from h11, v0, v1]
      rfl
    unfold PObj.mul sameMesh
    rw [ptr, qtr, decide_eq_true rfl, pyAssert_true, Py.bind_ok, pve, qve, decide_eq_true rfl, pyAssert_true, Py.bind_ok, pbo, qbo]
    unfold boundaryCheck
    simp only []
    rw [pk, qk, decide_eq_true rfl, pyAssert_true, Py.bind_ok, Py.bind_ok, pc, pr, qr, hM, Py.bind_ok, hn, pb]
    simp only []
    have hf : p.support.filter (fun j => decide (j ∈ q.support)) = [0, 1] := by rw [ps, qs]; rfl
    have hz : zeros ℚ (3 : ℤ).toNat = [0, 0, 0] := rfl
    rw [hf, hz, List.foldlM_cons, hstep0, Py.bind_ok, List.foldlM_cons, hstep1, Py.bind_ok]
    rfl
  · intro j hj x
    rw [sF j hj x]
    congr 1
    simp only []
    split_ifs <;> ring

end Verif.Props
