import Verif.Lemmas.Equality
import Verif.Lemmas.Unisolvent
/-!
# C71: tests for approximate equality
-/

namespace Verif.Props
open Verif Verif.Simplex Verif.SimplexGeometry Verif.Spec Verif.Equality MeasureTheory

variable {m k n : ℕ}

/-- **C71** `math.isclose`, as used by the tests. -/
theorem C71_isclose (a b relTol absTol : ℝ) :
    (0 ≤ relTol → 0 ≤ absTol → ∃ c, isclose a b relTol absTol = .ok c ∧ (c = true ↔ Close relTol absTol a b)) ∧
      (relTol < 0 ∨ absTol < 0 → isclose a b relTol absTol = .error .value) :=
  ⟨fun hr ha => isclose_eq hr ha a b, fun h => by unfold isclose; rw [if_pos h]⟩

/-- **C71** `polynomials_equal` for real valued functions: True exactly if the values are close at all of the random points. -/
theorem C71_scalar (random : ℕ → List (Fin m → ℝ)) (f g : (Fin m → ℝ) → ℝ) (r : ℕ) {relTol absTol : ℝ} (hr : 0 ≤ relTol) (ha : 0 ≤ absTol) :
    ∃ c, polynomialsEqual random (fun x => .ok (.num (f x))) (fun x => .ok (.num (g x))) r relTol absTol = .ok c ∧
      (c = true ↔ ∀ x ∈ random ((r + m).choose m), Close relTol absTol (f x) (g x)) :=
  pointLoop_ok hr ha (fun x => .num (f x)) (fun x => .num (g x)) _ fun _ _ => trivial

theorem closeVal_vec {N : ℕ} (relTol absTol : ℝ) (a b : Fin N → ℝ) :
    CloseVal relTol absTol (.vec (List.ofFn a)) (.vec (List.ofFn b)) ↔ ∀ i, Close relTol absTol (a i) (b i) := by
  simp only [CloseVal, List.length_ofFn]
  constructor
  · intro h i
    simpa [List.getD] using h i i.2
  · intro h i hi
    simpa [List.getD, hi] using h ⟨i, hi⟩

/-- **C71** `polynomials_equal` for vector valued functions with the same number of components: True exactly if all components of the values are close at
all of the random points. -/
theorem C71_vector {N : ℕ} (random : ℕ → List (Fin m → ℝ)) (f g : (Fin m → ℝ) → Fin N → ℝ) (r : ℕ) {relTol absTol : ℝ} (hr : 0 ≤ relTol)
    (ha : 0 ≤ absTol) :
    ∃ c, polynomialsEqual random (fun x => .ok (.vec (List.ofFn (f x)))) (fun x => .ok (.vec (List.ofFn (g x)))) r relTol absTol = .ok c ∧
      (c = true ↔ ∀ x ∈ random ((r + m).choose m), ∀ i, Close relTol absTol (f x i) (g x i)) := by
  obtain ⟨c, h1, h2⟩ := pointLoop_ok hr ha (fun x => .vec (List.ofFn (f x))) (fun x => .vec (List.ofFn (g x))) (random ((r + m).choose m))
    fun _ _ => by simp [SameShape]
  refine ⟨c, h1, h2.trans (forall₂_congr fun x _ => closeVal_vec _ _ _ _)⟩

theorem close_refl {relTol absTol : ℝ} (ha : 0 ≤ absTol) (a : ℝ) : Close relTol absTol a a := by
  unfold Close
  rw [sub_self, abs_zero]
  exact le_max_of_le_right ha

theorem closeVal_refl {relTol absTol : ℝ} (ha : 0 ≤ absTol) (p : Val) : CloseVal relTol absTol p p := by
  cases p with
  | num x => exact close_refl ha x
  | vec l => exact fun i _ => close_refl ha _

theorem sameShape_refl (p : Val) : SameShape p p := by
  cases p <;> simp [SameShape]

/-- **C71** Equal functions are never told apart, whatever the random points: the answer False proves that the functions are different. -/
theorem C71_equal_functions (random : ℕ → List (Fin m → ℝ)) (f : (Fin m → ℝ) → Val) (r : ℕ) {relTol absTol : ℝ} (hr : 0 ≤ relTol) (ha : 0 ≤ absTol) :
    polynomialsEqual random (fun x => .ok (f x)) (fun x => .ok (f x)) r relTol absTol = .ok true := by
  obtain ⟨c, h1, h2⟩ := pointLoop_ok hr ha f f (random ((r + m).choose m)) fun _ _ => sameShape_refl _
  rw [h2.2 fun x _ => closeVal_refl ha _] at h1
  exact h1

theorem close_zero (a b : ℝ) : Close 0 0 a b ↔ a = b := by
  unfold Close
  rw [zero_mul, max_self, abs_nonpos_iff, sub_eq_zero]

/-- **C71** With tolerances zero and points that determine polynomials of degree `r`, the test decides equality of polynomials. -/
theorem C71_exact (random : ℕ → List (Fin m → ℝ)) (r : ℕ) (P Q : MvPolynomial (Fin m) ℝ) (hP : P.totalDegree ≤ r) (hQ : Q.totalDegree ≤ r)
    (hu : Unisolvent r (random ((r + m).choose m))) :
    ∃ c, polynomialsEqual random (fun x => .ok (.num (MvPolynomial.eval x P))) (fun x => .ok (.num (MvPolynomial.eval x Q))) r 0 0 = .ok c ∧
      (c = true ↔ P = Q) := by
  obtain ⟨c, h1, h2⟩ := C71_scalar random (fun x => MvPolynomial.eval x P) (fun x => MvPolynomial.eval x Q) r le_rfl le_rfl
  refine ⟨c, h1, h2.trans ⟨fun h => ?_, ?_⟩⟩
  · refine sub_eq_zero.1 (hu (P - Q) ((MvPolynomial.totalDegree_sub _ _).trans (max_le hP hQ)) fun x hx => ?_)
    rw [map_sub, sub_eq_zero]
    exact (close_zero _ _).1 (h x hx)
  · rintro rfl x _
    exact close_refl le_rfl _

/-- **C71** With tolerances zero, different polynomials (of any degree) are taken for equal with probability zero: the tuples of points for which the
answer is True form a set of measure zero. -/
theorem C71_probability (r : ℕ) (P Q : MvPolynomial (Fin m) ℝ) (h : P ≠ Q) :
    volume {xs : Fin ((r + m).choose m) → Fin m → ℝ | polynomialsEqual (fun _ => List.ofFn xs) (fun x => .ok (.num (MvPolynomial.eval x P)))
      (fun x => .ok (.num (MvPolynomial.eval x Q))) r 0 0 = .ok true} = 0 := by
  refine measure_mono_null (fun xs hxs => ?_) (zeros_null_tuple (P - Q) (sub_ne_zero.2 h) (Nat.choose_pos (by omega) : 0 < (r + m).choose m))
  intro i
  obtain ⟨c, h1, h2⟩ := C71_scalar (fun _ => List.ofFn xs) (fun x => MvPolynomial.eval x P) (fun x => MvPolynomial.eval x Q) r le_rfl le_rfl
  have hc : c = true := Except.ok.inj (h1.symm.trans hxs)
  rw [map_sub, sub_eq_zero]
  exact (close_zero _ _).1 (h2.1 hc (xs i) (List.mem_ofFn.2 ⟨i, rfl⟩))

/-- **C71** With tolerances zero the number of random points is sufficient: for almost all tuples of points (all but a set of measure zero, which does
not depend on the polynomials) the test decides equality of all polynomials of degree at most `r`. -/
theorem C71_almost_surely (m r : ℕ) :
    ∀ᵐ xs : Fin ((r + m).choose m) → Fin m → ℝ, ∀ P Q : MvPolynomial (Fin m) ℝ, P.totalDegree ≤ r → Q.totalDegree ≤ r →
      ∃ c, polynomialsEqual (fun _ => List.ofFn xs) (fun x => .ok (.num (MvPolynomial.eval x P))) (fun x => .ok (.num (MvPolynomial.eval x Q))) r 0 0 =
        .ok c ∧ (c = true ↔ P = Q) := by
  filter_upwards [unisolvent_ae m r] with xs hxs P Q hP hQ
  exact C71_exact _ r P Q hP hQ hxs

/-- **C71** With the default tolerances different polynomials can be taken for equal with certainty: the polynomials `0` and `10⁻⁸`, and all pairs of
polynomials with values in `[0, 10⁻⁷]`. -/
theorem C71_small_polynomials (random : ℕ → List (Fin m → ℝ)) (r : ℕ) :
    polynomialsEqual random (fun _ => .ok (.num 0)) (fun _ => .ok (.num (1 / 10 ^ 8))) r (1 / 10 ^ 9) (1 / 10 ^ 7) = .ok true ∧
    ∀ f g : (Fin m → ℝ) → ℝ, (∀ x, 0 ≤ f x ∧ f x ≤ 1 / 10 ^ 7 ∧ 0 ≤ g x ∧ g x ≤ 1 / 10 ^ 7) →
      polynomialsEqual random (fun x => .ok (.num (f x))) (fun x => .ok (.num (g x))) r (1 / 10 ^ 9) (1 / 10 ^ 7) = .ok true := by
  have key : ∀ f g : (Fin m → ℝ) → ℝ, (∀ x, 0 ≤ f x ∧ f x ≤ 1 / 10 ^ 7 ∧ 0 ≤ g x ∧ g x ≤ 1 / 10 ^ 7) →
      polynomialsEqual random (fun x => .ok (.num (f x))) (fun x => .ok (.num (g x))) r (1 / 10 ^ 9) (1 / 10 ^ 7) = .ok true := by
    intro f g h
    obtain ⟨c, h1, h2⟩ := C71_scalar random f g r (relTol := 1 / 10 ^ 9) (absTol := 1 / 10 ^ 7) (by norm_num) (by norm_num)
    have hc : c = true := h2.2 fun x _ => by
      obtain ⟨a1, a2, a3, a4⟩ := h x
      refine le_max_of_le_right ?_
      rw [abs_le]
      constructor <;> linarith
    rw [hc] at h1
    exact h1
  exact ⟨key _ _ fun x => by norm_num, key⟩

/-- **C71** Values of different shapes. Only the components of the first function are compared, so additional components of the second one are
ignored; missing ones raise IndexError if all other components are close. A number is never compared with an array of another length than 1: TypeError. -/
theorem C71_shapes {relTol absTol : ℝ} (hr : 0 ≤ relTol) (ha : 0 ≤ absTol) (l l' : List ℝ) :
    (∃ c, compareValues (.vec l) (.vec (l ++ l')) relTol absTol = .ok c ∧ c = true) ∧
    (l' ≠ [] → compareValues (.vec (l ++ l')) (.vec l) relTol absTol = .error .index) ∧
    (l.length ≠ 1 → ∀ x, compareValues (.num x) (.vec l) relTol absTol = .error .type) ∧
    (l.length ≠ 1 → l ≠ [] → ∀ x, compareValues (.vec l) (.num x) relTol absTol = .error .type) := by
  have hf : l.length ≠ 1 → asFloat (.vec l) = .error .type := by
    intro h
    match l, h with
    | [], _ => rfl
    | [_], h => exact absurd rfl h
    | _ :: _ :: _, _ => rfl
  refine ⟨?_, fun hne => ?_, fun h x => ?_, fun h hne x => ?_⟩
  · obtain ⟨c, h1, h2⟩ := componentLoop_ok hr ha l (l ++ l') (by simp) (List.range l.length) (by simp)
    refine ⟨c, ?_, ?_⟩
    · unfold compareValues
      simp only [h1]
    · rw [h2]
      intro i hi
      have hi : i < l.length := by simpa using hi
      have : (l ++ l').getD i 0 = l.getD i 0 := by
        simp only [List.getD, List.getElem?_append_left hi]
      rw [this]
      exact close_refl ha _
  · have hloop : ∀ (is : List ℕ), (∀ i ∈ is, i < l.length) → ∀ is', componentLoop (l ++ l') (.vec l) relTol absTol (is ++ l.length :: is') = .error .index := by
      intro is
      induction is with
      | nil =>
        intro _ is'
        rw [List.nil_append]
        unfold componentLoop
        have hl : l.length < (l ++ l').length := by
          rw [List.length_append]
          have := List.length_pos_of_ne_nil hne
          omega
        rw [getE_ok hl, Py.bind_ok]
        have : item (.vec l) l.length = .error .index := getE_error le_rfl
        rw [this, Py.bind_error]
      | cons i is ih =>
        intro hi is'
        rw [List.cons_append]
        unfold componentLoop
        have h0 := hi i (by simp)
        rw [getE_ok (show i < (l ++ l').length by rw [List.length_append]; omega), Py.bind_ok]
        have e : item (.vec l) i = .ok (l[i]) := getE_ok h0
        rw [e, Py.bind_ok, List.getElem_append_left h0]
        obtain ⟨c, h1, h2⟩ := isclose_eq hr ha l[i] l[i]
        rw [h1, Py.bind_ok, h2.2 (close_refl ha _), if_pos rfl]
        exact ih (fun j hj => hi j (by simp [hj])) is'
    have hrange : ∃ is', List.range (l ++ l').length = List.range l.length ++ l.length :: is' := by
      have hl := List.length_pos_of_ne_nil hne
      refine ⟨(List.range (l'.length - 1)).map (fun i => l.length + (i + 1)), ?_⟩
      rw [List.length_append, List.range_add]
      congr 1
      obtain ⟨a, ha⟩ := Nat.exists_eq_add_of_lt hl
      have : l'.length = (l'.length - 1) + 1 := by omega
      rw [this, List.range_succ_eq_map]
      simp
    obtain ⟨is', hr'⟩ := hrange
    unfold compareValues
    simp only [hr', hloop (List.range l.length) (by simp) is']
  · have : compareValues (.num x) (.vec l) relTol absTol = compareScalars (.num x) (.vec l) relTol absTol := rfl
    rw [this]
    unfold compareScalars
    have e : asFloat (.num x) = .ok x := rfl
    rw [e, Py.bind_ok, hf h, Py.bind_error]
  · have h1 : componentLoop l (.num x) relTol absTol (List.range l.length) = .error .type := by
      obtain ⟨a, l1, rfl⟩ := List.exists_cons_of_ne_nil hne
      rw [List.length_cons, List.range_succ_eq_map]
      unfold componentLoop
      rw [getE_ok (show 0 < (a :: l1).length by simp), Py.bind_ok]
      rfl
    unfold compareValues
    simp only [h1]
    unfold compareScalars
    rw [hf h, Py.bind_error]

/-- **C71** A number and an array of length one are compared like two numbers. -/
theorem C71_length_one {relTol absTol : ℝ} (hr : 0 ≤ relTol) (ha : 0 ≤ absTol) (x y : ℝ) :
    (∃ c, compareValues (.num x) (.vec [y]) relTol absTol = .ok c ∧ (c = true ↔ Close relTol absTol x y)) ∧
    (∃ c, compareValues (.vec [x]) (.num y) relTol absTol = .ok c ∧ (c = true ↔ Close relTol absTol x y)) := by
  obtain ⟨c, h1, h2⟩ := isclose_eq hr ha x y
  exact ⟨⟨c, h1, h2⟩, ⟨c, h1, h2⟩⟩

/-! ## On a simplex -/

theorem pointAt_eq (v : Vertices ℝ k n) (u : Fin k → ℝ) : createAffineMap ((edgeM v, v 0) : Affine ℝ k n) u = pointAt v u := by
  unfold createAffineMap pointAt
  rw [edgeM_mulVec, add_comm]

/-- **C71** The points of the simplex used by `polynomials_equal_on_simplex`. -/
theorem C71_points_in_simplex (v : Vertices ℝ k n) (u : Fin k → ℝ) (hu : InUnitSimplex u) : pointAt v u ∈ Points v := by
  have h := weights_bary v u
  rw [show v 0 + (edgeM v).mulVec u = pointAt v u by unfold pointAt; rw [edgeM_mulVec]] at h
  refine ⟨_, h, fun i => ?_⟩
  refine Fin.cases ?_ (fun j => ?_) i
  · simp only [weights, Fin.cons_zero]; linarith [hu.2]
  · simp only [weights, Fin.cons_succ]; exact hu.1 j

/-- **C71** `polynomials_equal_on_simplex` for real valued functions: True exactly if the values are close at the random points of the simplex. A single
point is rejected, and so are more than `n + 1` vertices in dimension `n`. -/
theorem C71_on_simplex (random : ℕ → List (Fin k → ℝ)) (f g : (Fin n → ℝ) → ℝ) (r : ℕ) (v : Vertices ℝ k n) {relTol absTol : ℝ} (hr : 0 ≤ relTol)
    (ha : 0 ≤ absTol) :
    (0 < k → k ≤ n → ∃ c, polynomialsEqualOnSimplex random (fun x => .ok (.num (f x))) (fun x => .ok (.num (g x))) r v relTol absTol = .ok c ∧
      (c = true ↔ ∀ u ∈ random ((r + k).choose k), Close relTol absTol (f (pointAt v u)) (g (pointAt v u)))) ∧
    (k = 0 → polynomialsEqualOnSimplex random (fun x => .ok (.num (f x))) (fun x => .ok (.num (g x))) r v relTol absTol = .error .index) ∧
    (n < k → polynomialsEqualOnSimplex random (fun x => .ok (.num (f x))) (fun x => .ok (.num (g x))) r v relTol absTol = .error .assertion) := by
  refine ⟨fun hk hkn => ?_, ?_, fun hkn => ?_⟩
  · obtain ⟨c, h1, h2⟩ := pointLoop_ok hr ha (fun x => .num (f x)) (fun x => .num (g x))
      ((random ((r + k).choose k)).map (createAffineMap ((edgeM v, v 0) : Affine ℝ k n))) fun _ _ => trivial
    refine ⟨c, ?_, ?_⟩
    · unfold polynomialsEqualOnSimplex
      rw [SimplexGeometry.fromUnit_eq v (by omega) hkn, Py.bind_ok]
      exact h1
    · rw [h2, List.forall_mem_map]
      refine forall₂_congr fun u _ => ?_
      rw [pointAt_eq]
      rfl
  · rintro rfl
    unfold polynomialsEqualOnSimplex affineTransformationFromUnit
    simp [Py.bind_error]
  · unfold polynomialsEqualOnSimplex affineTransformationFromUnit
    simp [Nat.not_le.2 hkn, Py.bind_error]

/-- The polynomial `P` in the coordinates of the simplex. -/
noncomputable def pull (v : Vertices ℝ k n) (P : MvPolynomial (Fin n) ℝ) : MvPolynomial (Fin k) ℝ :=
  MvPolynomial.bind₁ (fun a => MvPolynomial.C (v 0 a) + ∑ i, MvPolynomial.C (v i.succ a - v 0 a) * MvPolynomial.X i) P

theorem pull_eval (v : Vertices ℝ k n) (P : MvPolynomial (Fin n) ℝ) (u : Fin k → ℝ) :
    MvPolynomial.eval u (pull v P) = MvPolynomial.eval (pointAt v u) P := by
  unfold pull
  rw [MvPolynomial.eval, MvPolynomial.eval₂Hom_bind₁, ← MvPolynomial.eval]
  congr 2
  funext a
  simp only [pointAt, map_add, map_sum, map_mul, MvPolynomial.eval₂Hom_C, MvPolynomial.eval₂Hom_X', RingHom.id_apply, Pi.add_apply, Finset.sum_apply,
    Pi.smul_apply, Pi.sub_apply, smul_eq_mul, mul_comm]

theorem pull_degree (v : Vertices ℝ k n) (P : MvPolynomial (Fin n) ℝ) : (pull v P).totalDegree ≤ P.totalDegree := by
  classical
  unfold pull
  rw [MvPolynomial.bind₁, MvPolynomial.aeval_def, MvPolynomial.eval₂_eq]
  refine (MvPolynomial.totalDegree_finsetSum _ _).trans (Finset.sup_le fun d hd => ?_)
  refine (MvPolynomial.totalDegree_mul _ _).trans ?_
  have h1 : (algebraMap ℝ (MvPolynomial (Fin k) ℝ) (MvPolynomial.coeff d P)).totalDegree = 0 := MvPolynomial.totalDegree_C _
  rw [h1, zero_add]
  refine (MvPolynomial.totalDegree_finsetProd _ _).trans ?_
  refine le_trans (Finset.sum_le_sum (g := fun i => d i) fun a _ => ?_) (MvPolynomial.le_totalDegree hd)
  refine (MvPolynomial.totalDegree_pow _ _).trans ?_
  refine (Nat.mul_le_mul_left _ ?_).trans (mul_one _).le
  refine (MvPolynomial.totalDegree_add _ _).trans (max_le (by rw [MvPolynomial.totalDegree_C]; omega) ?_)
  refine (MvPolynomial.totalDegree_finsetSum _ _).trans (Finset.sup_le fun i _ => ?_)
  refine (MvPolynomial.totalDegree_mul _ _).trans ?_
  rw [MvPolynomial.totalDegree_C, MvPolynomial.totalDegree_X, zero_add]

theorem mem_hull' (v : Vertices ℝ k n) (x : Fin n → ℝ) : x ∈ Hull v ↔ ∃ u, x = pointAt v u := by
  rw [mem_hull]
  simp only [edgeM_mulVec, pointAt]

/-- **C71** With tolerances zero and points that determine polynomials of degree `r`, the test on a simplex decides equality of polynomials on the plane
of the simplex (on the whole space if the simplex has full dimension). -/
theorem C71_on_simplex_exact (random : ℕ → List (Fin k → ℝ)) (r : ℕ) (v : Vertices ℝ k n) (hk : 0 < k) (hkn : k ≤ n) (P Q : MvPolynomial (Fin n) ℝ)
    (hP : P.totalDegree ≤ r) (hQ : Q.totalDegree ≤ r) (hu : Unisolvent r (random ((r + k).choose k))) :
    ∃ c, polynomialsEqualOnSimplex random (fun x => .ok (.num (MvPolynomial.eval x P))) (fun x => .ok (.num (MvPolynomial.eval x Q))) r v 0 0 = .ok c ∧
      (c = true ↔ ∀ x ∈ Hull v, MvPolynomial.eval x P = MvPolynomial.eval x Q) := by
  obtain ⟨c, h1, h2⟩ := (C71_on_simplex random (fun x => MvPolynomial.eval x P) (fun x => MvPolynomial.eval x Q) r v le_rfl le_rfl).1 hk hkn
  refine ⟨c, h1, h2.trans ⟨fun h x hx => ?_, fun h u _ => ?_⟩⟩
  · have h0 : pull v (P - Q) = 0 := by
      refine hu _ ((pull_degree v _).trans ((MvPolynomial.totalDegree_sub _ _).trans (max_le hP hQ))) fun u hu => ?_
      rw [pull_eval, map_sub, sub_eq_zero]
      exact (close_zero _ _).1 (h u hu)
    obtain ⟨u, rfl⟩ := (mem_hull' v x).1 hx
    have := pull_eval v (P - Q) u
    rw [h0, map_zero, map_sub] at this
    exact sub_eq_zero.1 this.symm
  · rw [h _ ((mem_hull' v _).2 ⟨u, rfl⟩)]
    exact close_refl le_rfl _

/-- **C71** Also on a simplex the number of random points is sufficient, with probability one. -/
theorem C71_on_simplex_almost_surely (r : ℕ) (v : Vertices ℝ k n) (hk : 0 < k) (hkn : k ≤ n) :
    ∀ᵐ us : Fin ((r + k).choose k) → Fin k → ℝ, ∀ P Q : MvPolynomial (Fin n) ℝ, P.totalDegree ≤ r → Q.totalDegree ≤ r →
      ∃ c, polynomialsEqualOnSimplex (fun _ => List.ofFn us) (fun x => .ok (.num (MvPolynomial.eval x P)))
        (fun x => .ok (.num (MvPolynomial.eval x Q))) r v 0 0 = .ok c ∧
        (c = true ↔ ∀ x ∈ Hull v, MvPolynomial.eval x P = MvPolynomial.eval x Q) := by
  filter_upwards [unisolvent_ae k r] with us hus P Q hP hQ
  exact C71_on_simplex_exact _ r v hk hkn P Q hP hQ hus

/-- **C71** With tolerances zero, polynomials that differ on the plane of the simplex are taken for equal with probability zero. -/
theorem C71_on_simplex_probability (r : ℕ) (v : Vertices ℝ k n) (hk : 0 < k) (hkn : k ≤ n) (P Q : MvPolynomial (Fin n) ℝ) (x : Fin n → ℝ) (hx : x ∈ Hull v)
    (h : MvPolynomial.eval x P ≠ MvPolynomial.eval x Q) :
    volume {us : Fin ((r + k).choose k) → Fin k → ℝ | polynomialsEqualOnSimplex (fun _ => List.ofFn us) (fun x => .ok (.num (MvPolynomial.eval x P)))
      (fun x => .ok (.num (MvPolynomial.eval x Q))) r v 0 0 = .ok true} = 0 := by
  have hne : pull v (P - Q) ≠ 0 := by
    intro h0
    obtain ⟨u, rfl⟩ := (mem_hull' v x).1 hx
    have := pull_eval v (P - Q) u
    rw [h0, map_zero, map_sub] at this
    exact h (sub_eq_zero.1 this.symm)
  refine measure_mono_null (fun us hus => ?_) (zeros_null_tuple (pull v (P - Q)) hne (Nat.choose_pos (by omega) : 0 < (r + k).choose k))
  intro i
  obtain ⟨c, h1, h2⟩ := (C71_on_simplex (fun _ => List.ofFn us) (fun x => MvPolynomial.eval x P) (fun x => MvPolynomial.eval x Q) r v le_rfl le_rfl).1 hk hkn
  have hc : c = true := Except.ok.inj (h1.symm.trans hus)
  rw [pull_eval, map_sub, sub_eq_zero]
  exact (close_zero _ _).1 (h2.1 hc (us i) (List.mem_ofFn.2 ⟨i, rfl⟩))

/-! ## Piecewise polynomials -/

theorem cornersE_ok (s : Fin (k + 1) → ℕ) (vertices : List (Fin n → ℝ)) (h : ∀ i, s i < vertices.length) :
    cornersE s vertices = .ok (simplexOf vertices s) := by
  unfold cornersE
  rw [getE_ok (Nat.lt_of_le_of_lt (Nat.zero_le _) (h 0)), Py.bind_ok]
  rw [mapM_eq_ok (fun i => vertices.getD (s i) 0) _ fun i _ => ?_, Py.bind_ok]
  · rw [Py.pure_eq]
    congr 1
    funext i
    have hi : (i : ℕ) < (List.finRange (k + 1)).length := by rw [List.length_finRange]; exact i.2
    simp only [List.getD, List.getElem?_map, List.getElem?_eq_getElem hi, List.getElem_finRange]
    rfl
  · rw [getE_ok (h i)]
    simp [List.getD, h i]

theorem simplexLoop_ok (random : ℕ → ℕ → List (Fin k → ℝ)) (vertices : List (Fin n → ℝ)) (f g : (Fin n → ℝ) → ℝ) (r : ℕ) {relTol absTol : ℝ}
    (hr : 0 ≤ relTol) (ha : 0 ≤ absTol) (hk : 0 < k) (hkn : k ≤ n) (ss : List (Fin (k + 1) → ℕ)) :
    (∀ s ∈ ss, ∀ i, s i < vertices.length) → ∀ j,
      ∃ c, simplexLoop random vertices (fun x => .ok (.num (f x))) (fun x => .ok (.num (g x))) r relTol absTol j ss = .ok c ∧
        (c = true ↔ ∀ i, ∀ hi : i < ss.length, ∀ u ∈ random (j + i) ((r + k).choose k),
          Close relTol absTol (f (pointAt (simplexOf vertices ss[i]) u)) (g (pointAt (simplexOf vertices ss[i]) u))) := by
  induction ss with
  | nil => exact fun _ j => ⟨true, rfl, by simp⟩
  | cons s ss ih =>
    intro h j
    obtain ⟨c', h1, h2⟩ := ih (fun s hs => h s (by simp [hs])) (j + 1)
    obtain ⟨c, h3, h4⟩ := (C71_on_simplex (random j) f g r (simplexOf vertices s) hr ha).1 hk hkn
    unfold simplexLoop
    rw [cornersE_ok s vertices (h s (by simp)), Py.bind_ok, h3, Py.bind_ok]
    have split : (∀ i, ∀ hi : i < (s :: ss).length, ∀ u ∈ random (j + i) ((r + k).choose k),
          Close relTol absTol (f (pointAt (simplexOf vertices (s :: ss)[i]) u)) (g (pointAt (simplexOf vertices (s :: ss)[i]) u))) ↔
        (∀ u ∈ random j ((r + k).choose k), Close relTol absTol (f (pointAt (simplexOf vertices s) u)) (g (pointAt (simplexOf vertices s) u))) ∧
        ∀ i, ∀ hi : i < ss.length, ∀ u ∈ random (j + 1 + i) ((r + k).choose k),
          Close relTol absTol (f (pointAt (simplexOf vertices ss[i]) u)) (g (pointAt (simplexOf vertices ss[i]) u)) := by
      constructor
      · refine fun h => ⟨h 0 (by simp), fun i hi u hu => ?_⟩
        have := h (i + 1) (by simpa using hi) u (by rwa [show j + (i + 1) = j + 1 + i by omega])
        simpa using this
      · rintro ⟨h, h'⟩ i hi u hu
        cases i with
        | zero => exact h u hu
        | succ i =>
          have := h' i (by simpa using hi) u (by rwa [show j + 1 + i = j + (i + 1) by omega])
          simpa using this
    cases c with
    | true =>
      refine ⟨c', by rw [if_pos rfl, h1], ?_⟩
      rw [h2, split]
      exact ⟨fun h => ⟨h4.1 rfl, h⟩, fun h => h.2⟩
    | false =>
      refine ⟨false, rfl, ?_⟩
      rw [split]
      exact ⟨fun h => absurd h (by simp), fun h => h4.2 h.1⟩

/-- **C71** `piecewise_polynomials_equal` for real valued functions: True exactly if the values are close at all of the random points of all simplices. -/
theorem C71_piecewise (random : ℕ → ℕ → List (Fin k → ℝ)) (triangles : List (Fin (k + 1) → ℕ)) (vertices : List (Fin n → ℝ)) (f g : (Fin n → ℝ) → ℝ)
    (r : ℕ) {relTol absTol : ℝ} (hr : 0 ≤ relTol) (ha : 0 ≤ absTol) (hk : 0 < k) (hkn : k ≤ n) (h : ∀ s ∈ triangles, ∀ i, s i < vertices.length) :
    ∃ c, piecewisePolynomialsEqual random triangles vertices (fun x => .ok (.num (f x))) (fun x => .ok (.num (g x))) r relTol absTol = .ok c ∧
      (c = true ↔ ∀ j, ∀ hj : j < triangles.length, ∀ u ∈ random j ((r + k).choose k),
        Close relTol absTol (f (pointAt (simplexOf vertices triangles[j]) u)) (g (pointAt (simplexOf vertices triangles[j]) u))) := by
  obtain ⟨c, h1, h2⟩ := simplexLoop_ok random vertices f g r hr ha hk hkn triangles h 0
  refine ⟨c, h1, h2.trans ?_⟩
  simp only [zero_add]

/-- **C71** With tolerances zero, and points in the unit simplex that determine polynomials of degree `r`, the test decides whether two functions that are
polynomials of degree at most `r` on every simplex have the same values everywhere on the mesh. -/
theorem C71_piecewise_exact (random : ℕ → ℕ → List (Fin k → ℝ)) (triangles : List (Fin (k + 1) → ℕ)) (vertices : List (Fin n → ℝ)) (f g : (Fin n → ℝ) → ℝ)
    (r : ℕ) (hk : 0 < k) (hkn : k ≤ n) (h : ∀ s ∈ triangles, ∀ i, s i < vertices.length)
    (hf : ∀ s ∈ triangles, ∃ P : MvPolynomial (Fin n) ℝ, P.totalDegree ≤ r ∧ ∀ x ∈ Points (simplexOf vertices s), f x = MvPolynomial.eval x P)
    (hg : ∀ s ∈ triangles, ∃ P : MvPolynomial (Fin n) ℝ, P.totalDegree ≤ r ∧ ∀ x ∈ Points (simplexOf vertices s), g x = MvPolynomial.eval x P)
    (hu : ∀ j < triangles.length, Unisolvent r (random j ((r + k).choose k)) ∧ ∀ u ∈ random j ((r + k).choose k), InUnitSimplex u) :
    ∃ c, piecewisePolynomialsEqual random triangles vertices (fun x => .ok (.num (f x))) (fun x => .ok (.num (g x))) r 0 0 = .ok c ∧
      (c = true ↔ ∀ s ∈ triangles, ∀ x ∈ Points (simplexOf vertices s), f x = g x) := by
  obtain ⟨c, h1, h2⟩ := C71_piecewise random triangles vertices f g r le_rfl le_rfl hk hkn h
  refine ⟨c, h1, h2.trans ⟨fun hc s hs x hx => ?_, fun hc j hj u hu' => ?_⟩⟩
  · obtain ⟨j, hj, rfl⟩ := List.getElem_of_mem hs
    obtain ⟨P, hP, hfP⟩ := hf _ hs
    obtain ⟨Q, hQ, hgQ⟩ := hg _ hs
    have h0 : pull (simplexOf vertices triangles[j]) (P - Q) = 0 := by
      refine (hu j hj).1 _ ((pull_degree _ _).trans ((MvPolynomial.totalDegree_sub _ _).trans (max_le hP hQ))) fun u hu' => ?_
      have hp := C71_points_in_simplex (simplexOf vertices triangles[j]) u ((hu j hj).2 u hu')
      rw [pull_eval, map_sub, sub_eq_zero, ← hfP _ hp, ← hgQ _ hp]
      exact (close_zero _ _).1 (hc j hj u hu')
    have hx' := hx
    obtain ⟨w, hw, _⟩ := hx'
    obtain ⟨u, rfl⟩ := (mem_hull' _ _).1 ⟨w, hw⟩
    have := pull_eval (simplexOf vertices triangles[j]) (P - Q) u
    rw [h0, map_zero, map_sub] at this
    rw [hfP _ hx, hgQ _ hx]
    exact sub_eq_zero.1 this.symm
  · have hs := List.getElem_mem hj
    rw [hc _ hs _ (C71_points_in_simplex _ u ((hu j hj).2 u hu'))]
    exact close_refl le_rfl _

/-! ## Error measures -/

/-- **C71** `relative_error`: the error relative to the expected value, or the absolute error if the expected value is not larger than the tolerance. -/
theorem C71_relative_error (x0 x zeroTol : ℝ) (h : 0 ≤ zeroTol) :
    ∃ e, relativeError x0 x zeroTol = .ok e ∧ 0 ≤ e ∧ (zeroTol < |x0| → |x - x0| = e * |x0|) ∧ (|x0| ≤ zeroTol → e = |x - x0|) := by
  unfold relativeError absoluteError
  rw [abs_sub_comm x0 x]
  by_cases hx : |x0| > zeroTol
  · have hne : |x0| ≠ 0 := by intro e; rw [e] at hx; exact absurd h (not_le.2 hx)
    rw [if_pos hx, if_neg hne]
    exact ⟨_, rfl, by positivity, fun _ => by field_simp, fun h' => absurd h' (not_le.2 hx)⟩
  · rw [if_neg hx]
    exact ⟨_, rfl, by positivity, fun h' => absurd h' hx, fun _ => rfl⟩

/-- **C71** `relative_error_symmetric`: symmetric, at most 2 (or, for small arguments, twice the tolerance), and consistent with `math.isclose`. -/
theorem C71_relative_error_symmetric (x1 x2 zeroTol : ℝ) (h : 0 ≤ zeroTol) :
    ∃ e, relativeErrorSymmetric x1 x2 zeroTol = .ok e ∧ relativeErrorSymmetric x2 x1 zeroTol = .ok e ∧ 0 ≤ e ∧
      (zeroTol < max |x1| |x2| → |x1 - x2| = e * max |x1| |x2| ∧ e ≤ 2 ∧ ∀ t, 0 ≤ t → (isclose x1 x2 t 0 = .ok true ↔ e ≤ t)) ∧
      (max |x1| |x2| ≤ zeroTol → e = |x1 - x2| ∧ e ≤ 2 * zeroTol) := by
  have habs : |x1 - x2| ≤ 2 * max |x1| |x2| := by
    have := abs_sub x1 x2
    have h1 := le_max_left |x1| |x2|
    have h2 := le_max_right |x1| |x2|
    linarith
  unfold relativeErrorSymmetric absoluteError
  simp only
  rw [max_comm |x2| |x1|, abs_sub_comm x2 x1]
  by_cases hx : max |x1| |x2| > zeroTol
  · have hpos : 0 < max |x1| |x2| := lt_of_le_of_lt h hx
    rw [if_pos hx, if_neg hpos.ne']
    refine ⟨_, rfl, rfl, by positivity, fun _ => ⟨by field_simp, ?_, fun t ht => ?_⟩, fun h' => absurd h' (not_le.2 hx)⟩
    · rw [div_le_iff₀ hpos]; exact habs
    · obtain ⟨c, h1, h2⟩ := isclose_eq ht le_rfl x1 x2
      rw [h1]
      constructor
      · intro hc
        have := h2.1 (Except.ok.inj hc)
        unfold Close at this
        rw [max_eq_left (by positivity)] at this
        rw [div_le_iff₀ hpos]
        exact this
      · intro he
        rw [div_le_iff₀ hpos] at he
        rw [h2.2 (le_max_of_le_left he)]
  · rw [if_neg hx]
    exact ⟨_, rfl, rfl, by positivity, fun h' => absurd h' hx, fun h' => ⟨rfl, habs.trans (by linarith)⟩⟩

/-! ## The hypotheses are met -/

/-- Two points determine the polynomials of degree 1 on the line. -/
theorem unisolvent_line : Unisolvent 1 [(fun _ => 0 : Fin 1 → ℝ), fun _ => 1] := by
  intro P hP h
  have h0 := h _ (List.mem_cons_self)
  have h1 := h (fun _ => 1) (by simp)
  have hsupp : ∀ d ∈ P.support, d = 0 ∨ d = Finsupp.single 0 1 := by
    intro d hd
    have := (MvPolynomial.le_totalDegree hd).trans hP
    have e : d = Finsupp.single 0 (d 0) := by
      refine Finsupp.ext fun i => ?_
      rw [Subsingleton.elim i 0]
      simp
    rw [e] at this ⊢
    rw [Finsupp.sum_single_index (by simp)] at this
    have : d 0 = 0 ∨ d 0 = 1 := by omega
    rcases this with e | e
    · left; rw [e]; simp
    · right; rw [e]
  have hev : ∀ x : Fin 1 → ℝ, MvPolynomial.eval x P = MvPolynomial.coeff 0 P + MvPolynomial.coeff (Finsupp.single 0 1) P * x 0 := by
    intro x
    rw [MvPolynomial.eval_eq]
    have hne : (0 : Fin 1 →₀ ℕ) ≠ Finsupp.single 0 1 := by
      intro e
      have := DFunLike.congr_fun e 0
      simp at this
    rw [Finset.sum_subset (s₂ := {0, Finsupp.single 0 1}) (fun d hd => by simpa using hsupp d hd) (fun d _ hd => by
      rw [MvPolynomial.notMem_support_iff.1 hd, zero_mul]), Finset.sum_pair hne]
    simp
  rw [hev] at h0 h1
  simp only [mul_zero, add_zero] at h0
  simp only [mul_one] at h1
  ext d
  rw [MvPolynomial.coeff_zero]
  by_contra hd
  rcases hsupp d (MvPolynomial.mem_support_iff.2 hd) with rfl | rfl
  · exact hd h0
  · rw [h0, zero_add] at h1; exact hd h1

example : Unisolvent 1 ((fun _ : ℕ => [(fun _ => 0 : Fin 1 → ℝ), fun _ => 1]) ((1 + 1).choose 1)) ∧
    ∀ u ∈ (fun _ : ℕ => [(fun _ => 0 : Fin 1 → ℝ), fun _ => 1]) ((1 + 1).choose 1), InUnitSimplex u := by
  refine ⟨unisolvent_line, fun u hu => ?_⟩
  simp only [List.mem_cons, List.not_mem_nil, or_false] at hu
  rcases hu with rfl | rfl <;> simp [InUnitSimplex]

end Verif.Props
