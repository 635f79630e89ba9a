import Verif.Model.Equality
import Verif.Spec.Equality
import Verif.Props.SimplexGeometry
import Mathlib.MeasureTheory.Constructions.Pi
import Mathlib.MeasureTheory.Measure.Lebesgue.Basic
import Mathlib.Algebra.MvPolynomial.Equiv
import Mathlib.Algebra.MvPolynomial.Funext
import Mathlib.Algebra.MvPolynomial.Monad
import Mathlib.Topology.Algebra.MvPolynomial
import Mathlib.Algebra.Polynomial.Roots
/-!
# Lemmas on tests for equality
-/

namespace Verif.Equality
open Verif Verif.Simplex Verif.SimplexGeometry Verif.Spec

section
open MeasureTheory MvPolynomial

/-- The zeros of a polynomial that is not zero form a set of measure zero. -/
theorem zeros_null : ∀ (m : ℕ) (P : MvPolynomial (Fin m) ℝ), P ≠ 0 → volume {x : Fin m → ℝ | eval x P = 0} = 0 := by
  intro m
  induction m with
  | zero =>
    intro P hP
    have : {x : Fin 0 → ℝ | eval x P = 0} = ∅ := by
      ext x
      simp only [Set.mem_ofPred_eq, Set.mem_empty_iff_false, iff_false]
      intro h
      obtain ⟨c, rfl⟩ := C_surjective (Fin 0) P
      rw [eval_C] at h
      exact hP (by rw [h, C_0])
    rw [this, measure_empty]
  | succ m ih =>
    intro P hP
    set Q := finSuccEquiv ℝ m P with hQ
    have hQ0 : Q ≠ 0 := fun h => hP ((finSuccEquiv ℝ m).injective (by rw [← hQ, h, map_zero]))
    have hL : Q.leadingCoeff ≠ 0 := Polynomial.leadingCoeff_ne_zero.2 hQ0
    have hcl : IsClosed {x : Fin (m + 1) → ℝ | eval x P = 0} := isClosed_eq (MvPolynomial.continuous_eval P) continuous_const
    have hmp := (volume_preserving_piFinSuccAbove (fun _ : Fin (m + 1) => ℝ) 0).symm
    rw [← hmp.measure_preimage hcl.measurableSet.nullMeasurableSet]
    set S := (MeasurableEquiv.piFinSuccAbove (fun _ : Fin (m + 1) => ℝ) 0).symm ⁻¹' {x : Fin (m + 1) → ℝ | eval x P = 0} with hS
    have hSm : MeasurableSet S := hcl.measurableSet.preimage (MeasurableEquiv.measurable _)
    rw [Measure.volume_eq_prod, ← Measure.prod_swap, Measure.map_apply measurable_swap hSm, Measure.measure_prod_null (hSm.preimage measurable_swap)]
    have hz := ih _ hL
    have hae : ∀ᵐ y : Fin m → ℝ, eval y Q.leadingCoeff ≠ 0 := by
      rw [ae_iff]; simpa using hz
    filter_upwards [hae] with y hy
    have hne : Q.map (eval y) ≠ 0 := by
      intro h
      apply hy
      have := congrArg (fun q => q.coeff Q.natDegree) h
      simpa using this
    have hsub : Prod.mk y ⁻¹' (Prod.swap ⁻¹' S) ⊆ ((Q.map (eval y)).roots.toFinset : Set ℝ) := by
      intro t ht
      have h1 : eval (Fin.cons t y) P = 0 := by
        have : (MeasurableEquiv.piFinSuccAbove (fun _ : Fin (m + 1) => ℝ) 0).symm (t, y) = Fin.cons t y := by
          simp [MeasurableEquiv.piFinSuccAbove]
          rfl
        have h2 : (MeasurableEquiv.piFinSuccAbove (fun _ : Fin (m + 1) => ℝ) 0).symm (t, y) ∈ {x : Fin (m + 1) → ℝ | eval x P = 0} := ht
        rw [this] at h2
        exact h2
      rw [eval_eq_eval_mv_eval'] at h1
      simp [hne, Polynomial.IsRoot]
      exact h1
    exact measure_mono_null hsub (Finset.measure_zero _ _)

/-- So do the tuples of points at which the polynomial vanishes. -/
theorem zeros_null_tuple {m d : ℕ} (P : MvPolynomial (Fin m) ℝ) (hP : P ≠ 0) (hd : 0 < d) :
    volume {xs : Fin d → Fin m → ℝ | ∀ i, eval (xs i) P = 0} = 0 := by
  have e : {xs : Fin d → Fin m → ℝ | ∀ i, eval (xs i) P = 0} = Set.pi Set.univ fun _ => {x : Fin m → ℝ | eval x P = 0} := by
    ext xs; simp
  rw [e, volume_pi_pi]
  exact Finset.prod_eq_zero (Finset.mem_univ ⟨0, hd⟩) (zeros_null m P hP)

end

theorem isclose_eq {relTol absTol : ℝ} (hr : 0 ≤ relTol) (ha : 0 ≤ absTol) (a b : ℝ) :
    ∃ c, isclose a b relTol absTol = .ok c ∧ (c = true ↔ Close relTol absTol a b) := by
  unfold isclose
  rw [if_neg (by push Not; exact ⟨hr, ha⟩)]
  refine ⟨_, rfl, ?_⟩
  rw [decide_eq_true_iff]
  unfold Close
  rw [le_max_iff, mul_max_of_nonneg _ _ hr, le_max_iff, abs_mul, abs_mul, abs_of_nonneg hr, abs_sub_comm b a]
  constructor
  · rintro (rfl | h | h | h)
    · rw [sub_self, abs_zero]; exact Or.inr ha
    · exact Or.inl (Or.inr h)
    · exact Or.inl (Or.inl h)
    · exact Or.inr h
  · rintro ((h | h) | h)
    · exact Or.inr (Or.inr (Or.inl h))
    · exact Or.inr (Or.inl h)
    · exact Or.inr (Or.inr (Or.inr h))

/-- Two values with the same shape are close in every component. -/
def CloseVal (relTol absTol : ℝ) : Val → Val → Prop
  | .num a, .num b => Close relTol absTol a b
  | .vec l, .vec l' => ∀ i, i < l.length → Close relTol absTol (l.getD i 0) (l'.getD i 0)
  | _, _ => False

/-- Two values have the same shape. -/
def SameShape : Val → Val → Prop
  | .num _, .num _ => True
  | .vec l, .vec l' => l.length = l'.length
  | _, _ => False

theorem componentLoop_ok {relTol absTol : ℝ} (hr : 0 ≤ relTol) (ha : 0 ≤ absTol) (l l' : List ℝ) (hl : l.length ≤ l'.length) (is : List ℕ)
    (hi : ∀ i ∈ is, i < l.length) :
    ∃ c, componentLoop l (.vec l') relTol absTol is = .ok c ∧ (c = true ↔ ∀ i ∈ is, Close relTol absTol (l.getD i 0) (l'.getD i 0)) := by
  induction is with
  | nil => exact ⟨true, rfl, by simp⟩
  | cons i is ih =>
    obtain ⟨c', h1, h2⟩ := ih fun j hj => hi j (by simp [hj])
    have h0 := hi i (by simp)
    obtain ⟨c, h3, h4⟩ := isclose_eq hr ha (l[i]) (l'[i]'(by omega))
    have g1 : l.getD i 0 = l[i] := by simp [List.getD, h0]
    have g2 : l'.getD i 0 = l'[i]'(by omega) := by simp [List.getD, show i < l'.length by omega]
    unfold componentLoop
    have e : item (.vec l') i = .ok (l'[i]'(by omega)) := getE_ok (by omega)
    rw [getE_ok h0, Py.bind_ok, e, Py.bind_ok, h3, Py.bind_ok]
    cases c with
    | true =>
      refine ⟨c', by rw [if_pos rfl, h1], ?_⟩
      rw [h2, List.forall_mem_cons, g1, g2]
      exact ⟨fun h => ⟨h4.1 rfl, h⟩, fun h => h.2⟩
    | false =>
      refine ⟨false, rfl, ?_⟩
      rw [List.forall_mem_cons, g1, g2]
      exact ⟨fun h => absurd h (by simp), fun h => h4.2 h.1⟩

theorem compareValues_ok {relTol absTol : ℝ} (hr : 0 ≤ relTol) (ha : 0 ≤ absTol) (p q : Val) (h : SameShape p q) :
    ∃ c, compareValues p q relTol absTol = .ok c ∧ (c = true ↔ CloseVal relTol absTol p q) := by
  match p, q, h with
  | .num a, .num b, _ => exact isclose_eq hr ha a b
  | .vec l, .vec l', h =>
    obtain ⟨c, h1, h2⟩ := componentLoop_ok hr ha l l' (le_of_eq h) (List.range l.length) (by simp)
    refine ⟨c, ?_, ?_⟩
    · unfold compareValues
      simp only [h1]
    · rw [h2]
      simp [CloseVal]

theorem pointLoop_ok {X : Type} {relTol absTol : ℝ} (hr : 0 ≤ relTol) (ha : 0 ≤ absTol) (f g : X → Val) (xs : List X)
    (h : ∀ x ∈ xs, SameShape (f x) (g x)) :
    ∃ c, pointLoop (fun x => .ok (f x)) (fun x => .ok (g x)) relTol absTol xs = .ok c ∧ (c = true ↔ ∀ x ∈ xs, CloseVal relTol absTol (f x) (g x)) := by
  induction xs with
  | nil => exact ⟨true, rfl, by simp⟩
  | cons x xs ih =>
    obtain ⟨c', h1, h2⟩ := ih fun j hj => h j (by simp [hj])
    obtain ⟨c, h3, h4⟩ := compareValues_ok hr ha (f x) (g x) (h x (by simp))
    unfold pointLoop
    rw [Py.bind_ok, Py.bind_ok, h3, Py.bind_ok]
    cases c with
    | true =>
      refine ⟨c', by rw [if_pos rfl, h1], ?_⟩
      rw [h2, List.forall_mem_cons]
      exact ⟨fun h => ⟨h4.1 rfl, h⟩, fun h => h.2⟩
    | false =>
      refine ⟨false, rfl, ?_⟩
      rw [List.forall_mem_cons]
      exact ⟨fun h => absurd h (by simp), fun h => h4.2 h.1⟩

end Verif.Equality
