import Verif.Model.GramSchmidtArray
import Verif.Props.Projection
/-!
# C54: Gram-Schmidt for arrays of integers and of floats
-/

namespace Verif.Linalg
open Verif

section GramSchmidtArray
variable {E : Type} [NormedAddCommGroup E] [InnerProductSpace ℝ E]

theorem gsReduceA_float (done : List (Arr E)) : ∀ w : Arr E, w.integer = false →
    gsReduceA w done = .ok ⟨false, gsReduce w.vec (done.map Arr.vec)⟩ := by
  induction done with
  | nil =>
    intro w hw
    obtain ⟨i, v⟩ := w
    simp only at hw
    subst hw
    rfl
  | cons q qs ih =>
    intro w hw
    have h : w.subComponent q = .ok ⟨false, w.vec - (inner ℝ w.vec q.vec : ℝ) • q.vec⟩ := by
      simp [Arr.subComponent, hw, Py.pure_eq]
    rw [gsReduceA, h, Py.bind_ok, ih _ rfl]
    rfl

theorem gsReduceA_integer (done : List (Arr E)) : ∀ w : Arr E, w.integer = true →
    gsReduceA w done = .error .type ∨ ∃ w', gsReduceA w done = .ok w' ∧ w'.integer = true := by
  induction done with
  | nil => exact fun w hw => .inr ⟨w, rfl, hw⟩
  | cons q qs ih =>
    intro w hw
    rw [gsReduceA]
    cases hq : q.integer with
    | false =>
      left
      simp only [Arr.subComponent, hw, hq]
      rfl
    | true =>
      have h : w.subComponent q = .ok ⟨true, w.vec - (inner ℝ w.vec q.vec : ℝ) • q.vec⟩ := by
        simp [Arr.subComponent, hw, hq, Py.pure_eq]
      rw [h, Py.bind_ok]
      exact ih _ rfl

theorem gsLoopA_float (l : List (Arr E)) : ∀ done : List (Arr E), (∀ v ∈ done, v.integer = false) → (∀ v ∈ l, v.integer = false) →
    ∃ r, gsLoopA done l = .ok r ∧ (∀ v ∈ r, v.integer = false) ∧ r.map Arr.vec = gsLoop (done.map Arr.vec) (l.map Arr.vec) := by
  induction l with
  | nil => exact fun done hd _ => ⟨done, rfl, hd, rfl⟩
  | cons v vs ih =>
    intro done hd hl
    rw [gsLoopA, gsReduceA_float done v (hl v (by simp)), Py.bind_ok]
    have hn (w : E) : Arr.normalise ⟨false, w⟩ = .ok ⟨false, (1 / √(inner ℝ w w : ℝ)) • w⟩ := by simp [Arr.normalise, Py.pure_eq]
    rw [hn, Py.bind_ok]
    obtain ⟨r, h1, h2, h3⟩ := ih (done ++ [⟨false, _⟩])
      (by intro u hu; rcases List.mem_append.1 hu with h | h; exacts [hd u h, by rw [List.mem_singleton.1 h]])
      (fun u hu => hl u (by simp [hu]))
    refine ⟨r, h1, h2, ?_⟩
    rw [h3, List.map_append]
    rfl

theorem gsLoopA_integer (l : List (Arr E)) : ∀ done : List (Arr E), (∃ v ∈ l, v.integer = true) → gsLoopA done l = .error .type := by
  induction l with
  | nil => rintro done ⟨v, hv, -⟩; simp at hv
  | cons v vs ih =>
    rintro done ⟨u, hu, hi⟩
    rw [gsLoopA]
    cases hv : v.integer with
    | true =>
      rcases gsReduceA_integer done v hv with h | ⟨w, h, hw⟩
      · rw [h]; rfl
      · rw [h, Py.bind_ok]
        simp only [Arr.normalise, hw]
        rfl
    | false =>
      rw [gsReduceA_float done v hv, Py.bind_ok]
      have hn (w : E) : Arr.normalise ⟨false, w⟩ = .ok ⟨false, (1 / √(inner ℝ w w : ℝ)) • w⟩ := by simp [Arr.normalise, Py.pure_eq]
      rw [hn, Py.bind_ok]
      refine ih _ ⟨u, ?_, hi⟩
      rcases List.mem_cons.1 hu with rfl | h
      · rw [hi] at hv; cases hv
      · exact h

/-- **C54** `gram_schmidt_orthonormalization` of linearly independent arrays of floats: an orthonormal family of the same length, whose first `k`
vectors span the same space as the first `k` input vectors, for every `k`. -/
theorem C54_gram_schmidt_float (basis : List (Arr E)) (hne : basis ≠ []) (hf : ∀ v ∈ basis, v.integer = false)
    (hi : Independent [] (basis.map Arr.vec)) :
    ∃ q, gramSchmidtA basis = .ok q ∧ q.length = basis.length ∧ OrthonormalList (q.map Arr.vec) ∧
      (∀ k ≤ basis.length, spanL ((q.map Arr.vec).take k) = spanL ((basis.map Arr.vec).take k)) ∧
      List.Forall₂ (fun q v => 0 < (inner ℝ q v : ℝ)) (q.map Arr.vec) (basis.map Arr.vec) := by
  obtain ⟨r, h1, -, h3⟩ := gsLoopA_float basis [] (by simp) hf
  obtain ⟨q, g1, g2, g3, g4, g5⟩ := C54_gram_schmidt (basis.map Arr.vec) (by simpa using hne) hi
  have hp : basis.length > 0 := List.length_pos_iff.2 hne
  have hq : r.map Arr.vec = q := by
    unfold gramSchmidt at g1
    simp only [List.length_map, hp, decide_true, pyAssert, if_true, Py.bind_ok, Py.pure_eq] at g1
    rw [h3]
    exact Except.ok.inj g1
  refine ⟨r, ?_, ?_, by rw [hq]; exact g3, ?_, by rw [hq]; exact g5⟩
  · unfold gramSchmidtA
    simp only [hp, decide_true, pyAssert, if_true, Py.bind_ok]
    exact h1
  · rw [← List.length_map (as := r) Arr.vec, hq, g2, List.length_map]
  · rw [hq]
    simpa using g4

/-- **C54** As soon as one array of the basis has an integer element type, linearly independent or not, the call raises a `TypeError`. -/
theorem C54_gram_schmidt_integer (basis : List (Arr E)) (h : ∃ v ∈ basis, v.integer = true) : gramSchmidtA basis = .error .type := by
  have hp : basis.length > 0 := by
    obtain ⟨v, hv, -⟩ := h
    exact List.length_pos_of_mem hv
  unfold gramSchmidtA
  simp only [hp, decide_true, pyAssert, if_true, Py.bind_ok]
  exact gsLoopA_integer basis [] h

/-- **C54** The empty list of arrays is rejected. -/
theorem C54_gram_schmidt_array_empty : gramSchmidtA ([] : List (Arr E)) = .error .assertion := rfl

/-- A linearly independent family of floats, and one with an array of integers in the second place. -/
example : (∀ v ∈ [(⟨false, (2 : ℝ)⟩ : Arr ℝ)], v.integer = false) ∧ Independent [] ([(⟨false, (2 : ℝ)⟩ : Arr ℝ)].map Arr.vec) := by
  refine ⟨by simp, ?_, trivial⟩
  simp [spanL]

example : ∃ v ∈ [(⟨false, !₂[(1 : ℝ), 1]⟩ : Arr (EuclideanSpace ℝ (Fin 2))), ⟨true, !₂[0, 2]⟩], v.integer = true :=
  ⟨⟨true, !₂[0, 2]⟩, by simp, rfl⟩

end GramSchmidtArray

end Verif.Linalg
