import Verif.Model.FiniteDifferenceArray
import Verif.Props.FiniteDifference
import Mathlib.Algebra.Order.Floor.Ring
import Mathlib.Data.Rat.Floor
import Mathlib.Tactic.Linarith
/-!
# C94: finite differences at numpy arrays

A point of `K^n` is a function `p : Fin n → K`; the array holding it is `List.ofFn p`.
-/

namespace Verif.FinDiff
open Verif

variable {K V : Type} [Field K] [AddCommGroup V] [Module K V]

/-- `f` computes the function `F` on arrays of length `n` and returns new objects. -/
def ComputesNew {n : Nat} (f : List K → Py (Returned K V)) (F : (Fin n → K) → V) : Prop := ∀ p, f (List.ofFn p) = .ok (.fresh (F p))

/-- `f` computes the function `F` on arrays of length `n` and returns views of its argument. -/
def ComputesView {n : Nat} (f : List K → Py (Returned K V)) (F : (Fin n → K) → V) : Prop :=
  ∃ g : List K → V, (∀ p : Fin n → K, f (List.ofFn p) = .ok (.view g)) ∧ ∀ p : Fin n → K, g (List.ofFn p) = F p

theorem forwardLoopA_new {n : Nat} (store : K → K) (f : List K → Py (Returned K V)) (F : (Fin n → K) → V) (hf : ComputesNew f F) (p : Fin n → K)
    (hp : ∀ i, store (p i) = p i) (h : K) (f0 : V) (is : List (Fin n)) :
    forwardLoopA store f h (.fresh f0) (is.map Fin.val) (List.ofFn p) =
      (.ok (is.map (fun i => (1 / h) • (F (Function.update p i (store (p i + h))) - f0))), List.ofFn p) := by
  induction is with
  | nil => rfl
  | cons i is ih =>
    simp only [List.map_cons, forwardLoopA, getElem?_ofFn, set_ofFn]
    rw [hf]
    simp only [Function.update_idem, hp, Function.update_eq_self, ih, Returned.value]

theorem centralLoopA_new {n : Nat} (store : K → K) (f : List K → Py (Returned K V)) (F : (Fin n → K) → V) (hf : ComputesNew f F) (p : Fin n → K)
    (hp : ∀ i, store (p i) = p i) (h : K) (is : List (Fin n)) :
    centralLoopA store f h (is.map Fin.val) (List.ofFn p) =
      (.ok (is.map (fun i => (1 / h) • (F (Function.update p i (store (p i + 1 / 2 * h))) - F (Function.update p i (store (p i - 1 / 2 * h)))))),
        List.ofFn p) := by
  induction is with
  | nil => rfl
  | cons i is ih =>
    simp only [List.map_cons, centralLoopA, getElem?_ofFn, set_ofFn]
    rw [hf]
    simp only [Function.update_idem]
    rw [hf]
    simp only [hp, Function.update_eq_self, ih, Returned.value]

theorem forwardA_new {n : Nat} (store : K → K) (f : List K → Py (Returned K V)) (F : (Fin n → K) → V) (hf : ComputesNew f F) (p : Fin n → K)
    (hp : ∀ i, store (p i) = p i) (h : K) :
    forwardDifferenceA store f (List.ofFn p) h =
      (.ok (List.ofFn (fun i => (1 / h) • (F (Function.update p i (store (p i + h))) - F p))), List.ofFn p) := by
  unfold forwardDifferenceA
  rw [hf]
  have h1 : List.range (List.ofFn p).length = (List.finRange n).map Fin.val := by simp
  simp only
  rw [h1, forwardLoopA_new store f F hf p hp, ← List.ofFn_eq_map]

theorem centralA_new {n : Nat} (store : K → K) (f : List K → Py (Returned K V)) (F : (Fin n → K) → V) (hf : ComputesNew f F) (p : Fin n → K)
    (hp : ∀ i, store (p i) = p i) (h : K) :
    centralDifferenceA store f (List.ofFn p) h =
      (.ok (List.ofFn (fun i => (1 / h) • (F (Function.update p i (store (p i + 1 / 2 * h))) - F (Function.update p i (store (p i - 1 / 2 * h)))))),
        List.ofFn p) := by
  unfold centralDifferenceA
  have h1 : List.range (List.ofFn p).length = (List.finRange n).map Fin.val := by simp
  rw [h1, centralLoopA_new store f F hf p hp, ← List.ofFn_eq_map]

theorem update_sub {n : Nat} (p : Fin n → K) (i : Fin n) (h : K) : Function.update p i (p i - h) = p - h • e i := by
  rw [sub_eq_add_neg, update_add, neg_smul, ← sub_eq_add_neg]

/-- **C94** For arrays of floats (the conversion is the identity) and functions that return new objects, the differences are the documented ones, and the
array is the same afterwards. -/
theorem C94_float_arrays {n : Nat} (f : List K → Py (Returned K V)) (F : (Fin n → K) → V) (hf : ComputesNew f F) (p : Fin n → K) (h : K) :
    forwardDifferenceA id f (List.ofFn p) h = (.ok (List.ofFn (fun i => (1 / h) • (F (p + h • e i) - F p))), List.ofFn p) ∧
      centralDifferenceA id f (List.ofFn p) h =
        (.ok (List.ofFn (fun i => (1 / h) • (F (p + (1 / 2 * h) • e i) - F (p - (1 / 2 * h) • e i)))), List.ofFn p) := by
  refine ⟨?_, ?_⟩
  · rw [forwardA_new id f F hf p (fun _ => rfl)]
    simp only [id, update_add]
  · rw [centralA_new id f F hf p (fun _ => rfl)]
    simp only [id, update_add, update_sub]

/-- **C94** For a function that returns a view of its argument every difference quotient is zero, whatever the derivative of the function is. -/
theorem C94_views {n : Nat} (store : K → K) (f : List K → Py (Returned K V)) (F : (Fin n → K) → V) (hf : ComputesView f F) (p : Fin n → K)
    (hp : ∀ i, store (p i) = p i) (h : K) :
    forwardDifferenceA store f (List.ofFn p) h = (.ok (List.ofFn (fun _ : Fin n => (0 : V))), List.ofFn p) ∧
      centralDifferenceA store f (List.ofFn p) h = (.ok (List.ofFn (fun _ : Fin n => (0 : V))), List.ofFn p) := by
  obtain ⟨g, hg, -⟩ := hf
  have h1 : List.range (List.ofFn p).length = (List.finRange n).map Fin.val := by simp
  have a1 : ∀ is : List (Fin n), forwardLoopA store f h (.view g) (is.map Fin.val) (List.ofFn p) = (.ok (is.map (fun _ => (0 : V))), List.ofFn p) := by
    intro is
    induction is with
    | nil => rfl
    | cons i is ih =>
      simp only [List.map_cons, forwardLoopA, getElem?_ofFn, set_ofFn]
      rw [hg]
      simp only [Function.update_idem, hp, Function.update_eq_self, ih, Returned.value, sub_self, smul_zero]
  have a2 : ∀ is : List (Fin n), centralLoopA store f h (is.map Fin.val) (List.ofFn p) = (.ok (is.map (fun _ => (0 : V))), List.ofFn p) := by
    intro is
    induction is with
    | nil => rfl
    | cons i is ih =>
      simp only [List.map_cons, centralLoopA, getElem?_ofFn, set_ofFn]
      rw [hg]
      simp only [Function.update_idem]
      rw [hg]
      simp only [hp, Function.update_eq_self, ih, Returned.value, sub_self, smul_zero]
  refine ⟨?_, ?_⟩
  · unfold forwardDifferenceA
    rw [hg]
    simp only
    rw [h1, a1, ← List.ofFn_eq_map]
  · unfold centralDifferenceA
    rw [h1, a2, ← List.ofFn_eq_map]

section Integers
variable [LinearOrder K] [IsStrictOrderedRing K] [FloorRing K]

omit [AddCommGroup V] [Module K V] in
theorem truncate_int (z : ℤ) : truncate (z : K) = z := by
  unfold truncate
  split <;> simp

omit [AddCommGroup V] [Module K V] in
theorem truncate_up {z : ℤ} {d : K} (h0 : 0 < d) (h1 : d < 1) : truncate ((z : K) + d) = if 0 ≤ z then (z : K) else z + 1 := by
  unfold truncate
  by_cases hz : 0 ≤ z
  · have h2 : (0 : K) ≤ z := by exact_mod_cast hz
    rw [if_pos (by linarith), if_pos hz]
    have : ⌊(z : K) + d⌋ = z := by rw [Int.floor_eq_iff]; constructor <;> linarith
    rw [this]
  · have h2 : (z : K) + 1 ≤ 0 := by exact_mod_cast (by omega : z + 1 ≤ 0)
    rw [if_neg (by linarith), if_neg hz]
    have : ⌈(z : K) + d⌉ = z + 1 := by rw [Int.ceil_eq_iff]; push_cast; constructor <;> linarith
    rw [this]; push_cast; rfl

omit [AddCommGroup V] [Module K V] in
theorem truncate_down {z : ℤ} {d : K} (h0 : 0 < d) (h1 : d < 1) : truncate ((z : K) - d) = if 0 < z then (z : K) - 1 else z := by
  unfold truncate
  by_cases hz : 0 < z
  · have h2 : (1 : K) ≤ z := by exact_mod_cast hz
    rw [if_pos (by linarith), if_pos hz]
    have : ⌊(z : K) - d⌋ = z - 1 := by rw [Int.floor_eq_iff]; push_cast; constructor <;> linarith
    rw [this]; push_cast; rfl
  · have h2 : (z : K) ≤ 0 := by exact_mod_cast (by omega : z ≤ 0)
    rw [if_neg (by linarith), if_neg hz]
    have : ⌈(z : K) - d⌉ = z := by rw [Int.ceil_eq_iff]; constructor <;> linarith
    rw [this]

/-- **C94** At a point held in an array of integers the step is lost or becomes one: for `0 < h < 1` the forward difference in direction `i` is zero if the
coordinate is not negative, and the difference of the values at distance one divided by `h` otherwise. The array is the same afterwards. -/
theorem C94_integer_forward {n : Nat} (f : List K → Py (Returned K V)) (F : (Fin n → K) → V) (hf : ComputesNew f F) (z : Fin n → ℤ) (h : K)
    (h0 : 0 < h) (h1 : h < 1) :
    forwardDifferenceA truncate f (List.ofFn (fun i => (z i : K))) h =
      (.ok (List.ofFn (fun i => if 0 ≤ z i then 0 else (1 / h) • (F ((fun i => (z i : K)) + e i) - F (fun i => (z i : K))))),
        List.ofFn (fun i => (z i : K))) := by
  rw [forwardA_new truncate f F hf _ (fun i => truncate_int (z i))]
  congr 4
  funext i
  rw [truncate_up h0 h1]
  split
  · rw [show Function.update (fun i => (z i : K)) i (z i : K) = fun i => (z i : K) from Function.update_eq_self _ _, sub_self, smul_zero]
  · have := update_add (fun i => (z i : K)) i 1
    rw [one_smul] at this
    rw [this]

/-- **C94** The same for central differences and `0 < h < 2`: zero for a coordinate that is zero, a one sided difference of the values at distance one divided by
`h` otherwise. -/
theorem C94_integer_central {n : Nat} (f : List K → Py (Returned K V)) (F : (Fin n → K) → V) (hf : ComputesNew f F) (z : Fin n → ℤ) (h : K)
    (h0 : 0 < h) (h1 : h < 2) :
    centralDifferenceA truncate f (List.ofFn (fun i => (z i : K))) h =
      (.ok (List.ofFn (fun i =>
        if z i = 0 then 0
        else if 0 < z i then (1 / h) • (F (fun i => (z i : K)) - F ((fun i => (z i : K)) - e i))
        else (1 / h) • (F ((fun i => (z i : K)) + e i) - F (fun i => (z i : K))))),
        List.ofFn (fun i => (z i : K))) := by
  rw [centralA_new truncate f F hf _ (fun i => truncate_int (z i))]
  congr 4
  funext i
  rw [truncate_up (by linarith) (by linarith), truncate_down (by linarith) (by linarith)]
  have u0 : Function.update (fun i => (z i : K)) i (z i : K) = fun i => (z i : K) := Function.update_eq_self _ _
  have u1 := update_add (fun i => (z i : K)) i 1
  have u2 := update_sub (fun i => (z i : K)) i 1
  rw [one_smul] at u1 u2
  rcases lt_trichotomy (z i) 0 with hz | hz | hz
  · rw [if_neg (by omega), if_neg (by omega), if_neg (by omega), if_neg (by omega), u1, u0]
  · rw [if_pos (by omega), if_neg (by omega), if_pos hz, u0, sub_self, smul_zero]
  · rw [if_pos (by omega), if_pos hz, if_neg (by omega), if_pos hz, u0, u2]

/-- **C94** In particular, for a linear function the computed derivative in direction `i` is wrong by the factor `1 / h` or zero: with the step `10^-8` the
program returns `0` or `10^8` times the derivative. -/
theorem C94_integer_linear {n : Nat} (f : List K → Py (Returned K V)) (L : (Fin n → K) →ₗ[K] V) (hf : ComputesNew f L) (z : Fin n → ℤ) (h : K)
    (h0 : 0 < h) (h1 : h < 1) :
    forwardDifferenceA truncate f (List.ofFn (fun i => (z i : K))) h =
        (.ok (List.ofFn (fun i => if 0 ≤ z i then 0 else (1 / h) • L (e i))), List.ofFn (fun i => (z i : K))) ∧
      centralDifferenceA truncate f (List.ofFn (fun i => (z i : K))) h =
        (.ok (List.ofFn (fun i => if z i = 0 then 0 else (1 / h) • L (e i))), List.ofFn (fun i => (z i : K))) := by
  refine ⟨?_, ?_⟩
  · rw [C94_integer_forward f L hf z h h0 h1]
    simp only [map_add, add_sub_cancel_left]
  · rw [C94_integer_central f L hf z h h0 (by linarith)]
    simp only [map_add, map_sub, add_sub_cancel_left, sub_sub_cancel, ite_self]

end Integers

/-- The identity on arrays that returns its argument: the Jacobian matrix is computed as zero. -/
example (p : Fin 2 → ℚ) :
    centralDifferenceA id (fun _ => .ok (.view (fun x => (fun i : Fin 2 => x.getD i 0)))) (List.ofFn p) (1 / 100) =
      ((.ok [0, 0] : Py (List (Fin 2 → ℚ))), List.ofFn p) := by
  have hf : ComputesView (V := Fin 2 → ℚ) (fun _ => .ok (.view (fun x : List ℚ => (fun i : Fin 2 => x.getD i 0)))) (fun p : Fin 2 → ℚ => p) :=
    ⟨_, fun _ => rfl, fun p => by funext i; fin_cases i <;> rfl⟩
  rw [(C94_views id _ _ hf p (fun _ => rfl) (1 / 100)).2]
  rfl

/-- The sum of the coordinates at `(1, 0, -1)`. -/
example : forwardDifferenceA truncate (fun x : List ℚ => .ok (.fresh x.sum)) [1, 0, -1] (1 / 100) = (.ok [0, 0, 100], [1, 0, -1]) ∧
    centralDifferenceA truncate (fun x : List ℚ => .ok (.fresh x.sum)) [1, 0, -1] (1 / 100) = (.ok [100, 0, 100], [1, 0, -1]) := by
  decide +kernel

/-- `ComputesNew` is met by the sum of the coordinates. -/
example (n : Nat) : ComputesNew (fun x : List ℚ => .ok (.fresh x.sum)) (fun p : Fin n → ℚ => ∑ i, p i) := by
  intro p
  simp only [List.sum_ofFn]

end Verif.FinDiff
