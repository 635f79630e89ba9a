import Verif.Model.MultiIndexOperators
import Verif.Props.MultiIndexAlgebra
/-!
# C95: operators between sequences and multi-indices
-/

namespace Verif.Props
open Verif Verif.MI

theorem broadcastWith_ofFn {α β γ : Type} {n : Nat} (f : α → β → γ) (x : Fin n → α) (y : Fin n → β) :
    broadcastWith f (List.ofFn x) (List.ofFn y) = .ok (List.ofFn (fun i => f (x i) (y i))) := by
  unfold broadcastWith
  rw [if_pos (by simp)]
  congr 1
  apply List.ext_getElem <;> simp

theorem broadcastWith_error {α β γ : Type} (f : α → β → γ) (x : List α) (y : List β) (h : x.length ≠ y.length) (hx : x.length ≠ 1) (hy : y.length ≠ 1) :
    broadcastWith f x y = .error .value := by
  unfold broadcastWith
  rw [if_neg h]
  match x, y with
  | [_], _ => exact absurd rfl hx
  | [], [_] => exact absurd rfl hy
  | _ :: _ :: _, [_] => exact absurd rfl hy
  | [], [] => rfl
  | [], _ :: _ :: _ => rfl
  | _ :: _ :: _, [] => rfl
  | _ :: _ :: _, _ :: _ :: _ => rfl

theorem mk?_ofFn {n : Nat} (z : Fin n → ℤ) :
    (∀ c : Fin n → ℕ, (∀ i, z i = c i) → mk? (List.ofFn z) = .ok (List.ofFn c)) ∧ ((∃ i, z i < 0) → mk? (List.ofFn z) = .error .value) := by
  refine ⟨?_, ?_⟩
  · intro c hc
    unfold mk?
    rw [if_neg]
    · congr 1
      apply List.ext_getElem
      · simp
      · intro k h1 h2
        simp [hc]
    · simp only [List.any_eq_true, List.mem_ofFn, decide_eq_true_eq, not_exists, not_and, not_lt]
      rintro _ ⟨i, rfl⟩
      rw [hc]
      exact Int.natCast_nonneg _
  · rintro ⟨i, hi⟩
    unfold mk?
    rw [if_pos]
    simp only [List.any_eq_true, List.mem_ofFn, decide_eq_true_eq]
    exact ⟨z i, ⟨i, rfl⟩, hi⟩

/-- **C95.** For a list or tuple `x`, `x ** a` is the product `x_1^a_1 ... x_n^a_n`; other lengths raise AssertionError. -/
theorem C95_power_sequence {K : Type} [CommMonoid K] :
    (∀ (n : Nat) (x : Fin n → K) (a : Fin n → Nat), leftPow (.seq (List.ofFn x)) (List.ofFn a) = .ok (.number (∏ i, x i ^ a i))) ∧
      ∀ (x : List K) (a : List Nat), x.length ≠ a.length → leftPow (.seq x) a = .error .assertion := by
  refine ⟨?_, ?_⟩
  · intro n x a
    show (power (List.ofFn x) (List.ofFn a) >>= fun v => pure (OpResult.number v)) = _
    rw [C09_power_spec.1]
    rfl
  · intro x a h
    show (power x a >>= fun v => pure (OpResult.number v)) = _
    rw [C09_power_spec.2 x a h]
    rfl

/-- **C95.** For a numpy array `x`, `x ** a` is the array of the powers `x_i^a_i`, not their product, and other lengths are accepted if one of them is one. -/
theorem C95_power_array {K : Type} [CommMonoid K] :
    (∀ (n : Nat) (x : Fin n → K) (a : Fin n → Nat), leftPow (.array (List.ofFn x)) (List.ofFn a) = .ok (.array (List.ofFn (fun i => x i ^ a i)))) ∧
      (∀ (x : List K) (k : Nat), x.length ≠ 1 → leftPow (.array x) [k] = .ok (.array (x.map (· ^ k)))) ∧
      ∀ (x : List K) (a : List Nat), x.length ≠ a.length → x.length ≠ 1 → a.length ≠ 1 → leftPow (.array x) a = .error .value := by
  refine ⟨?_, ?_, ?_⟩
  · intro n x a
    show (broadcastWith _ (List.ofFn x) (List.ofFn a) >>= fun v => pure (OpResult.array v)) = _
    rw [broadcastWith_ofFn]
    rfl
  · intro x k h
    show (broadcastWith _ x [k] >>= fun v => pure (OpResult.array v)) = _
    unfold broadcastWith
    rw [if_neg (by simpa using h)]
    match x, h with
    | [], _ => rfl
    | _ :: _ :: _, _ => rfl
    | [_], h => exact absurd rfl h
  · intro x a h h1 h2
    show (broadcastWith _ x a >>= fun v => pure (OpResult.array v)) = _
    rw [broadcastWith_error _ x a h h1 h2]
    rfl

/-- **C95.** For a list or tuple, `x + a` and `x - a` are the multi-indices of the sums and differences, and a negative entry of the result raises
ValueError. -/
theorem C95_add_sub_sequence (n : Nat) (x : Fin n → ℤ) (a : Fin n → ℕ) :
    (∀ c : Fin n → ℕ, (∀ i, (c i : ℤ) = x i + a i) → leftAdd (.seq (List.ofFn x)) (List.ofFn a) = .ok (.index (List.ofFn c))) ∧
      ((∃ i, x i + a i < 0) → leftAdd (.seq (List.ofFn x)) (List.ofFn a) = .error .value) ∧
      (∀ c : Fin n → ℕ, (∀ i, (c i : ℤ) = x i - a i) → leftSub (.seq (List.ofFn x)) (List.ofFn a) = .ok (.index (List.ofFn c))) ∧
      ((∃ i, x i - a i < 0) → leftSub (.seq (List.ofFn x)) (List.ofFn a) = .error .value) := by
  have e1 : List.zipWith (fun (x : Nat) (y : Int) => (x : Int) + y) (List.ofFn a) (List.ofFn x) = List.ofFn (fun i => x i + a i) := by
    apply List.ext_getElem
    · simp
    · intro k h1 h2
      simp [add_comm]
  have e2 : List.zipWith (fun (x : Nat) (y : Int) => y - (x : Int)) (List.ofFn a) (List.ofFn x) = List.ofFn (fun i => x i - a i) := by
    apply List.ext_getElem <;> simp
  have f1 : leftAdd (.seq (List.ofFn x)) (List.ofFn a) = mk? (List.ofFn (fun i => x i + a i)) >>= fun v => pure (OpResult.index v) := by
    rw [← e1]; rfl
  have f2 : leftSub (.seq (List.ofFn x)) (List.ofFn a) = mk? (List.ofFn (fun i => x i - a i)) >>= fun v => pure (OpResult.index v) := by
    rw [← e2]; rfl
  rw [f1, f2]
  refine ⟨?_, ?_, ?_, ?_⟩
  · intro c hc
    rw [(mk?_ofFn _).1 c (fun i => (hc i).symm)]; rfl
  · intro h
    rw [(mk?_ofFn _).2 h]; rfl
  · intro c hc
    rw [(mk?_ofFn _).1 c (fun i => (hc i).symm)]; rfl
  · intro h
    rw [(mk?_ofFn _).2 h]; rfl

/-- **C95.** For a numpy array, `x + a` and `x - a` are arrays, not multi-indices, and negative entries are not rejected. -/
theorem C95_add_sub_array (n : Nat) (x : Fin n → ℤ) (a : Fin n → ℕ) :
    leftAdd (.array (List.ofFn x)) (List.ofFn a) = .ok (.array (List.ofFn (fun i => x i + a i))) ∧
      leftSub (.array (List.ofFn x)) (List.ofFn a) = .ok (.array (List.ofFn (fun i => x i - a i))) := by
  refine ⟨?_, ?_⟩
  · show (broadcastWith _ (List.ofFn x) (List.ofFn a) >>= fun v => pure (OpResult.array v)) = _
    rw [broadcastWith_ofFn]
    rfl
  · show (broadcastWith _ (List.ofFn x) (List.ofFn a) >>= fun v => pure (OpResult.array v)) = _
    rw [broadcastWith_ofFn]
    rfl

/-- **C95.** For sequences of different lengths the sum is cut off at the shorter one, while arrays of different lengths (none of them one) are
rejected. -/
theorem C95_lengths (x : List ℤ) (a : List ℕ) :
    leftAdd (.seq x) a = leftAdd (.seq (x.take a.length)) (a.take x.length) ∧ leftSub (.seq x) a = leftSub (.seq (x.take a.length)) (a.take x.length) ∧
      (x.length ≠ a.length → x.length ≠ 1 → a.length ≠ 1 → leftAdd (.array x) a = .error .value ∧ leftSub (.array x) a = .error .value) := by
  have hz : ∀ f : ℕ → ℤ → ℤ, List.zipWith f (a.take x.length) (x.take a.length) = List.zipWith f a x := by
    intro f
    apply List.ext_getElem
    · simp; omega
    · intro k h1 h2
      simp
  refine ⟨?_, ?_, ?_⟩
  · show (mk? _ >>= _) = (mk? _ >>= _)
    rw [hz]
  · show (mk? _ >>= _) = (mk? _ >>= _)
    rw [hz]
  · intro h h1 h2
    refine ⟨?_, ?_⟩
    · show (broadcastWith _ x a >>= fun v => pure (OpResult.array v)) = _
      rw [broadcastWith_error _ x a h h1 h2]
      rfl
    · show (broadcastWith _ x a >>= fun v => pure (OpResult.array v)) = _
      rw [broadcastWith_error _ x a h h1 h2]
      rfl

example : leftPow (.seq [2, 3]) [1, 2] = .ok (.number 18) ∧ leftPow (.array [2, 3]) [1, 2] = .ok (.array [2, 9]) := by decide
example : leftSub (.seq [0, 3]) [1, 2] = .error .value ∧ leftSub (.array [0, 3]) [1, 2] = .ok (.array [-1, 1]) := by decide
example : leftAdd (.seq [5, 7, 9]) [1] = .ok (.index [6]) ∧ leftAdd (.array [5, 7, 9]) [1] = .ok (.array [6, 8, 10]) := by decide
example : ∀ i, (((![1, 4] : Fin 2 → ℕ) i : ℕ) : ℤ) = (![2, 6] : Fin 2 → ℤ) i - (![1, 2] : Fin 2 → ℕ) i := by decide

end Verif.Props
