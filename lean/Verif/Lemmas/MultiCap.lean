import Verif.Lemmas.MultiIndex
/-!
# Helper lemmas about `MultiIndexIteratorMultiCap`
-/

namespace Verif.MI
open Verif Verif.Spec

/-- Number of capped multi-indices. -/
def capCount (r : List Nat) : Nat := (r.map (· + 1)).prod

def capHelp (r cs : List Nat) : List IntMod := List.zipWith (fun (c ri : Nat) => IntMod.mk (c : Int) ((ri : Int) + 1)) cs r

theorem multiCapDigits_length (r : List Nat) : ∀ i, (multiCapDigits r i).length = r.length := by
  induction r with
  | nil => intro i; rfl
  | cons x r ih => intro i; simp [multiCapDigits, ih]

theorem capCount_pos (r : List Nat) : 0 < capCount r := by
  induction r with
  | nil => simp [capCount]
  | cons x r ih => simp only [capCount, List.map_cons, List.prod_cons] at *; positivity

theorem capCount_cons (x : Nat) (r : List Nat) : capCount (x :: r) = (x + 1) * capCount r := rfl

theorem digits_zero (r : List Nat) : multiCapDigits r 0 = zero r.length := by
  induction r with
  | nil => rfl
  | cons x r ih => simp [multiCapDigits, ih, zero, List.replicate_succ]

theorem capHelp_zero (r : List Nat) :
    r.map (fun (ri : Nat) => IntMod.red 0 ((ri : Int) + 1)) = capHelp r (zero r.length) := by
  induction r with
  | nil => rfl
  | cons x r ih =>
    simp only [List.map_cons, ih, capHelp, zero, List.length_cons, List.replicate_succ, List.zipWith_cons_cons]
    simp [IntMod.red]

theorem increaseCap_digits (r : List Nat) : ∀ i, i < capCount r →
    increaseCap (multiCapDigits r i) (capHelp r (multiCapDigits r i)) =
      if i + 1 < capCount r then (multiCapDigits r (i + 1), capHelp r (multiCapDigits r (i + 1)), false)
      else (zero r.length, capHelp r (zero r.length), true) := by
  induction r with
  | nil =>
    intro i hi
    have : i = 0 := by simpa [capCount] using hi
    subst this; simp [multiCapDigits, capHelp, increaseCap, capCount, zero]
  | cons x r ih =>
    intro i hi
    rw [capCount_cons] at *
    have hq : i / (x + 1) < capCount r := by
      rw [Nat.div_lt_iff_lt_mul (by omega)]; rw [Nat.mul_comm]; exact hi
    have hdm := Nat.div_add_mod i (x + 1)
    have hml := Nat.mod_lt i (show 0 < x + 1 by omega)
    simp only [multiCapDigits, capHelp, List.zipWith_cons_cons, increaseCap, IntMod.red]
    by_cases hd : i % (x + 1) = x
    · have hf : Int.fmod (((i % (x + 1) : Nat) : Int) + 1) ((x : Int) + 1) = 0 := by
        rw [hd, Int.fmod_eq_emod_of_nonneg _ (by omega)]; simp
      simp only [hf, ↓reduceIte]
      have := ih _ hq
      simp only [capHelp] at this
      rw [this]
      have hi1 : i + 1 = (x + 1) * (i / (x + 1) + 1) := by rw [Nat.mul_add]; omega
      have hmod : (i + 1) % (x + 1) = 0 := by rw [hi1]; exact Nat.mul_mod_right _ _
      have hdiv : (i + 1) / (x + 1) = i / (x + 1) + 1 := by
        conv_lhs => rw [hi1]
        exact Nat.mul_div_cancel_left _ (by omega)
      have hiff : i + 1 < (x + 1) * capCount r ↔ i / (x + 1) + 1 < capCount r := by
        rw [hi1]; exact Nat.mul_lt_mul_left (by omega)
      by_cases hlt : i / (x + 1) + 1 < capCount r
      · rw [if_pos hlt, if_pos (hiff.2 hlt)]
        simp [hmod, hdiv]
      · rw [if_neg hlt, if_neg (fun h => hlt (hiff.1 h))]
        simp [zero, List.replicate_succ]
    · have hlt : i % (x + 1) + 1 < x + 1 := by omega
      have hf : Int.fmod (((i % (x + 1) : Nat) : Int) + 1) ((x : Int) + 1) = ((i % (x + 1) : Nat) : Int) + 1 := by
        have := fmod_small hlt; push_cast at this ⊢; exact this
      simp only [hf]
      rw [if_neg (by omega)]
      have hmod : (i + 1) % (x + 1) = i % (x + 1) + 1 := by
        conv_lhs => rw [← hdm, Nat.add_assoc, Nat.mul_add_mod]
        exact Nat.mod_eq_of_lt hlt
      have hdiv : (i + 1) / (x + 1) = i / (x + 1) := by
        conv_lhs => rw [← hdm, Nat.add_assoc, Nat.mul_add_div (by omega)]
        rw [Nat.div_eq_of_lt hlt]; rfl
      have hin : i + 1 < (x + 1) * capCount r := by
        have : (x + 1) * (i / (x + 1) + 1) ≤ (x + 1) * capCount r := Nat.mul_le_mul_left _ hq
        rw [Nat.mul_add] at this; omega
      rw [if_pos hin, hmod, hdiv]
      simp

def capState (r : List Nat) (i : Nat) : CapIter :=
  { n := r.length, components := some (multiCapDigits r i), help := capHelp r (multiCapDigits r i) }

theorem cap_next_init (r : List Nat) : (CapIter.init r).next = (.ok (multiCapDigits r 0), capState r 0) := by
  simp only [CapIter.next, CapIter.init, capState, digits_zero, capHelp_zero]

theorem cap_next (r : List Nat) (i : Nat) (h : i < capCount r) :
    (capState r i).next = if i + 1 < capCount r then (.ok (multiCapDigits r (i + 1)), capState r (i + 1))
      else (.error .stopIteration, capState r 0) := by
  simp only [CapIter.next, capState, increaseCap_digits r i h]
  split
  · rfl
  · simp [digits_zero]

theorem drainCap_capState (r : List Nat) : ∀ (k i fuel : Nat), i + 1 + k = capCount r → k < fuel →
    drainCap fuel (capState r i) = some ((List.range' (i + 1) k).map (multiCapDigits r)) := by
  intro k
  induction k with
  | zero =>
    intro i fuel h hf
    obtain ⟨fuel, rfl⟩ : ∃ j, fuel = j + 1 := ⟨fuel - 1, by omega⟩
    simp only [drainCap, cap_next r i (by omega)]
    rw [if_neg (by omega)]; rfl
  | succ k ih =>
    intro i fuel h hf
    obtain ⟨fuel, rfl⟩ : ∃ j, fuel = j + 1 := ⟨fuel - 1, by omega⟩
    simp only [drainCap, cap_next r i (by omega)]
    rw [if_pos (by omega)]
    simp only [ih (i + 1) fuel (by omega) (by omega)]
    simp [List.range'_succ]

theorem drainCap_init (r : List Nat) (fuel : Nat) (h : capCount r < fuel) :
    drainCap fuel (CapIter.init r) = some ((List.range (capCount r)).map (multiCapDigits r)) := by
  have hp := capCount_pos r
  obtain ⟨fuel, rfl⟩ : ∃ j, fuel = j + 1 := ⟨fuel - 1, by omega⟩
  obtain ⟨k, hk⟩ : ∃ k, capCount r = k + 1 := ⟨capCount r - 1, by omega⟩
  simp only [drainCap, cap_next_init]
  rw [drainCap_capState r k 0 fuel (by omega) (by omega)]
  rw [hk, List.range_eq_range', List.range'_succ]
  simp

theorem generateAllMultiCap_eq (r : List Nat) :
    generateAllMultiCap r = (List.range (capCount r)).map (multiCapDigits r) := by
  rw [generateAllMultiCap, drainCap_init r _ (by simp [capCount])]; rfl

theorem digits_capped (r : List Nat) : ∀ i, IsCapped r (multiCapDigits r i) := by
  induction r with
  | nil => intro i; exact .nil
  | cons x r ih => intro i; exact .cons (by have := Nat.mod_lt i (show 0 < x + 1 by omega); omega) (ih _)

theorem digits_surj (r a : List Nat) (h : IsCapped r a) : ∃ i, i < capCount r ∧ multiCapDigits r i = a := by
  induction h with
  | nil => exact ⟨0, by simp [capCount], rfl⟩
  | @cons c x as rs hc _ ih =>
    obtain ⟨q, hq, rfl⟩ := ih
    refine ⟨c + (x + 1) * q, ?_, ?_⟩
    · rw [capCount_cons]
      have : (x + 1) * (q + 1) ≤ (x + 1) * capCount rs := Nat.mul_le_mul_left _ hq
      rw [Nat.mul_add] at this; omega
    · simp only [multiCapDigits, Nat.add_mul_mod_self_left, Nat.add_mul_div_left _ _ (show 0 < x + 1 by omega)]
      rw [Nat.mod_eq_of_lt (by omega), Nat.div_eq_of_lt (by omega)]; simp

theorem digits_inj (r : List Nat) : ∀ i j, i < capCount r → j < capCount r →
    multiCapDigits r i = multiCapDigits r j → i = j := by
  induction r with
  | nil => intro i j hi hj _; simp [capCount] at hi hj; omega
  | cons x r ih =>
    intro i j hi hj h
    rw [capCount_cons, Nat.mul_comm] at hi hj
    simp only [multiCapDigits, List.cons.injEq] at h
    have := ih _ _ ((Nat.div_lt_iff_lt_mul (by omega)).2 hi) ((Nat.div_lt_iff_lt_mul (by omega)).2 hj) h.2
    have h1 := Nat.div_add_mod i (x + 1)
    have h2 := Nat.div_add_mod j (x + 1)
    rw [this, h.1] at h1; omega

theorem mem_generateAllMultiCap (r a : List Nat) : a ∈ generateAllMultiCap r ↔ IsCapped r a := by
  rw [generateAllMultiCap_eq]
  simp only [List.mem_map, List.mem_range]
  constructor
  · rintro ⟨i, _, rfl⟩; exact digits_capped r i
  · intro h; obtain ⟨i, hi, e⟩ := digits_surj r a h; exact ⟨i, hi, e⟩

theorem nodup_generateAllMultiCap (r : List Nat) : (generateAllMultiCap r).Nodup := by
  rw [generateAllMultiCap_eq]
  refine List.Nodup.map_on ?_ List.nodup_range
  intro i hi j hj h
  exact digits_inj r i j (List.mem_range.1 hi) (List.mem_range.1 hj) h

theorem isCapped_replicate (n r : Nat) (a : List Nat) :
    IsCapped (List.replicate n r) a ↔ a.length = n ∧ ∀ x ∈ a, x ≤ r := by
  constructor
  · intro h
    refine ⟨by simpa using h.length_eq, ?_⟩
    intro x hx
    induction n generalizing a with
    | zero => cases h; simp at hx
    | succ n ih =>
      rw [List.replicate_succ] at h
      cases h with
      | cons h1 h2 =>
        rcases List.mem_cons.1 hx with rfl | hx
        · exact h1
        · exact ih _ h2 hx
  · rintro ⟨rfl, h⟩
    induction a with
    | nil => exact .nil
    | cons x a ih =>
      rw [List.length_cons, List.replicate_succ]
      exact .cons (h x (by simp)) (ih (fun y hy => h y (by simp [hy])))

theorem isIncreasingLoop_iff (a : List Nat) : isIncreasingLoop a = true ↔ a.Pairwise (· < ·) := by
  rw [← List.isChain_iff_pairwise]
  fun_induction isIncreasingLoop a with
  | case1 x y t h => simp [List.isChain_cons_cons]; omega
  | case2 x y t h ih => rw [ih, List.isChain_cons_cons]; simp; omega
  | case3 l h =>
    match l, h with
    | [], _ => simp
    | [x], _ => simp
    | x :: y :: t, h => exact absurd rfl (h x y t)

theorem isNonDecreasingLoop_iff (a : List Nat) : isNonDecreasingLoop a = true ↔ a.Pairwise (· ≤ ·) := by
  rw [← List.isChain_iff_pairwise]
  fun_induction isNonDecreasingLoop a with
  | case1 x y t h => simp [List.isChain_cons_cons]; omega
  | case2 x y t h ih => rw [ih, List.isChain_cons_cons]; simp; omega
  | case3 l h =>
    match l, h with
    | [], _ => simp
    | [x], _ => simp
    | x :: y :: t, h => exact absurd rfl (h x y t)

theorem isIncreasing_iff (a : List Nat) : isIncreasing a = true ↔ a.Pairwise (· < ·) := by
  unfold isIncreasing
  split
  · obtain ⟨x, rfl⟩ := List.length_eq_one_iff.1 ‹_›; simp
  · exact isIncreasingLoop_iff a

theorem isNonDecreasing_iff (a : List Nat) : isNonDecreasing a = true ↔ a.Pairwise (· ≤ ·) := by
  unfold isNonDecreasing
  split
  · obtain ⟨x, rfl⟩ := List.length_eq_one_iff.1 ‹_›; simp
  · exact isNonDecreasingLoop_iff a

end Verif.MI
