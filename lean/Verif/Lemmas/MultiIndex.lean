import Mathlib.Data.List.Chain
import Mathlib.Data.List.Pairwise
import Mathlib.Tactic.Ring
import Mathlib.Tactic.Linarith
import Mathlib.Data.List.Perm.Basic
import Mathlib.Algebra.Order.BigOperators.Group.List
import Mathlib.Data.List.Nodup
import Verif.Model.MultiIndex
import Verif.Spec.MultiIndex
/-!
# Helper lemmas about the multi-index iterators
-/

namespace Verif.MI
open Verif Verif.Spec

/-- The list produced by the iterator, described recursively. -/
def mis : Nat → Nat → List (List Nat)
  | 0, _ => [[]]
  | n + 1, r => (mis n r).flatMap fun t => (List.range (r - t.sum + 1)).map (· :: t)

theorem mem_mis {n r : Nat} {a : List Nat} : a ∈ mis n r ↔ a.length = n ∧ a.sum ≤ r := by
  induction n generalizing a with
  | zero => simp only [mis, List.mem_singleton]; constructor
            · rintro rfl; simp
            · rintro ⟨h, _⟩; exact List.length_eq_zero_iff.1 h
  | succ n ih =>
    simp only [mis, List.mem_flatMap, List.mem_map, List.mem_range]
    constructor
    · rintro ⟨t, ht, c, hc, rfl⟩
      rw [ih] at ht
      simp only [List.length_cons, List.sum_cons]; omega
    · rintro ⟨h1, h2⟩
      cases a with
      | nil => simp at h1
      | cons c t =>
        simp only [List.length_cons, List.sum_cons] at h1 h2
        exact ⟨t, ih.2 ⟨by omega, by omega⟩, c, by omega, rfl⟩

/-- Successor in the enumeration; `s` is the sum of the list. -/
def succ? (r : Nat) : Nat → List Nat → Option (List Nat)
  | _, [] => none
  | s, c :: cs => if s = r then (succ? r (s - c) cs).map (0 :: ·) else some ((c + 1) :: cs)

theorem succ?_cons (r s c : Nat) (cs : List Nat) : succ? r s (c :: cs) =
    if s = r then (succ? r (s - c) cs).map (0 :: ·) else some ((c + 1) :: cs) := rfl

theorem succ?_full {r c : Nat} {cs : List Nat} (h : c + cs.sum = r) :
    succ? r (c :: cs).sum (c :: cs) = (succ? r cs.sum cs).map (0 :: ·) := by
  rw [succ?_cons, if_pos (by simpa using h)]
  congr 2; simp

theorem succ?_lt {r c : Nat} {cs : List Nat} (h : c + cs.sum ≠ r) :
    succ? r (c :: cs).sum (c :: cs) = some ((c + 1) :: cs) := by
  rw [succ?_cons, if_neg (by simpa using h)]

theorem succ?_sum {r : Nat} : ∀ {cs cs' : List Nat}, succ? r cs.sum cs = some cs' → cs.sum ≤ r →
    cs'.sum ≤ r ∧ cs'.length = cs.length := by
  intro cs
  induction cs with
  | nil => intro _ h; simp [succ?] at h
  | cons c cs ih =>
    intro cs' h hle
    simp only [succ?] at h
    split at h
    · have e : (c :: cs).sum - c = cs.sum := by simp
      rw [e] at h
      obtain ⟨d, hd, rfl⟩ := Option.map_eq_some_iff.1 h
      have := ih hd (by simp at hle; omega)
      simp; omega
    · simp only [Option.some.injEq] at h; subst h
      simp at *; omega

/-- Counters stored in the iterator for components `cs`. -/
def helpOf (r : Nat) (cs : List Nat) : List IntMod := cs.map fun (c : Nat) => IntMod.mk (c : Int) ((r : Int) + 1)

theorem fmod_small {a b : Nat} (h : a < b) : Int.fmod (a : Int) (b : Int) = a := by
  rw [Int.fmod_eq_emod_of_nonneg _ (by omega)]
  exact Int.emod_eq_of_lt (by omega) (by omega)

theorem increaseComponent_eq (r : Nat) : ∀ (cs : List Nat), cs.sum ≤ r →
    increaseComponent r (cs.sum : Int) cs (helpOf r cs) =
      match succ? r cs.sum cs with
      | some cs' => ((cs'.sum : Int), cs', helpOf r cs', false)
      | none => (0, List.replicate cs.length 0, helpOf r (List.replicate cs.length 0), true) := by
  intro cs
  induction cs with
  | nil => intro _; simp [increaseComponent, succ?, helpOf]
  | cons c cs ih =>
    intro h
    have hred : IntMod.red 0 ((r : Int) + 1) = IntMod.mk ((0 : Nat) : Int) ((r : Int) + 1) := by
      simp [IntMod.red]
    have hs : (c :: cs).sum = c + cs.sum := by simp
    simp only [helpOf, List.map_cons]
    rw [increaseComponent]
    by_cases hr : (c :: cs).sum = r
    · rw [if_pos (by exact_mod_cast hr)]
      have e : ((c :: cs).sum : Int) - (c : Int) = (cs.sum : Int) := by rw [hs]; push_cast; ring
      have e' : (c :: cs).sum - c = cs.sum := by rw [hs]; omega
      rw [e]
      have := ih (by omega)
      simp only [helpOf] at this
      rw [this]
      simp only [succ?, if_pos hr, e']
      cases hsu : succ? r cs.sum cs with
      | none => simp [hred, List.replicate_succ, helpOf]
      | some d => simp [hred, helpOf]
    · rw [if_neg (by exact_mod_cast hr)]
      have hlt : c + 1 < r + 1 := by omega
      have hf : Int.fmod ((c : Int) + 1) ((r : Int) + 1) = (c : Int) + 1 := by
        have := fmod_small hlt; push_cast at this; exact this
      simp only [IntMod.red, hf]
      rw [if_neg (by omega)]
      simp only [succ?, if_neg hr]
      simp only [helpOf, List.map_cons, hs, List.sum_cons]
      push_cast
      refine Prod.ext ?_ (Prod.ext rfl rfl)
      simp; ring

/-- The iterator after having returned the multi-index `cs`. -/
def atState (n r : Nat) (cs : List Nat) : Iter := { n := n, r := r, norm := cs.sum, components := some cs, help := helpOf r cs }

theorem next_init (n r : Nat) : (Iter.init n r).next = (.ok (zero n), atState n r (zero n)) := by
  simp only [Iter.next, Iter.init, atState, zero, helpOf]
  simp [IntMod.red]

theorem next_atState (n r : Nat) (cs : List Nat) (h : cs.sum ≤ r) :
    (atState n r cs).next = match succ? r cs.sum cs with
      | some cs' => (.ok cs', atState n r cs')
      | none => (.error .stopIteration, atState n r (List.replicate cs.length 0)) := by
  simp only [Iter.next, atState, increaseComponent_eq r cs h]
  cases succ? r cs.sum cs <;> simp [atState]

/-- `l` is a full run of successors. -/
def Run (r : Nat) (l : List (List Nat)) : Prop :=
  l.IsChain (fun a b => succ? r a.sum a = some b) ∧ ∀ x ∈ l.getLast?, succ? r x.sum x = none

theorem head_mis (n r : Nat) : (mis n r).head? = some (zero n) := by
  induction n with
  | zero => rfl
  | succ n ih =>
    cases h : mis n r with
    | nil => simp [h] at ih
    | cons t l =>
      simp [h] at ih
      subst ih
      simp [mis, h, List.range_succ_eq_map, zero, List.replicate_succ]

theorem mis_ne_nil (n r : Nat) : mis n r ≠ [] := by
  intro h; have := head_mis n r; simp [h] at this

theorem succ_block {r : Nat} {t : List Nat} (ht : t.sum ≤ r) :
    ((List.range (r - t.sum + 1)).map (· :: t)).IsChain (fun a b => succ? r a.sum a = some b) := by
  rw [List.isChain_iff_getElem]
  intro i hi
  simp only [List.length_map, List.length_range] at hi
  simp only [List.getElem_map, List.getElem_range]
  rw [succ?_lt (by omega)]

theorem run_mis (n r : Nat) : Run r (mis n r) := by
  induction n with
  | zero => simp [Run, mis, succ?]
  | succ n ih =>
    obtain ⟨ih1, ih2⟩ := ih
    constructor
    · rw [mis, List.flatMap, List.isChain_flatten]
      · constructor
        · intro l hl
          obtain ⟨t, ht, rfl⟩ := List.mem_map.1 hl
          exact succ_block (mem_mis.1 ht).2
        · rw [List.isChain_map]
          refine List.IsChain.imp_of_mem_imp ?_ ih1
          intro a b ha hb hab x hx y hy
          have hasum := (mem_mis.1 ha).2
          simp [List.range_succ] at hx
          simp [List.range_succ_eq_map] at hy
          subst hx hy
          rw [succ?_full (by omega), hab]; rfl
      · simp
    · intro x hx
      obtain ⟨l, t, hlt⟩ : ∃ l t, mis n r = l ++ [t] :=
        ⟨_, _, (List.dropLast_concat_getLast (mis_ne_nil n r)).symm⟩
      have hsum : t.sum ≤ r := (mem_mis (n := n)).1 (by rw [hlt]; simp) |>.2
      have h2 := ih2 t (by rw [hlt]; simp)
      rw [mis, hlt] at hx
      simp [List.range_succ] at hx
      subst hx
      rw [succ?_full (by omega), h2]; rfl

theorem drain_run (n r : Nat) : ∀ (l : List (List Nat)) (c : List Nat) (fuel : Nat),
    Run r (c :: l) → c.sum ≤ r → l.length < fuel → drain fuel (atState n r c) = some l := by
  intro l
  induction l with
  | nil =>
    intro c fuel h hc hf
    obtain ⟨fuel, rfl⟩ : ∃ k, fuel = k + 1 := ⟨fuel - 1, by simp at hf; omega⟩
    have := h.2 c (by simp)
    simp [drain, next_atState n r c hc, this]
  | cons d l ih =>
    intro c fuel h hc hf
    obtain ⟨fuel, rfl⟩ : ∃ k, fuel = k + 1 := ⟨fuel - 1, by simp at hf; omega⟩
    obtain ⟨h1, h2⟩ := h
    rw [List.isChain_cons_cons] at h1
    have hd := (succ?_sum h1.1 hc).1
    simp only [drain, next_atState n r c hc, h1.1]
    rw [ih d fuel ⟨h1.2, by simpa using h2⟩ hd (by simp at hf; omega)]
    rfl

theorem length_mis (n r : Nat) : (mis n r).length ≤ (r + 1) ^ n := by
  induction n with
  | zero => simp [mis]
  | succ n ih =>
    rw [mis, List.length_flatMap]
    calc _ ≤ ((mis n r).map (fun _ => r + 1)).sum := by
            apply List.sum_le_sum; intro t _; simp
      _ = (mis n r).length * (r + 1) := by simp
      _ ≤ _ := by rw [pow_succ]; exact Nat.mul_le_mul_right _ ih

theorem drain_init (n r fuel : Nat) (h : (mis n r).length < fuel) :
    drain fuel (Iter.init n r) = some (mis n r) := by
  obtain ⟨l, hl⟩ : ∃ l, mis n r = zero n :: l := by
    have := head_mis n r
    cases hm : mis n r with
    | nil => simp [hm] at this
    | cons a l => simp [hm] at this; exact ⟨l, by rw [this]⟩
  obtain ⟨fuel, rfl⟩ : ∃ k, fuel = k + 1 := ⟨fuel - 1, by omega⟩
  have hrun := run_mis n r
  rw [hl] at hrun h
  simp only [drain, next_init]
  rw [drain_run n r l _ _ hrun (by simp [zero]) (by simp at h; omega), hl]
  rfl

theorem generateAll_eq_mis (n r : Nat) : generateAll n r = mis n r := by
  rw [generateAll, drain_init n r _ (by have := length_mis n r; simp [fuelFor]; omega)]
  rfl

/-! ### order -/

theorem lms_cons {a b : List Nat} (h : LastMostSignificantLt a b) (x y : Nat) :
    LastMostSignificantLt (x :: a) (y :: b) := by
  obtain ⟨p, q, s, u, v, rfl, rfl, hl, huv⟩ := h
  exact ⟨x :: p, y :: q, s, u, v, rfl, rfl, by simp [hl], huv⟩

theorem lms_head {x y : Nat} (h : x < y) (t : List Nat) : LastMostSignificantLt (x :: t) (y :: t) :=
  ⟨[], [], t, x, y, rfl, rfl, rfl, h⟩

theorem pairwise_mis (n r : Nat) : (mis n r).Pairwise LastMostSignificantLt := by
  induction n with
  | zero => simp [mis]
  | succ n ih =>
    rw [mis, List.pairwise_flatMap]
    constructor
    · intro t _
      rw [List.pairwise_map]
      exact List.Pairwise.imp (fun h => lms_head h t) List.pairwise_lt_range
    · refine ih.imp ?_
      intro a b hab x hx y hy
      simp only [List.mem_map] at hx hy
      obtain ⟨u, _, rfl⟩ := hx
      obtain ⟨v, _, rfl⟩ := hy
      exact lms_cons hab u v

theorem digitsValue_append (b : Nat) (p q : List Nat) :
    digitsValue b (p ++ q) = digitsValue b p + b ^ p.length * digitsValue b q := by
  induction p with
  | nil => simp [digitsValue]
  | cons x p ih => simp only [List.cons_append, digitsValue, ih, List.length_cons, pow_succ]; ring

theorem digitsValue_lt (b : Nat) (p : List Nat) (h : ∀ x ∈ p, x < b) (hb : 0 < b) : digitsValue b p < b ^ p.length := by
  induction p with
  | nil => simp [digitsValue]
  | cons x p ih =>
    have hx := h x (by simp)
    have := ih (fun y hy => h y (by simp [hy]))
    simp only [digitsValue, List.length_cons, pow_succ]
    have h2 : digitsValue b p + 1 ≤ b ^ p.length := this
    nlinarith

theorem lms_digits {b : Nat} {a c : List Nat} (h : LastMostSignificantLt a c) (ha : ∀ x ∈ a, x < b)
    : digitsValue b a < digitsValue b c := by
  obtain ⟨p, q, s, u, v, rfl, rfl, hl, huv⟩ := h
  have hb : 0 < b := lt_of_le_of_lt (Nat.zero_le u) (ha u (by simp))
  have h1 := digitsValue_lt b p (fun x hx => ha x (by simp [hx])) hb
  simp only [digitsValue_append, digitsValue, hl] at *
  have : b ^ q.length * (u + 1) ≤ b ^ q.length * v := Nat.mul_le_mul_left _ huv
  nlinarith

theorem lms_irrefl (a : List Nat) : ¬ LastMostSignificantLt a a := by
  intro h
  have : ∃ b, ∀ x ∈ a, x < b := ⟨a.sum + 1, fun x hx => Nat.lt_succ_of_le (List.le_sum_of_mem hx)⟩
  obtain ⟨b, hb⟩ := this
  exact absurd (lms_digits h hb) (lt_irrefl _)

theorem nodup_mis (n r : Nat) : (mis n r).Nodup :=
  (pairwise_mis n r).imp (fun h => by rintro rfl; exact lms_irrefl _ h)

/-! ### counting -/

/-- Increase the first component. -/
def incHead : List Nat → List Nat
  | [] => []
  | c :: cs => (c + 1) :: cs

theorem mis_perm (n r : Nat) :
    (mis (n + 1) (r + 1)).Perm ((mis n (r + 1)).map (0 :: ·) ++ (mis (n + 1) r).map incHead) := by
  rw [List.perm_ext_iff_of_nodup (nodup_mis _ _)]
  · intro a
    simp only [List.mem_append, List.mem_map, mem_mis]
    constructor
    · rintro ⟨h1, h2⟩
      match a, h1, h2 with
      | 0 :: t, h1, h2 => left; exact ⟨t, ⟨by simpa using h1, by simpa using h2⟩, rfl⟩
      | (c + 1) :: t, h1, h2 =>
        right; refine ⟨c :: t, ⟨by simpa using h1, ?_⟩, rfl⟩
        simp at *; omega
    · rintro (⟨t, ⟨h1, h2⟩, rfl⟩ | ⟨t, ⟨h1, h2⟩, rfl⟩)
      · simp [h1, h2]
      · match t, h1, h2 with
        | c :: t, h1, h2 => simp [incHead] at *; omega
  · rw [List.nodup_append]
    refine ⟨List.Nodup.map (fun a b h => by simpa using h) (nodup_mis _ _), ?_, ?_⟩
    · refine List.Nodup.map_on ?_ (nodup_mis _ _)
      intro a ha b hb h
      have ha := (mem_mis.1 ha).1
      have hb := (mem_mis.1 hb).1
      match a, b, ha, hb with
      | x :: a, y :: b, _, _ => simpa [incHead] using h
    · intro a ha b hb
      obtain ⟨a, _, rfl⟩ := List.mem_map.1 ha
      obtain ⟨b, hb2, rfl⟩ := List.mem_map.1 hb
      have hb := (mem_mis.1 hb2).1
      match b, hb with
      | y :: b, _ => simp [incHead]

theorem mis_zero_right (n : Nat) : mis n 0 = [zero n] := by
  have h := count_one n
  exact h
where
  count_one (n : Nat) : mis n 0 = [zero n] := by
    induction n with
    | zero => rfl
    | succ n ih => simp [mis, ih, zero, List.replicate_succ]

theorem count_mis (n r : Nat) : (mis n r).length = (n + r).choose r := by
  induction n generalizing r with
  | zero => simp [mis]
  | succ n ihn =>
    induction r with
    | zero => simp [mis_zero_right]
    | succ r ihr =>
      have := (mis_perm n r).length_eq
      rw [this]
      simp only [List.length_append, List.length_map, ihn, ihr]
      have e1 : n + 1 + (r + 1) = (n + 1 + r) + 1 := by ring
      have e2 : n + (r + 1) = n + 1 + r := by ring
      rw [e1, Nat.choose_succ_succ, e2]
      ring

end Verif.MI
