import Mathlib.Data.List.Rotate
import Mathlib.Data.Nat.Factorial.BigOperators
import Mathlib.Algebra.BigOperators.Fin
import Mathlib.Algebra.BigOperators.Ring.List
import Mathlib.Tactic.Linarith
import Verif.Lemmas.Permutations
/-!
# Helper lemmas: permutation actions, enumerations, random and constructed permutations
-/

namespace Verif
namespace Perm
open Verif.Spec

variable {n : Nat}

/-! ### actions -/

theorem permuteValues_fold {α : Type} (e : Equiv.Perm (Fin n)) (f : Fin n → α) : ∀ k ≤ n,
    (List.range k).foldlM (fun (out : List α) i => do
      let pi ← getE (oneLine e) i
      let x ← getE (List.ofFn f) pi
      setE out i x) (List.ofFn f) = (.ok (List.ofFn (fun i : Fin n => if i.1 < k then f (e i) else f i)) : Py _) := by
  intro k
  induction k with
  | zero => intro _; simp
  | succ k ih =>
    intro hk
    rw [List.range_succ, List.foldlM_append, ih (by omega)]
    simp only [Py.bind_ok, List.foldlM_cons, List.foldlM_nil]
    let i : Fin n := ⟨k, by omega⟩
    have h1 : getE (oneLine e) k = .ok ((e i : Fin n) : Nat) := by
      have := getE_ofFn (fun i => ((e i : Fin n) : Nat)) i; exact this
    rw [h1]
    simp only [Py.bind_ok, getE_ofFn]
    have h2 := setE_ofFn (fun i : Fin n => if i.1 < k then f (e i) else f i) i (f (e i))
    rw [show ((i : Fin n) : Nat) = k from rfl] at h2
    rw [h2]
    simp only [Py.bind_ok, Py.pure_eq]
    congr 2
    funext j
    rw [Function.update_apply]
    by_cases hj : j = i
    · subst hj; simp [i]
    · rw [if_neg hj]
      have : j.1 ≠ k := fun h => hj (Fin.ext h)
      by_cases h3 : j.1 < k
      · rw [if_pos h3, if_pos (by omega)]
      · rw [if_neg h3, if_neg (by omega)]

theorem permuteValues_eq {α : Type} (e : Equiv.Perm (Fin n)) (f : Fin n → α) :
    permuteValues (oneLine e) (List.ofFn f) = .ok (List.ofFn (fun i => f (e i))) := by
  unfold permuteValues
  rw [length_oneLine, permuteValues_fold e f n le_rfl]
  simp

theorem permutePositions_eq {α : Type} (hn : 0 < n) (e : Equiv.Perm (Fin n)) (f : Fin n → α) :
    permutePositions (oneLine e) (List.ofFn f) = .ok (List.ofFn (fun i => f (e⁻¹ i))) := by
  unfold permutePositions
  rw [inverse_oneLine hn]
  simp only [Py.bind_ok]
  exact permuteValues_eq _ _

theorem matrixValues_fold (e : Equiv.Perm (Fin n)) : ∀ k ≤ n,
    (List.range k).foldlM (fun (m : List (List Int)) i => do
    let row ← getE m i
    let pi ← getE (oneLine e) i
    let row' ← setE row pi 1
    setE m i row') (List.replicate n (List.replicate n 0)) =
      (.ok (List.ofFn (fun i : Fin n => List.ofFn (fun j : Fin n => if i.1 < k ∧ j = e i then (1 : Int) else 0))) : Py _) := by
  intro k
  induction k with
  | zero => intro _; simp
  | succ k ih =>
    intro hk
    rw [List.range_succ, List.foldlM_append, ih (by omega)]
    simp only [Py.bind_ok, List.foldlM_cons, List.foldlM_nil]
    let i : Fin n := ⟨k, by omega⟩
    have h0 := getE_ofFn (fun i : Fin n => List.ofFn (fun j : Fin n => if i.1 < k ∧ j = e i then (1 : Int) else 0)) i
    rw [show ((i : Fin n) : Nat) = k from rfl] at h0
    have h1 : getE (oneLine e) k = .ok ((e i : Fin n) : Nat) := by
      have := getE_ofFn (fun i => ((e i : Fin n) : Nat)) i; exact this
    rw [h0, h1]
    simp only [Py.bind_ok, setE_ofFn]
    have h2 := setE_ofFn (fun i : Fin n => List.ofFn (fun j : Fin n => if i.1 < k ∧ j = e i then (1 : Int) else 0)) i
      (List.ofFn (Function.update (fun j : Fin n => if (i : Fin n).1 < k ∧ j = e i then (1 : Int) else 0) (e i) 1))
    rw [show ((i : Fin n) : Nat) = k from rfl] at h2
    rw [h2]
    simp only [Py.bind_ok, Py.pure_eq]
    congr 2
    funext j
    rw [Function.update_apply]
    by_cases hj : j = i
    · rw [if_pos hj]
      subst hj
      congr 1
      funext l
      rw [Function.update_apply]
      by_cases hl : l = e i
      · simp [hl, i]
      · simp [hl]
    · rw [if_neg hj]
      have : j.1 ≠ k := fun h => hj (Fin.ext h)
      have : j.1 < k ↔ j.1 < k + 1 := by omega
      simp only [this]

theorem matrixValues_eq (e : Equiv.Perm (Fin n)) :
    matrixValues (oneLine e) = .ok (List.ofFn (fun i : Fin n => List.ofFn (fun j : Fin n => if j = e i then (1 : Int) else 0))) := by
  unfold matrixValues
  rw [length_oneLine, matrixValues_fold e n le_rfl]
  simp

theorem matrixPositions_eq (e : Equiv.Perm (Fin n)) :
    matrixPositions (oneLine e) = .ok (List.ofFn (fun i : Fin n => List.ofFn (fun j : Fin n => if i = e j then (1 : Int) else 0))) := by
  unfold matrixPositions
  rw [matrixValues_eq]
  simp only [Py.bind_ok, Py.pure_eq, length_oneLine]
  congr 1
  apply List.ext_getElem (by simp)
  intro i h1 h2
  simp only [List.length_map, List.length_range] at h1
  apply List.ext_getElem (by simp)
  intro j h3 h4
  simp [h1, Fin.ext_iff]

/-! ### enumerations -/

theorem mem_generateSubset (k : Nat) : ∀ (array t : List Nat), array.Nodup →
    (t ∈ generateSubset array k ↔ t.length = k ∧ t.Nodup ∧ ∀ x ∈ t, x ∈ array) := by
  induction k with
  | zero =>
    intro array t _
    simp only [generateSubset, List.mem_singleton, List.length_eq_zero_iff]
    constructor
    · rintro rfl; simp
    · exact fun h => h.1
  | succ k ih =>
    intro array t hn
    have hnd : ∀ i, (array.take i ++ array.drop (i + 1)).Nodup := by
      intro i; rw [← List.eraseIdx_eq_take_drop_succ]; exact hn.eraseIdx i
    have hmem : ∀ (i : Nat) (hi : i < array.length) x, x ∈ array.take i ++ array.drop (i + 1) ↔ x ∈ array ∧ x ≠ array[i] := by
      intro i hi x
      rw [← List.eraseIdx_eq_take_drop_succ, ← List.Nodup.erase_getElem hn i hi, hn.mem_erase_iff, and_comm]
    simp only [generateSubset, List.mem_flatMap, List.mem_range]
    constructor
    · rintro ⟨i, hi, h⟩
      rw [List.getElem?_eq_getElem hi] at h
      simp only [List.mem_map] at h
      obtain ⟨t', ht', rfl⟩ := h
      obtain ⟨h1, h2, h3⟩ := (ih _ _ (hnd i)).1 ht'
      refine ⟨by simp [h1], ?_, ?_⟩
      · rw [List.nodup_cons]
        refine ⟨fun hx => ?_, h2⟩
        exact ((hmem i hi _).1 (h3 _ hx)).2 rfl
      · intro x hx
        rcases List.mem_cons.1 hx with rfl | hx
        · exact List.getElem_mem hi
        · exact ((hmem i hi _).1 (h3 _ hx)).1
    · rintro ⟨h1, h2, h3⟩
      obtain ⟨x, t', rfl⟩ : ∃ x t', t = x :: t' := by
        cases t with
        | nil => simp at h1
        | cons x t' => exact ⟨x, t', rfl⟩
      obtain ⟨i, hi, rfl⟩ := List.mem_iff_getElem.1 (h3 x (by simp))
      rw [List.nodup_cons] at h2
      refine ⟨i, hi, ?_⟩
      rw [List.getElem?_eq_getElem hi]
      simp only [List.mem_map]
      refine ⟨t', (ih _ _ (hnd i)).2 ⟨by simpa using h1, h2.2, ?_⟩, rfl⟩
      intro x hx
      refine (hmem i hi _).2 ⟨h3 x (by simp [hx]), ?_⟩
      rintro rfl; exact h2.1 hx

theorem nodup_flatMap_heads {array : List Nat} (m : Nat) (hm : m ≤ array.length) (hn : array.Nodup) (g : Nat → List (List Nat))
    (hg : ∀ i < m, (g i).Nodup) :
    ((List.range m).flatMap fun i => match array[i]? with
      | none => []
      | some x => (g i).map (x :: ·)).Nodup := by
  rw [List.nodup_flatMap]
  constructor
  · intro i hi
    rw [List.mem_range] at hi
    rw [List.getElem?_eq_getElem (by omega)]
    exact List.Nodup.map (fun a b h => (List.cons.inj h).2) (hg i hi)
  · rw [List.pairwise_iff_getElem]
    intro i j hi hj hij
    simp only [List.length_range] at hi hj
    simp only [List.getElem_range, Function.onFun, List.disjoint_left]
    intro t ht ht'
    rw [List.getElem?_eq_getElem (by omega)] at ht ht'
    simp only [List.mem_map] at ht ht'
    obtain ⟨a, _, rfl⟩ := ht
    obtain ⟨b, _, hb⟩ := ht'
    have := (List.Nodup.getElem_inj_iff hn).1 (List.cons.inj hb).1
    omega

theorem nodup_generateSubset (k : Nat) : ∀ (array : List Nat), array.Nodup → (generateSubset array k).Nodup := by
  induction k with
  | zero => intro array _; simp [generateSubset]
  | succ k ih =>
    intro array hn
    refine nodup_flatMap_heads _ le_rfl hn (fun i => generateSubset (array.take i ++ array.drop (i + 1)) k) ?_
    intro i _
    apply ih
    rw [← List.eraseIdx_eq_take_drop_succ]; exact hn.eraseIdx i

theorem length_generateSubset (k : Nat) : ∀ (array : List Nat), (generateSubset array k).length = array.length.descFactorial k := by
  induction k with
  | zero => intro array; simp [generateSubset]
  | succ k ih =>
    intro array
    simp only [generateSubset, List.length_flatMap]
    rw [List.map_congr_left (g := fun _ => (array.length - 1).descFactorial k)]
    swap
    · intro i hi
      rw [List.mem_range] at hi
      rw [List.getElem?_eq_getElem hi]
      simp only [List.length_map, ih]
      rw [← List.eraseIdx_eq_take_drop_succ, List.length_eraseIdx, if_pos hi]
    simp only [List.map_const', List.sum_replicate, List.length_range, smul_eq_mul]
    cases h : array.length with
    | zero => simp
    | succ m => rw [Nat.succ_descFactorial_succ]; simp

theorem mem_generateIncreasing (k : Nat) : ∀ (array t : List Nat), array.Pairwise (· < ·) →
    (t ∈ generateIncreasing array k ↔ t.length = k ∧ t.Pairwise (· < ·) ∧ ∀ x ∈ t, x ∈ array) := by
  induction k with
  | zero =>
    intro array t _
    simp only [generateIncreasing, List.mem_singleton, List.length_eq_zero_iff]
    constructor
    · rintro rfl; simp
    · exact fun h => h.1
  | succ k ih =>
    intro array t hn
    have hnd : ∀ i, (array.drop (i + 1)).Pairwise (· < ·) := fun i => hn.sublist (List.drop_sublist _ _)
    have hmem : ∀ (i : Nat) (hi : i < array.length) x, x ∈ array.drop (i + 1) ↔ x ∈ array ∧ array[i] < x := by
      intro i hi x
      rw [List.pairwise_iff_getElem] at hn
      constructor
      · intro h
        obtain ⟨j, hj, rfl⟩ := List.mem_iff_getElem.1 h
        rw [List.length_drop] at hj
        rw [List.getElem_drop]
        exact ⟨List.getElem_mem _, hn _ _ _ _ (by omega)⟩
      · rintro ⟨h, hlt⟩
        obtain ⟨j, hj, rfl⟩ := List.mem_iff_getElem.1 h
        have hij : i < j := by
          rcases Nat.lt_trichotomy i j with h | h | h
          · exact h
          · subst h; omega
          · have := hn j i hj hi h; omega
        rw [List.mem_iff_getElem]
        refine ⟨j - (i + 1), by rw [List.length_drop]; omega, ?_⟩
        rw [List.getElem_drop]
        congr 1; omega
    simp only [generateIncreasing, List.mem_flatMap, List.mem_range]
    constructor
    · rintro ⟨i, hi, h⟩
      have hi' : i < array.length := by omega
      rw [List.getElem?_eq_getElem hi'] at h
      simp only [List.mem_map] at h
      obtain ⟨t', ht', rfl⟩ := h
      obtain ⟨h1, h2, h3⟩ := (ih _ _ (hnd i)).1 ht'
      refine ⟨by simp [h1], ?_, ?_⟩
      · rw [List.pairwise_cons]
        exact ⟨fun x hx => ((hmem i hi' _).1 (h3 _ hx)).2, h2⟩
      · intro x hx
        rcases List.mem_cons.1 hx with rfl | hx
        · exact List.getElem_mem hi'
        · exact ((hmem i hi' _).1 (h3 _ hx)).1
    · rintro ⟨h1, h2, h3⟩
      obtain ⟨x, t', rfl⟩ : ∃ x t', t = x :: t' := by
        cases t with
        | nil => simp at h1
        | cons x t' => exact ⟨x, t', rfl⟩
      obtain ⟨i, hi, rfl⟩ := List.mem_iff_getElem.1 (h3 x (by simp))
      rw [List.pairwise_cons] at h2
      have hsub : ∀ x ∈ t', x ∈ array.drop (i + 1) := fun x hx => (hmem i hi _).2 ⟨h3 x (by simp [hx]), h2.1 x hx⟩
      have hlen : t'.length ≤ (array.drop (i + 1)).length :=
        (List.subperm_of_subset (h2.2.imp (fun h => Nat.ne_of_lt h)) hsub).length_le
      simp only [List.length_cons, List.length_drop] at h1 hlen
      refine ⟨i, by omega, ?_⟩
      rw [List.getElem?_eq_getElem hi]
      simp only [List.mem_map]
      exact ⟨t', (ih _ _ (hnd i)).2 ⟨by omega, h2.2, hsub⟩, rfl⟩

theorem nodup_generateIncreasing (k : Nat) : ∀ (array : List Nat), array.Nodup → (generateIncreasing array k).Nodup := by
  induction k with
  | zero => intro array _; simp [generateIncreasing]
  | succ k ih =>
    intro array hn
    refine nodup_flatMap_heads _ (by omega) hn (fun i => generateIncreasing (array.drop (i + 1)) k) ?_
    intro i _
    exact ih _ (hn.sublist (List.drop_sublist _ _))

theorem sum_choose_rev (m k : Nat) : ((List.range (m + 1 - (k + 1))).map (fun i => (m - (i + 1)).choose k)).sum = m.choose (k + 1) := by
  induction m with
  | zero => simp
  | succ m ih =>
    by_cases h : k ≤ m
    · rw [show m + 1 + 1 - (k + 1) = (m + 1 - (k + 1)) + 1 by omega, List.range_succ_eq_map, List.map_cons, List.map_map, List.sum_cons]
      have : ((fun i => (m + 1 - (i + 1)).choose k) ∘ Nat.succ) = (fun i => (m - (i + 1)).choose k) := by
        funext i; simp only [Function.comp]; congr 1; omega
      rw [this, ih, Nat.choose_succ_succ']; simp
    · rw [show m + 1 + 1 - (k + 1) = 0 by omega, Nat.choose_eq_zero_of_lt (by omega)]; simp

theorem length_generateIncreasing (k : Nat) : ∀ (array : List Nat), (generateIncreasing array k).length = array.length.choose k := by
  induction k with
  | zero => intro array; simp [generateIncreasing]
  | succ k ih =>
    intro array
    simp only [generateIncreasing, List.length_flatMap]
    rw [← sum_choose_rev]
    congr 1
    apply List.map_congr_left
    intro i hi
    rw [List.mem_range] at hi
    rw [List.getElem?_eq_getElem (by omega)]
    simp only [List.length_map, ih, List.length_drop]

/-! ### swapping list entries and the shuffle -/

theorem swapEntries_ok {α : Type*} (a : List α) (i j : Nat) (hi : i < a.length) (hj : j < a.length) :
    swapEntries a i j = .ok ((a.set i a[j]).set j a[i]) := by
  unfold swapEntries
  rw [getE_ok hj, getE_ok hi]
  simp only [Py.bind_ok]
  rw [setE_ok hi]
  simp only [Py.bind_ok]
  rw [setE_ok (by simpa using hj)]

theorem swapEntries_perm {α : Type*} (a : List α) (i j : Nat) (hi : i < a.length) (hj : j < a.length) :
    ((a.set i a[j]).set j a[i]).Perm a := List.set_set_perm hi hj

theorem getElem_swap {α : Type*} (a : List α) (i j k : Nat) (hi : i < a.length) (hj : j < a.length)
    (hk : k < ((a.set i a[j]).set j a[i]).length) :
    ((a.set i a[j]).set j a[i])[k] = if k = j then a[i] else if k = i then a[j] else a[k]'(by simpa using hk) := by
  rw [List.getElem_set]
  by_cases h1 : j = k
  · simp [h1]
  · rw [if_neg h1, if_neg (Ne.symm h1), List.getElem_set]
    by_cases h2 : i = k
    · simp [h2]
    · rw [if_neg h2, if_neg (Ne.symm h2)]

theorem shuffle_ok (m : Nat) (draws : List Nat) : ∀ (i : Nat) (a : List Nat),
    (∀ (j : Nat) (h : j < draws.length), draws[j] + (i + j) < a.length) →
    ∃ q, shuffleLoop m i draws a = .ok q ∧ q.Perm a ∧ ∀ (j : Nat) (h : j < a.length) (h' : j < q.length), j < i → q[j] = a[j] := by
  induction draws with
  | nil => intro i a _; exact ⟨a, rfl, List.Perm.refl _, fun _ _ _ _ => rfl⟩
  | cons d ds ih =>
    intro i a h
    have h0 := h 0 (by simp)
    simp only [List.getElem_cons_zero] at h0
    have hi : i < a.length := by omega
    have hj : d + i < a.length := by omega
    have hp := swapEntries_perm a i (d + i) hi hj
    obtain ⟨q, hq1, hq2, hq3⟩ := ih (i + 1) ((a.set i a[d + i]).set (d + i) a[i]) (by
      intro j hjd
      have := h (j + 1) (by simpa using hjd)
      simp only [List.getElem_cons_succ] at this
      simp only [List.length_set]; omega)
    refine ⟨q, ?_, hq2.trans hp, ?_⟩
    · simp only [shuffleLoop, swapEntries_ok a i (d + i) hi hj, Py.bind_ok]; exact hq1
    · intro j hja hjq hji
      rw [hq3 j (by simpa using hja) hjq (by omega), getElem_swap a i (d + i) j hi hj, if_neg (by omega), if_neg (by omega)]

theorem shuffle_head (m : Nat) (d : Nat) (ds : List Nat) (i : Nat) (a : List Nat) (q : List Nat)
    (h : ∀ (j : Nat) (h : j < (d :: ds).length), (d :: ds)[j] + (i + j) < a.length)
    (hq : shuffleLoop m i (d :: ds) a = .ok q) (hi : i < q.length) (hd : d + i < a.length) : q[i] = a[d + i] := by
  have hi' : i < a.length := by omega
  obtain ⟨q', hq1, hq2, hq3⟩ := shuffle_ok m ds (i + 1) ((a.set i a[d + i]).set (d + i) a[i]) (by
      intro j hjd
      have := h (j + 1) (by simpa using hjd)
      simp only [List.getElem_cons_succ] at this
      simp only [List.length_set]; omega)
  simp only [shuffleLoop, swapEntries_ok a i (d + i) hi' hd, Py.bind_ok] at hq
  rw [hq1] at hq
  obtain rfl : q' = q := by simpa using hq
  rw [hq3 i (by simpa using hi') hi (by omega), getElem_swap a i (d + i) i hi' hd]
  by_cases h : d = 0
  · subst h; simp
  · rw [if_neg (by omega), if_pos rfl]

theorem shuffle_inj (m : Nat) (d1 : List Nat) : ∀ (d2 : List Nat) (i : Nat) (a q : List Nat), a.Nodup → d1.length = d2.length →
    (∀ (j : Nat) (h : j < d1.length), d1[j] + (i + j) < a.length) →
    (∀ (j : Nat) (h : j < d2.length), d2[j] + (i + j) < a.length) →
    shuffleLoop m i d1 a = .ok q → shuffleLoop m i d2 a = .ok q → d1 = d2 := by
  induction d1 with
  | nil => intro d2 i a q _ hl _ _ _ _; exact (List.length_eq_zero_iff.1 hl.symm).symm
  | cons d ds ih =>
    intro d2 i a q hn hl h1 h2 hq1 hq2
    obtain ⟨d', ds', rfl⟩ : ∃ d' ds', d2 = d' :: ds' := by
      cases d2 with
      | nil => simp at hl
      | cons d' ds' => exact ⟨d', ds', rfl⟩
    have a1 := h1 0 (by simp)
    have a2 := h2 0 (by simp)
    simp only [List.getElem_cons_zero] at a1 a2
    have b1 : d + i < a.length := by omega
    have b2 : d' + i < a.length := by omega
    have hql : q.length = a.length := by
      obtain ⟨q', e1, e2, _⟩ := shuffle_ok m (d :: ds) i a h1
      rw [hq1] at e1; obtain rfl : q = q' := by simpa using e1
      exact e2.length_eq
    have e1 := shuffle_head m d ds i a q h1 hq1 (by omega) b1
    have e2 := shuffle_head m d' ds' i a q h2 hq2 (by omega) b2
    have hdd : d = d' := by
      have := (List.Nodup.getElem_inj_iff hn).1 (e1.symm.trans e2); omega
    subst hdd
    congr 1
    have hi : i < a.length := by omega
    simp only [shuffleLoop, swapEntries_ok a i (d + i) hi b1, Py.bind_ok] at hq1 hq2
    refine ih ds' (i + 1) _ q ((swapEntries_perm a i (d + i) hi b1).nodup_iff.2 hn) (by simpa using hl) ?_ ?_ hq1 hq2
    · intro j hjd
      have := h1 (j + 1) (by simpa using hjd)
      simp only [List.getElem_cons_succ] at this
      simp only [List.length_set]; omega
    · intro j hjd
      have := h2 (j + 1) (by simpa using hjd)
      simp only [List.getElem_cons_succ] at this
      simp only [List.length_set]; omega

theorem shuffle_surj (m : Nat) (c : Nat) : ∀ (i : Nat) (a q : List Nat), a.Nodup → q.Perm a → i + c + 1 = a.length →
    (∀ (j : Nat) (h : j < a.length) (h' : j < q.length), j < i → q[j] = a[j]) →
    ∃ ds : List Nat, ds.length = c ∧ (∀ (j : Nat) (h : j < ds.length), ds[j] + (i + j) < a.length) ∧ shuffleLoop m i ds a = .ok q := by
  induction c with
  | zero =>
    intro i a q hn hp hl hag
    refine ⟨[], rfl, by simp, ?_⟩
    simp only [shuffleLoop]
    congr 1
    -- all but the last entry agree, hence also the last
    have hlen := hp.length_eq
    have ha : a = a.take i ++ [a[i]'(by omega)] := by
      rw [← List.take_succ_eq_append_getElem (by omega), show i + 1 = a.length by omega, List.take_length]
    have hq : q = q.take i ++ [q[i]'(by omega)] := by
      rw [← List.take_succ_eq_append_getElem (by omega), show i + 1 = q.length by omega, List.take_length]
    have ht : q.take i = a.take i := by
      apply List.ext_getElem (by simp; omega)
      intro j h1 h2
      simp only [List.length_take] at h1 h2
      simp only [List.getElem_take]
      exact hag j (by omega) (by omega) (by omega)
    rw [ha, hq, ht] at hp
    have := (List.perm_append_left_iff _).1 hp
    have := List.perm_singleton.1 this
    rw [ha, hq, ht, this]
  | succ c ih =>
    intro i a q hn hp hl hag
    have hlen := hp.length_eq
    have hiq : i < q.length := by omega
    have hmem : q[i] ∈ a := hp.mem_iff.1 (List.getElem_mem hiq)
    obtain ⟨j, hj, hje⟩ := List.mem_iff_getElem.1 hmem
    have hij : i ≤ j := by
      by_contra hlt
      have := hag j hj (by omega) (by omega)
      rw [hje] at this
      have := (List.Nodup.getElem_inj_iff (hp.nodup_iff.2 hn)).1 this
      omega
    have hi : i < a.length := by omega
    have hd : (j - i) + i < a.length := by omega
    have hpp := swapEntries_perm a i ((j - i) + i) hi hd
    obtain ⟨ds, h1, h2, h3⟩ := ih (i + 1) ((a.set i a[(j - i) + i]).set ((j - i) + i) a[i]) q (hpp.nodup_iff.2 hn) (hp.trans hpp.symm)
      (by simp only [List.length_set]; omega) (by
        intro l hla hlq hli
        rw [getElem_swap a i _ l hi hd]
        by_cases e1 : l = i
        · subst e1
          by_cases e2 : l = (j - l) + l
          · rw [if_pos e2]
            have : j = l := by omega
            subst this; exact hje.symm
          · rw [if_neg e2, if_pos rfl, ← hje]; congr 1; omega
        · rw [if_neg (by omega), if_neg e1]
          exact hag l (by simpa using hla) hlq (by omega))
    refine ⟨(j - i) :: ds, by simp [h1], ?_, ?_⟩
    · intro l hl'
      cases l with
      | zero => simp; omega
      | succ l =>
        have := h2 l (by simpa using hl')
        simp only [List.length_set] at this
        simp only [List.getElem_cons_succ]; omega
    · simp only [shuffleLoop, swapEntries_ok a i _ hi hd, Py.bind_ok]; exact h3

/-! ### constructing permutations -/

theorem constructStep_ok (p : List Nat) (hn : p.Nodup) (d c : Nat) (hd : d < p.length) (hc : c ∈ p) :
    ∃ q, constructStep p (d, c) = .ok q ∧ q.Perm p ∧ (∃ h : d < q.length, q[d] = c) ∧
      ∀ (j : Nat) (h : j < p.length) (h' : j < q.length), j ≠ d → p[j] ≠ c → q[j] = p[j] := by
  unfold constructStep
  rw [getE_ok hd]
  simp only [Py.bind_ok]
  by_cases hx : p[d] = c
  · rw [if_neg (by simpa using hx)]
    exact ⟨p, rfl, List.Perm.refl _, ⟨hd, hx⟩, fun _ _ _ _ _ => rfl⟩
  · rw [if_pos hx]
    obtain ⟨j, hj, rfl⟩ := List.mem_iff_getElem.1 hc
    rw [indexE_getElem hn j hj]
    simp only [Py.bind_ok, swapEntries_ok p d j hd hj]
    refine ⟨_, rfl, swapEntries_perm p d j hd hj, ⟨by simpa using hd, ?_⟩, ?_⟩
    · rw [getElem_swap p d j d hd hj]
      by_cases e : d = j
      · subst e; simp
      · rw [if_neg e, if_pos rfl]
    · intro l hl hl' h1 h2
      rw [getElem_swap p d j l hd hj]
      have : l ≠ j := by rintro rfl; exact h2 rfl
      rw [if_neg this, if_neg h1]

theorem construct_fold (dcs : List (Nat × Nat)) : ∀ (p : List Nat), p.Nodup → (dcs.map Prod.fst).Nodup → (dcs.map Prod.snd).Nodup →
    (∀ x ∈ dcs, x.1 < p.length) → (∀ x ∈ dcs, x.2 ∈ p) →
    ∃ q, dcs.foldlM constructStep p = .ok q ∧ q.Perm p ∧ (∀ x ∈ dcs, q[x.1]? = some x.2) ∧
      ∀ (j : Nat) (h : j < p.length), j ∉ dcs.map Prod.fst → p[j] ∉ dcs.map Prod.snd → q[j]? = some p[j] := by
  induction dcs with
  | nil =>
    intro p _ _ _ _ _
    exact ⟨p, rfl, List.Perm.refl _, by simp, fun j h _ _ => List.getElem?_eq_getElem h⟩
  | cons x dcs ih =>
    intro p hn h1 h2 h3 h4
    obtain ⟨d, c⟩ := x
    simp only [List.map_cons, List.nodup_cons] at h1 h2
    obtain ⟨q, e1, e2, ⟨e3, e3'⟩, e4⟩ := constructStep_ok p hn d c (h3 (d, c) (by simp)) (h4 (d, c) (by simp))
    obtain ⟨r, f1, f2, f3, f4⟩ := ih q (e2.nodup_iff.2 hn) h1.2 h2.2
      (fun x hx => by rw [e2.length_eq]; exact h3 x (by simp [hx]))
      (fun x hx => e2.mem_iff.2 (h4 x (by simp [hx])))
    refine ⟨r, ?_, f2.trans e2, ?_, ?_⟩
    · simp only [List.foldlM_cons, e1, Py.bind_ok]; exact f1
    · intro x hx
      rcases List.mem_cons.1 hx with rfl | hx
      · rw [f4 d e3 h1.1 (by rw [e3']; exact h2.1), e3']
      · exact f3 x hx
    · intro j hj h5 h6
      simp only [List.map_cons, List.mem_cons, not_or] at h5 h6
      have hjq : j < q.length := by rw [e2.length_eq]; exact hj
      have := e4 j hj hjq h5.1 h6.1
      rw [f4 j hjq h5.2 (by rw [this]; exact h6.2), this]

theorem elementIndex_aux {α : Type*} [DecidableEq α] (x : α) : ∀ (l : List α) (k : Nat) (acc : Option Nat), x ∉ l →
    (l.zipIdx k).foldl (fun d p => if p.1 = x then some p.2 else d) acc = acc := by
  intro l
  induction l with
  | nil => intros; rfl
  | cons a l ih =>
    intro k acc h
    simp only [List.mem_cons, not_or] at h
    rw [List.zipIdx_cons, List.foldl_cons, if_neg (Ne.symm h.1), ih _ _ h.2]

theorem elementIndex_none {α : Type*} [DecidableEq α] (l : List α) (x : α) (h : x ∉ l) : elementIndex l x = none :=
  elementIndex_aux x l 0 none h

theorem elementIndex_getElem {α : Type*} [DecidableEq α] (l : List α) (hn : l.Nodup) (i : Nat) (h : i < l.length) :
    elementIndex l l[i] = some i := by
  unfold elementIndex
  have : ∀ (l : List α) (k : Nat) (acc : Option Nat), l.Nodup → ∀ (i : Nat) (h : i < l.length),
      (l.zipIdx k).foldl (fun d p => if p.1 = l[i] then some p.2 else d) acc = some (k + i) := by
    intro l
    induction l with
    | nil => intro k acc _ i h; simp at h
    | cons a l ih =>
      intro k acc hn i h
      rw [List.nodup_cons] at hn
      rw [List.zipIdx_cons, List.foldl_cons]
      cases i with
      | zero =>
        rw [if_pos (by simp)]
        simp only [List.getElem_cons_zero]
        rw [elementIndex_aux a l _ _ hn.1]; rfl
      | succ i =>
        simp only [List.getElem_cons_succ]
        rw [ih _ _ hn.2 i (by simpa using h)]
        congr 1; omega
  simpa using this l 0 none hn i h

/-! ### rotations -/

theorem cyclicPermutations_eq {α : Type} (p : List α) :
    cyclicPermutations p = .ok ((List.range p.length).map (fun j => p.rotate (p.length - j))) := by
  unfold cyclicPermutations
  apply mapM_eq_ok
  intro j hj
  rw [List.mem_range] at hj
  have : ∀ i ∈ List.range p.length, pyGet p ((i : Int) - (j : Int)) =
      .ok (((p.rotate (p.length - j))[i]?).getD (p[0]'(by omega))) := by
    intro i hi
    rw [List.mem_range] at hi
    rw [List.getElem?_eq_getElem (by simpa using hi), Option.getD_some, List.getElem_rotate]
    unfold pyGet
    by_cases h : j ≤ i
    · rw [if_pos (by omega)]
      have e : ((i : Int) - j).toNat = i - j := by omega
      have e2 : (i + (p.length - j)) % p.length = i - j := by
        rw [show i + (p.length - j) = (i - j) + p.length by omega, Nat.add_mod_right, Nat.mod_eq_of_lt (by omega)]
      rw [e, List.getElem?_eq_getElem (by omega)]
      simp only [e2]
    · rw [if_neg (by omega), if_pos (by omega)]
      have e : ((i : Int) - j + p.length).toNat = i + (p.length - j) := by omega
      have e2 : (i + (p.length - j)) % p.length = i + (p.length - j) := Nat.mod_eq_of_lt (by omega)
      rw [e, List.getElem?_eq_getElem (by omega)]
      simp only [e2]
  rw [mapM_eq_ok _ _ this]
  congr 1
  apply List.ext_getElem (by simp)
  intro i h1 h2
  simp only [List.getElem_map, List.getElem_range]
  rw [List.getElem?_eq_getElem h2, Option.getD_some]

theorem mem_cyclic {α : Type} (a b : List α) (hb : b ≠ []) :
    a ∈ (List.range b.length).map (fun j => b.rotate (b.length - j)) ↔ b ~r a := by
  have hl : 0 < b.length := List.length_pos_iff.2 hb
  simp only [List.mem_map, List.mem_range]
  constructor
  · rintro ⟨j, _, rfl⟩; exact ⟨_, rfl⟩
  · rintro ⟨k, rfl⟩
    refine ⟨(b.length - k % b.length) % b.length, Nat.mod_lt _ hl, ?_⟩
    rw [← List.rotate_mod b k]
    have hk := Nat.mod_lt k hl
    by_cases h0 : k % b.length = 0
    · rw [h0]; simp
    · rw [Nat.mod_eq_of_lt (by omega)]; congr 1; omega

end Perm
end Verif
