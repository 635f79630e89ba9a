import Verif.Model.BasicMeshes
import Verif.Spec.BasicMeshes
import Verif.Lemmas.MultiIndex
import Mathlib.Algebra.BigOperators.Fin
import Mathlib.Algebra.Order.BigOperators.Group.List
import Mathlib.Tactic.Linarith
import Mathlib.Tactic.FieldSimp
import Mathlib.Tactic.Ring
import Mathlib.Tactic.LinearCombination
import Mathlib.Data.Fin.VecNotation
import Mathlib.Tactic.FinCases
/-!
# Meshes whose vertices are an affine image of lattice points
-/

namespace Verif.Mesh
open Verif Verif.Spec

variable {K : Type} [Field K] [LinearOrder K] [IsStrictOrderedRing K]

/-- Weighted sum of a function of the points. -/
def wsum {α : Type} (w : List K) (P : List α) (f : α → K) : K := ((w.zip P).map (fun q => q.1 * f q.2)).sum

omit [LinearOrder K] [IsStrictOrderedRing K] in
theorem wsum_affine {α : Type} {m : Nat} (o : K) (a : Fin m → K) (f : Fin m → α → K) : ∀ (w : List K) (P : List α), w.length = P.length →
    wsum w P (fun p => o + ∑ k, f k p * a k) = w.sum * o + ∑ k, wsum w P (f k) * a k
  | [], [], _ => by simp [wsum]
  | a' :: w, [], h => by simp at h
  | [], p :: P, h => by simp at h
  | b :: w, p :: P, h => by
    have ih := wsum_affine o a f w P (by simpa using h)
    unfold wsum at ih ⊢
    simp only [List.zip_cons_cons, List.map_cons, List.sum_cons] at ih ⊢
    rw [ih]
    simp only [add_mul, Finset.sum_add_distrib]
    rw [mul_add, Finset.mul_sum]
    have : ∑ i, b * (f i p * a i) = ∑ k, b * f k p * a k := Finset.sum_congr rfl (fun k _ => by ring)
    rw [this]
    ring

variable {m : Nat}

/-- The point with lattice coordinates `ξ`. -/
def place (d : Nat) (o : Nat → K) (a : Fin m → Nat → K) (ξ : Fin m → K) : List K := (List.range d).map (fun c => o c + ∑ k, ξ k * a k c)

/-- `ξ` is the combination of lattice points. -/
def LComb (P : List (Fin m → ℕ)) (w : List K) (ξ : Fin m → K) : Prop := w.length = P.length ∧ ∀ k, wsum w P (fun p => (p k : K)) = ξ k

/-- Closed lattice cell. -/
def LIn (P : List (Fin m → ℕ)) (ξ : Fin m → K) : Prop := ∃ w : List K, (∀ a ∈ w, 0 ≤ a) ∧ w.sum = 1 ∧ LComb P w ξ

/-- Open lattice cell. -/
def LInt (P : List (Fin m → ℕ)) (ξ : Fin m → K) : Prop := ∃ w : List K, (∀ a ∈ w, 0 < a) ∧ w.sum = 1 ∧ LComb P w ξ

/-! ### Common faces

The cells of the structured meshes are bounded by the hyperplanes on which a difference of two of the levels `x_i + ... + x_{m-1}` is an integer. A
lattice point outside of such a cell is separated from it by one of these differences.
-/

/-- The sum of the coordinates from number `i` on. -/
def level (i : Fin (m + 1)) (p : Fin m → ℕ) : ℤ := ∑ k : Fin m, if i.val ≤ k.val then (p k : ℤ) else 0

/-- Differences of levels vary by at most one. -/
def IsAlcove (P : List (Fin m → ℕ)) : Prop :=
  ∀ i j, ∀ p ∈ P, ∀ q ∈ P, level i p - level j p ≤ level i q - level j q + 1

theorem level_sub (k : Fin m) (p : Fin m → ℕ) : level k.castSucc p - level k.succ p = p k := by
  unfold level
  rw [← Finset.sum_sub_distrib, Finset.sum_eq_single k]
  · rw [if_pos (by simp), if_neg (by simp)]
    simp
  · intro b _ hb
    have hne : b.val ≠ k.val := fun h => hb (Fin.ext h)
    by_cases h : k.val ≤ b.val
    · rw [if_pos (by simpa using h), if_pos (by rw [Fin.val_succ]; omega), sub_self]
    · rw [if_neg (by simpa using h), if_neg (by rw [Fin.val_succ]; omega), sub_self]
  · simp

/-- A total preorder on a finite set has a largest element. -/
theorem exists_largest {ι : Type} (r : ι → ι → Prop) (htot : ∀ i j, r i j ∨ r j i) (htr : ∀ i j k, r i j → r j k → r i k)
    (l : List ι) (hl : l ≠ []) : ∃ i ∈ l, ∀ j ∈ l, r j i := by
  induction l with
  | nil => exact absurd rfl hl
  | cons a l ih =>
    have hrefl : ∀ i, r i i := fun i => (htot i i).elim id id
    by_cases h : l = []
    · subst h
      exact ⟨a, by simp, by simpa using hrefl a⟩
    · obtain ⟨i, hi, h1⟩ := ih h
      rcases htot a i with h2 | h2
      · refine ⟨i, List.mem_cons_of_mem _ hi, fun j hj => ?_⟩
        rcases List.mem_cons.1 hj with rfl | hj
        · exact h2
        · exact h1 j hj
      · refine ⟨a, List.mem_cons_self, fun j hj => ?_⟩
        rcases List.mem_cons.1 hj with rfl | hj
        · exact hrefl _
        · exact htr _ _ _ (h1 j hj) h2

/-- A lattice point outside of a cell is separated from it by a difference of levels. -/
theorem separate {Q : List (Fin m → ℕ)} (hQ : IsAlcove Q) (p : Fin m → ℕ) (hp : p ∉ Q) :
    ∃ i j, ∀ q ∈ Q, level i p - level j p + 1 ≤ level i q - level j q := by
  have htot : ∀ i j, (∀ q ∈ Q, level i q - level i p ≤ level j q - level j p) ∨ (∀ q ∈ Q, level j q - level j p ≤ level i q - level i p) := by
    intro i j
    by_cases h : ∀ q ∈ Q, level i q - level i p ≤ level j q - level j p
    · exact Or.inl h
    · right
      push Not at h
      obtain ⟨q', hq', h⟩ := h
      intro q hq
      have := hQ i j q' hq' q hq
      omega
  have hne : List.finRange (m + 1) ≠ [] := by simp
  obtain ⟨i, -, hi⟩ := exists_largest (fun i j => ∀ q ∈ Q, level i q - level i p ≤ level j q - level j p) htot
    (fun i j k h1 h2 q hq => (h1 q hq).trans (h2 q hq)) _ hne
  obtain ⟨j, -, hj⟩ := exists_largest (fun i j => ∀ q ∈ Q, level j q - level j p ≤ level i q - level i p) (fun i j => (htot j i))
    (fun i j k h1 h2 q hq => (h2 q hq).trans (h1 q hq)) _ hne
  refine ⟨i, j, fun q hq => ?_⟩
  by_contra hc
  apply hp
  have hpq : p = q := by
    funext k
    have a1 := hi k.castSucc (List.mem_finRange _) q hq
    have a2 := hi k.succ (List.mem_finRange _) q hq
    have b1 := hj k.castSucc (List.mem_finRange _) q hq
    have b2 := hj k.succ (List.mem_finRange _) q hq
    have c1 := level_sub k p
    have c2 := level_sub k q
    omega
  exact hpq ▸ hq

omit [LinearOrder K] [IsStrictOrderedRing K] in
/-- The combination of a difference of levels depends only on the point. -/
theorem wsum_level (i j : Fin (m + 1)) {P : List (Fin m → ℕ)} {w : List K} {ξ : Fin m → K} (h : LComb P w ξ) :
    wsum w P (fun q => ((level i q - level j q : ℤ) : K)) =
      ∑ k, ξ k * ((if i.val ≤ k.val then 1 else 0) - (if j.val ≤ k.val then 1 else 0)) := by
  have h1 := wsum_affine (0 : K) (fun k : Fin m => (if i.val ≤ k.val then 1 else 0) - (if j.val ≤ k.val then 1 else 0))
    (fun k (p : Fin m → ℕ) => (p k : K)) w P h.1
  simp only [h.2, mul_zero, zero_add] at h1
  rw [← h1]
  congr 1
  funext q
  unfold level
  rw [← Finset.sum_sub_distrib, Int.cast_sum]
  refine Finset.sum_congr rfl (fun k _ => ?_)
  split_ifs <;> simp

theorem wsum_le {α : Type} (w : List K) (P : List α) (hw : ∀ a ∈ w, 0 ≤ a) (f g : α → K) (h : ∀ p ∈ P, f p ≤ g p) : wsum w P f ≤ wsum w P g := by
  unfold wsum
  refine List.sum_le_sum (fun q hq => ?_)
  obtain ⟨h1, h2⟩ := List.of_mem_zip hq
  exact mul_le_mul_of_nonneg_left (h q.2 h2) (hw q.1 h1)

omit [LinearOrder K] [IsStrictOrderedRing K] in
theorem wsum_const {α : Type} (c : K) : ∀ (w : List K) (P : List α), w.length = P.length → wsum w P (fun _ => c) = w.sum * c
  | [], [], _ => by simp [wsum]
  | a' :: w, [], h => by simp at h
  | [], p :: P, h => by simp at h
  | b :: w, p :: P, h => by
    have ih := wsum_const c w P (by simpa using h)
    unfold wsum at ih ⊢
    simp only [List.zip_cons_cons, List.map_cons, List.sum_cons] at ih ⊢
    rw [ih]
    ring

omit [LinearOrder K] [IsStrictOrderedRing K] in
theorem wsum_sub {α : Type} (w : List K) (P : List α) (f g : α → K) : wsum w P (fun p => f p - g p) = wsum w P f - wsum w P g := by
  unfold wsum
  generalize w.zip P = l
  induction l with
  | nil => simp
  | cons q l ih => simp only [List.map_cons, List.sum_cons, ih]; ring

/-- The weight of a point of the list is at most the sum of the weights of its positions. -/
theorem weight_le {α : Type} [DecidableEq α] (w : List K) (P : List α) (hw : ∀ a ∈ w, 0 ≤ a) (a : K) (p : α) (h : (a, p) ∈ w.zip P) :
    a ≤ wsum w P (fun q => if q = p then 1 else 0) := by
  unfold wsum
  have hnn : ∀ x ∈ (w.zip P).map (fun q => q.1 * if q.2 = p then (1 : K) else 0), 0 ≤ x := by
    intro x hx
    obtain ⟨q, hq, rfl⟩ := List.mem_map.1 hx
    have := hw q.1 (List.of_mem_zip hq).1
    split_ifs <;> simp [this]
  refine List.single_le_sum hnn a (List.mem_map.2 ⟨(a, p), h, by simp⟩)

/-- A point that two cells have in common has no weight at the vertices that are not in both. -/
theorem weight_zero {P Q : List (Fin m → ℕ)} (hP : IsAlcove P) (hQ : IsAlcove Q) {w w' : List K} {ξ : Fin m → K}
    (hw : ∀ a ∈ w, 0 ≤ a) (hw1 : w.sum = 1) (hwP : LComb P w ξ) (hw' : ∀ a ∈ w', 0 ≤ a) (hw1' : w'.sum = 1) (hwQ : LComb Q w' ξ)
    (a : K) (p : Fin m → ℕ) (h : (a, p) ∈ w.zip P) (hp : p ∉ Q) : a = 0 := by
  obtain ⟨i, j, hs⟩ := separate hQ p hp
  have hpP : p ∈ P := (List.of_mem_zip h).2
  set e : K := ((level i p - level j p : ℤ) : K) with he
  have h1 : e + 1 ≤ wsum w' Q (fun q => ((level i q - level j q : ℤ) : K)) := by
    have := wsum_le w' Q hw' (fun _ => e + 1) (fun q => ((level i q - level j q : ℤ) : K)) (fun q hq => by rw [he]; exact_mod_cast hs q hq)
    rwa [wsum_const _ _ _ hwQ.1, hw1', one_mul] at this
  have h2 : wsum w P (fun q => ((level i q - level j q : ℤ) : K)) ≤ (e + 1) - wsum w P (fun q => if q = p then 1 else 0) := by
    have h3 : wsum w P (fun _ => e + 1) = e + 1 := by rw [wsum_const _ _ _ hwP.1, hw1, one_mul]
    rw [← h3, ← wsum_sub]
    refine wsum_le w P hw _ _ (fun q hq => ?_)
    by_cases hqp : q = p
    · subst hqp
      simp [he]
    · rw [if_neg hqp, sub_zero, he]
      exact_mod_cast hP i j q hq p hpP
  rw [wsum_level i j hwQ] at h1
  rw [wsum_level i j hwP] at h2
  have h4 := weight_le w P hw a p h
  exact le_antisymm (by linarith) (hw a (List.of_mem_zip h).1)

/-- The points that two cells have in common are on the common face. -/
theorem common_face {P Q : List (Fin m → ℕ)} (hP : IsAlcove P) (hQ : IsAlcove Q) {ξ : Fin m → K} (h1 : LIn P ξ) (h2 : LIn Q ξ) :
    LIn (P.filter (· ∈ Q)) ξ := by
  obtain ⟨w, hw, hw1, hwP⟩ := h1
  obtain ⟨w', hw', hw1', hwQ⟩ := h2
  have hz := fun a p h hp => weight_zero hP hQ hw hw1 hwP hw' hw1' hwQ a p h hp
  have hl := hwP.1
  have hsnd : (w.zip P).map Prod.snd = P := List.map_snd_zip (by omega)
  have hfst : (w.zip P).map Prod.fst = w := List.map_fst_zip (by omega)
  have hfs : ((w.zip P).filter (fun q => q.2 ∈ Q)).map Prod.snd = P.filter (· ∈ Q) := by
    conv_rhs => rw [← hsnd, List.filter_map]
    rfl
  have hzip : ∀ l : List (K × (Fin m → ℕ)), (l.map Prod.fst).zip (l.map Prod.snd) = l := fun l => by
    induction l with
    | nil => rfl
    | cons q l ih => simp [ih]
  have hsum : ∀ f : (Fin m → ℕ) → K, ∀ l : List (K × (Fin m → ℕ)), (∀ a p, (a, p) ∈ l → p ∉ Q → a = 0) →
      ((l.filter (fun q => q.2 ∈ Q)).map (fun q => q.1 * f q.2)).sum = (l.map (fun q => q.1 * f q.2)).sum := by
    intro f l
    induction l with
    | nil => simp
    | cons q l ih =>
      intro h
      have ih' := ih (fun a p hap => h a p (List.mem_cons_of_mem _ hap))
      by_cases hq : q.2 ∈ Q
      · rw [List.filter_cons_of_pos (by simpa using hq), List.map_cons, List.map_cons, List.sum_cons, List.sum_cons, ih']
      · rw [List.filter_cons_of_neg (by simpa using hq), List.map_cons, List.sum_cons, ih', h q.1 q.2 List.mem_cons_self hq]
        simp
  refine ⟨((w.zip P).filter (fun q => q.2 ∈ Q)).map Prod.fst, ?_, ?_, ?_, ?_⟩
  · intro a ha
    obtain ⟨q, hq, rfl⟩ := List.mem_map.1 ha
    exact hw q.1 (List.of_mem_zip (List.mem_of_mem_filter hq)).1
  · have := hsum (fun _ => 1) _ hz
    simp only [mul_one] at this
    rw [show (fun q : K × (Fin m → ℕ) => q.1) = Prod.fst from rfl, hfst, hw1] at this
    exact this
  · rw [← hfs, List.length_map, List.length_map]
  · intro k
    rw [← hfs]
    unfold wsum
    rw [hzip, hsum (fun p => (p k : K)) _ hz]
    exact hwP.2 k

/-- The lattice version of `Tiles`. -/
structure LTiles (cells : List (List (Fin m → ℕ))) (D : Set (Fin m → K)) : Prop where
  cover : ∀ ξ ∈ D, ∃ P ∈ cells, LIn P ξ
  inside : ∀ P ∈ cells, ∀ ξ, LIn P ξ → ξ ∈ D
  disjoint : cells.Pairwise fun P Q => ¬∃ ξ : Fin m → K, LInt P ξ ∧ LInt Q ξ
  faces : ∀ P ∈ cells, ∀ Q ∈ cells, ∀ ξ : Fin m → K, LIn P ξ → LIn Q ξ → LIn (P.filter (· ∈ Q)) ξ

omit [IsStrictOrderedRing K] [LinearOrder K] in
theorem comb_iff (d : Nat) (o : Nat → K) (a : Fin m → Nat → K) (V : List (List K)) (idx : (Fin m → ℕ) → Nat) (P : List (Fin m → ℕ)) (hP : P ≠ [])
    (hV : ∀ p ∈ P, V[idx p]? = some (place d o a (fun k => (p k : K)))) (w : List K) (hw : w.sum = 1) (x : List K) :
    IsComb V (P.map idx) w x ↔ ∃ ξ, LComb P w ξ ∧ x = place d o a ξ := by
  have hmap : (P.map idx).map (fun i => V[i]?) = (P.map (fun p => place d o a (fun k => (p k : K)))).map some := by
    rw [List.map_map, List.map_map]
    exact List.map_congr_left (fun p hp => hV p hp)
  have hlen : ∀ ξ : Fin m → K, (place d o a ξ).length = d := fun ξ => by simp [place]
  have hget : ∀ (ξ : Fin m → K) c, c < d → (place d o a ξ).getD c 0 = o c + ∑ k, ξ k * a k c := by
    intro ξ c hc
    unfold place
    rw [List.getD_eq_getElem?_getD, List.getElem?_map, List.getElem?_range hc]
    rfl
  have hsum : ∀ c, c < d → w.length = P.length →
      ((w.zip (P.map (fun p => place d o a (fun k => (p k : K))))).map (fun q => q.1 * q.2.getD c 0)).sum =
      o c + ∑ k, wsum w P (fun p => (p k : K)) * a k c := by
    intro c hc hwl
    rw [List.zip_map_right, List.map_map]
    have h1 := wsum_affine (o c) (fun k => a k c) (fun k (p : Fin m → ℕ) => (p k : K)) w P hwl
    rw [hw, one_mul] at h1
    rw [← h1]
    unfold wsum
    refine congrArg List.sum (List.map_congr_left (fun q _ => ?_))
    simp only [Function.comp, Prod.map, id]
    rw [hget _ c hc]
  unfold IsComb
  constructor
  · rintro ⟨ps, h1, h2, h3, h4⟩
    rw [hmap] at h1
    have h1 := List.map_injective_iff.2 (Option.some_injective _) h1
    subst h1
    rw [List.length_map] at h3
    obtain ⟨p0, hp0⟩ := List.exists_mem_of_ne_nil P hP
    have hx : x.length = d := by
      have := h2 _ (List.mem_map.2 ⟨p0, hp0, rfl⟩)
      rw [hlen] at this
      exact this.symm
    refine ⟨fun k => wsum w P (fun p => (p k : K)), ⟨h3, fun k => rfl⟩, ?_⟩
    apply List.ext_getElem
    · rw [hx, hlen]
    · intro c hc hc'
      have h5 := h4 c hc
      rw [hsum c (hx ▸ hc) h3, List.getD_eq_getElem?_getD, List.getElem?_eq_getElem hc, Option.getD_some] at h5
      rw [← h5]
      simp [place]
  · rintro ⟨ξ, ⟨h1, h2⟩, rfl⟩
    refine ⟨P.map (fun p => place d o a (fun k => (p k : K))), hmap, ?_, ?_, ?_⟩
    · intro p hp
      obtain ⟨q, -, rfl⟩ := List.mem_map.1 hp
      rw [hlen, hlen]
    · rw [List.length_map, h1]
    · intro c hc
      rw [hlen] at hc
      rw [hsum c hc h1, hget _ c hc]
      simp only [h2]

/-- A tiling of lattice coordinates gives a tiling by an injective affine map. -/
theorem tiles_of_lattice (d : Nat) (o : Nat → K) (a : Fin m → Nat → K) (V : List (List K)) (idx : (Fin m → ℕ) → Nat)
    (cells : List (List (Fin m → ℕ))) (D : Set (Fin m → K)) (hne : ∀ P ∈ cells, P ≠ [])
    (hV : ∀ P ∈ cells, ∀ p ∈ P, V[idx p]? = some (place d o a (fun k => (p k : K))))
    (hinj : ∀ ξ ξ' : Fin m → K, place d o a ξ = place d o a ξ' → ξ = ξ') (h : LTiles cells D) :
    Tiles V (cells.map (fun P => P.map idx)) {x | ∃ ξ ∈ D, x = place d o a ξ} := by
  constructor
  · rintro x ⟨ξ, hξ, rfl⟩
    obtain ⟨P, hP, w, w1, w2, w3⟩ := h.cover ξ hξ
    exact ⟨_, List.mem_map.2 ⟨P, hP, rfl⟩, w, w1, w2, (comb_iff d o a V idx P (hne P hP) (hV P hP) w w2 _).2 ⟨ξ, w3, rfl⟩⟩
  · intro c hc x hx
    obtain ⟨P, hP, rfl⟩ := List.mem_map.1 hc
    obtain ⟨w, w1, w2, w3⟩ := hx
    obtain ⟨ξ, h1, h2⟩ := (comb_iff d o a V idx P (hne P hP) (hV P hP) w w2 _).1 w3
    exact ⟨ξ, h.inside P hP ξ ⟨w, w1, w2, h1⟩, h2⟩
  · rw [List.pairwise_map]
    refine List.Pairwise.imp_of_mem ?_ h.disjoint
    rintro P Q hP hQ hd ⟨x, ⟨w, w1, w2, w3⟩, ⟨w', v1, v2, v3⟩⟩
    obtain ⟨ξ, h1, h2⟩ := (comb_iff d o a V idx P (hne P hP) (hV P hP) w w2 _).1 w3
    obtain ⟨ξ', h1', h2'⟩ := (comb_iff d o a V idx Q (hne Q hQ) (hV Q hQ) w' v2 _).1 v3
    obtain rfl := hinj ξ ξ' (h2 ▸ h2')
    exact hd ⟨ξ, ⟨w, w1, w2, h1⟩, ⟨w', v1, v2, h1'⟩⟩
  · intro c hc c' hc' x hx hx'
    obtain ⟨P, hP, rfl⟩ := List.mem_map.1 hc
    obtain ⟨Q, hQ, rfl⟩ := List.mem_map.1 hc'
    obtain ⟨w, w1, w2, w3⟩ := hx
    obtain ⟨w', v1, v2, v3⟩ := hx'
    obtain ⟨ξ, h1, h2⟩ := (comb_iff d o a V idx P (hne P hP) (hV P hP) w w2 _).1 w3
    obtain ⟨ξ', h1', h2'⟩ := (comb_iff d o a V idx Q (hne Q hQ) (hV Q hQ) w' v2 _).1 v3
    obtain rfl := hinj ξ ξ' (h2 ▸ h2')
    obtain ⟨u, u1, u2, u3⟩ := h.faces P hP Q hQ ξ ⟨w, w1, w2, h1⟩ ⟨w', v1, v2, h1'⟩
    have hidx : ∀ p ∈ P, ∀ q ∈ Q, idx p = idx q → p = q := by
      intro p hp q hq he
      have e1 := hV P hP p hp
      rw [he, hV Q hQ q hq, Option.some.injEq] at e1
      have e2 := hinj _ _ e1
      funext k
      have := congrFun e2 k
      exact_mod_cast this.symm
    have hfil : (P.map idx).filter (· ∈ Q.map idx) = (P.filter (· ∈ Q)).map idx := by
      rw [List.filter_map]
      congr 1
      refine List.filter_congr (fun p hp => ?_)
      simp only [Function.comp, List.mem_map, decide_eq_decide]
      exact ⟨fun ⟨q, hq, he⟩ => hidx p hp q hq he.symm ▸ hq, fun hq => ⟨p, hq, rfl⟩⟩
    refine ⟨u, u1, u2, ?_⟩
    rw [hfil]
    have hne' : P.filter (· ∈ Q) ≠ [] := by
      intro he
      rw [he] at u3
      have := List.length_eq_zero_iff.1 u3.1
      rw [this] at u2
      simp at u2
    exact (comb_iff d o a V idx _ hne' (fun p hp => hV P hP p (List.mem_of_mem_filter hp)) u u2 _).2 ⟨ξ, u3, h2⟩

/-! ## Barycentric coordinates of lattice cells -/

/-- `β` gives the weights of a point with respect to a lattice cell. -/
def IsBary (P : List (Fin m → ℕ)) (β : (Fin m → K) → List K) : Prop :=
  (∀ w ξ, w.sum = 1 → LComb P w ξ → w = β ξ) ∧ ∀ ξ, (β ξ).sum = 1 ∧ LComb P (β ξ) ξ

omit [IsStrictOrderedRing K] in
theorem IsBary.lin {P : List (Fin m → ℕ)} {β : (Fin m → K) → List K} (h : IsBary P β) (ξ : Fin m → K) : LIn P ξ ↔ ∀ b ∈ β ξ, 0 ≤ b := by
  constructor
  · rintro ⟨w, w1, w2, w3⟩
    rw [← h.1 w ξ w2 w3]
    exact w1
  · intro hb
    exact ⟨β ξ, hb, (h.2 ξ).1, (h.2 ξ).2⟩

omit [IsStrictOrderedRing K] in
theorem IsBary.lint {P : List (Fin m → ℕ)} {β : (Fin m → K) → List K} (h : IsBary P β) (ξ : Fin m → K) : LInt P ξ ↔ ∀ b ∈ β ξ, 0 < b := by
  constructor
  · rintro ⟨w, w1, w2, w3⟩
    rw [← h.1 w ξ w2 w3]
    exact w1
  · intro hb
    exact ⟨β ξ, hb, (h.2 ξ).1, (h.2 ξ).2⟩

/-- Inside the open unit cube at `p`. -/
def OpenCube (p : Fin m → ℕ) (ξ : Fin m → K) : Prop := ∀ k, (p k : K) < ξ k ∧ ξ k < p k + 1

theorem cube_unique {p q : Fin m → ℕ} {ξ : Fin m → K} (hp : OpenCube p ξ) (hq : OpenCube q ξ) : p = q := by
  funext k
  have h1 : (p k : K) < q k + 1 := (hp k).1.trans (hq k).2
  have h2 : (q k : K) < p k + 1 := (hq k).1.trans (hp k).2
  have h1' : p k < q k + 1 := by exact_mod_cast h1
  have h2' : q k < p k + 1 := by exact_mod_cast h2
  omega

/-- Cells inside the cubes of a list without repetition are disjoint if the ones of the same cube are. -/
theorem disjoint_cubes (L : List (Fin m → ℕ)) (hL : L.Nodup) (g : (Fin m → ℕ) → List (List (Fin m → ℕ)))
    (hin : ∀ p ∈ L, ∀ P ∈ g p, ∀ ξ : Fin m → K, LInt P ξ → OpenCube p ξ)
    (hdis : ∀ p ∈ L, (g p).Pairwise fun P Q => ¬∃ ξ : Fin m → K, LInt P ξ ∧ LInt Q ξ) :
    (L.flatMap g).Pairwise fun P Q => ¬∃ ξ : Fin m → K, LInt P ξ ∧ LInt Q ξ := by
  rw [List.pairwise_flatMap]
  refine ⟨hdis, ?_⟩
  refine List.Pairwise.imp_of_mem ?_ hL
  rintro p q hp hq hne P hP Q hQ ⟨ξ, h1, h2⟩
  exact hne (cube_unique (hin p hp P hP ξ h1) (hin q hq Q hQ ξ h2))

/-- A number between 0 and `N ≥ 1` lies in one of the unit intervals. -/
theorem exists_unit (N : Nat) (hN : 1 ≤ N) (t : K) (h0 : 0 ≤ t) (h1 : t ≤ N) : ∃ p < N, (p : K) ≤ t ∧ t ≤ p + 1 := by
  induction N with
  | zero => omega
  | succ N ih =>
    by_cases h : (N : K) ≤ t
    · exact ⟨N, Nat.lt_succ_self N, h, by push_cast at h1; exact h1⟩
    · rw [not_le] at h
      have hN' : 1 ≤ N := by
        by_contra hc
        have : N = 0 := by omega
        subst this
        push_cast at h
        exact absurd h0 (not_le.2 h)
      obtain ⟨p, hp, h2⟩ := ih hN' h.le
      exact ⟨p, by omega, h2⟩

/-! ## Triangles in the plane -/

/-- The lower left triangle of a unit square. -/
def lower (p : Fin 2 → ℕ) : List (Fin 2 → ℕ) := [p, ![p 0 + 1, p 1], ![p 0, p 1 + 1]]

/-- The upper right triangle of a unit square. -/
def upper (p : Fin 2 → ℕ) : List (Fin 2 → ℕ) := [![p 0 + 1, p 1], ![p 0 + 1, p 1 + 1], ![p 0, p 1 + 1]]

omit [LinearOrder K] [IsStrictOrderedRing K] in
theorem bary_lower (p : Fin 2 → ℕ) :
    IsBary (lower p) (fun ξ : Fin 2 → K => [1 - (ξ 0 - p 0) - (ξ 1 - p 1), ξ 0 - p 0, ξ 1 - p 1]) := by
  constructor
  · rintro w ξ h2 ⟨h3, h4⟩
    match w, h3 with
    | [a, b, c], _ =>
      have e0 := h4 0
      have e1 := h4 1
      simp [lower, wsum] at h2 e0 e1
      have ha : a = 1 - b - c := by linear_combination h2
      subst ha
      have hb : b = ξ 0 - p 0 := by linear_combination e0
      have hc : c = ξ 1 - p 1 := by linear_combination e1
      rw [hb, hc]
  · intro ξ
    refine ⟨by simp, rfl, ?_⟩
    intro k
    match k with
    | 0 => simp [lower, wsum]; ring
    | 1 => simp [lower, wsum]; ring

omit [LinearOrder K] [IsStrictOrderedRing K] in
theorem bary_upper (p : Fin 2 → ℕ) :
    IsBary (upper p) (fun ξ : Fin 2 → K => [1 - (ξ 1 - p 1), (ξ 0 - p 0) + (ξ 1 - p 1) - 1, 1 - (ξ 0 - p 0)]) := by
  constructor
  · rintro w ξ h2 ⟨h3, h4⟩
    match w, h3 with
    | [a, b, c], _ =>
      have e0 := h4 0
      have e1 := h4 1
      simp [upper, wsum] at h2 e0 e1
      have hb : b = 1 - a - c := by linear_combination h2
      subst hb
      have hc : c = 1 - (ξ 0 - p 0) := by linear_combination -e0
      have ha : a = 1 - (ξ 1 - p 1) := by linear_combination -e1
      rw [ha, hc]
      congr 2
      ring
  · intro ξ
    refine ⟨by simp, rfl, ?_⟩
    intro k
    match k with
    | 0 => simp [upper, wsum]; ring
    | 1 => simp [upper, wsum]; ring

theorem alcove_lower (p : Fin 2 → ℕ) : IsAlcove (lower p) := by
  intro i j
  fin_cases i <;> fin_cases j <;> simp [level, lower, Fin.sum_univ_two] <;> omega

theorem alcove_upper (p : Fin 2 → ℕ) : IsAlcove (upper p) := by
  intro i j
  fin_cases i <;> fin_cases j <;> simp [level, upper, Fin.sum_univ_two] <;> omega

theorem lower_cube (p : Fin 2 → ℕ) (ξ : Fin 2 → K) (h : LInt (lower p) ξ) : OpenCube p ξ := by
  rw [(bary_lower p).lint] at h
  simp at h
  intro k
  match k with
  | 0 => constructor <;> linarith [h.1, h.2.1, h.2.2]
  | 1 => constructor <;> linarith [h.1, h.2.1, h.2.2]

theorem upper_cube (p : Fin 2 → ℕ) (ξ : Fin 2 → K) (h : LInt (upper p) ξ) : OpenCube p ξ := by
  rw [(bary_upper p).lint] at h
  simp at h
  intro k
  match k with
  | 0 => constructor <;> linarith [h.1, h.2.1, h.2.2]
  | 1 => constructor <;> linarith [h.1, h.2.1, h.2.2]

theorem lower_upper (p : Fin 2 → ℕ) : ¬∃ ξ : Fin 2 → K, LInt (lower p) ξ ∧ LInt (upper p) ξ := by
  rintro ⟨ξ, h1, h2⟩
  rw [(bary_lower p).lint] at h1
  rw [(bary_upper p).lint] at h2
  simp at h1 h2
  linarith [h1.1, h2.2.1]

/-- The squares of a rectangle. -/
def gridSquares (w h : Nat) : List (Fin 2 → ℕ) := (List.range (h - 1)).flatMap fun i => (List.range (w - 1)).map fun j => ![j, i]

theorem mem_gridSquares {w h : Nat} {p : Fin 2 → ℕ} : p ∈ gridSquares w h ↔ p 0 < w - 1 ∧ p 1 < h - 1 := by
  simp only [gridSquares, List.mem_flatMap, List.mem_map, List.mem_range]
  constructor
  · rintro ⟨i, hi, j, hj, rfl⟩
    exact ⟨hj, hi⟩
  · rintro ⟨h1, h2⟩
    refine ⟨p 1, h2, p 0, h1, ?_⟩
    funext k
    match k with
    | 0 => rfl
    | 1 => rfl

theorem nodup_gridSquares (w h : Nat) : (gridSquares w h).Nodup := by
  unfold gridSquares
  rw [List.nodup_flatMap]
  refine ⟨fun i _ => ?_, ?_⟩
  · refine List.Nodup.map ?_ List.nodup_range
    intro a b hab
    exact congrFun hab 0
  · refine List.Pairwise.imp_of_mem ?_ (List.nodup_range (n := h - 1))
    intro i i' _ _ hne p hp hp'
    obtain ⟨j, -, rfl⟩ := List.mem_map.1 hp
    obtain ⟨j', -, h'⟩ := List.mem_map.1 hp'
    exact hne (congrFun h' 1).symm

/-- The rectangle is tiled by the triangles of the squares. -/
theorem grid_tiles (w h : Nat) (hw : 1 < w) (hh : 1 < h) :
    LTiles ((gridSquares w h).flatMap fun p => [lower p, upper p])
      {ξ : Fin 2 → K | (0 ≤ ξ 0 ∧ ξ 0 ≤ ((w - 1 : ℕ) : K)) ∧ (0 ≤ ξ 1 ∧ ξ 1 ≤ ((h - 1 : ℕ) : K))} := by
  constructor
  · rintro ξ ⟨⟨a0, a1⟩, ⟨b0, b1⟩⟩
    obtain ⟨j, hj, j1, j2⟩ := exists_unit (w - 1) (by omega) (ξ 0) a0 a1
    obtain ⟨i, hi, i1, i2⟩ := exists_unit (h - 1) (by omega) (ξ 1) b0 b1
    by_cases hs : ξ 0 + ξ 1 ≤ j + i + 1
    · refine ⟨lower ![j, i], List.mem_flatMap.2 ⟨![j, i], mem_gridSquares.2 ⟨hj, hi⟩, by simp⟩, ?_⟩
      rw [(bary_lower _).lin]
      simp
      refine ⟨?_, j1, i1⟩
      linarith
    · refine ⟨upper ![j, i], List.mem_flatMap.2 ⟨![j, i], mem_gridSquares.2 ⟨hj, hi⟩, by simp⟩, ?_⟩
      rw [(bary_upper _).lin]
      simp
      refine ⟨?_, ?_, ?_⟩ <;> linarith
  · intro P hP ξ hξ
    obtain ⟨p, hp, hP⟩ := List.mem_flatMap.1 hP
    obtain ⟨h1, h2⟩ := mem_gridSquares.1 hp
    have c1 : (p 0 : K) + 1 ≤ ((w - 1 : ℕ) : K) := by exact_mod_cast h1
    have c2 : (p 1 : K) + 1 ≤ ((h - 1 : ℕ) : K) := by exact_mod_cast h2
    have c3 : (0 : K) ≤ p 0 := Nat.cast_nonneg _
    have c4 : (0 : K) ≤ p 1 := Nat.cast_nonneg _
    simp only [List.mem_cons, List.not_mem_nil, or_false] at hP
    rcases hP with rfl | rfl
    · rw [(bary_lower p).lin] at hξ
      simp at hξ
      obtain ⟨k1, k2, k3⟩ := hξ
      refine ⟨⟨?_, ?_⟩, ?_, ?_⟩ <;> linarith
    · rw [(bary_upper p).lin] at hξ
      simp at hξ
      obtain ⟨k1, k2, k3⟩ := hξ
      refine ⟨⟨?_, ?_⟩, ?_, ?_⟩ <;> linarith
  · refine disjoint_cubes _ (nodup_gridSquares w h) _ ?_ ?_
    · intro p _ P hP ξ hξ
      simp only [List.mem_cons, List.not_mem_nil, or_false] at hP
      rcases hP with rfl | rfl
      · exact lower_cube p ξ hξ
      · exact upper_cube p ξ hξ
    · intro p _
      simpa using lower_upper (K := K) p
  · have hal : ∀ P ∈ (gridSquares w h).flatMap fun p => [lower p, upper p], IsAlcove P := by
      intro P hP
      obtain ⟨p, -, hP⟩ := List.mem_flatMap.1 hP
      simp only [List.mem_cons, List.not_mem_nil, or_false] at hP
      rcases hP with rfl | rfl
      · exact alcove_lower p
      · exact alcove_upper p
    exact fun P hP Q hQ ξ => common_face (hal P hP) (hal Q hQ)

/-- The squares of a triangle. -/
def triSquares (r : Nat) : List (Fin 2 → ℕ) := (MI.generateAll 2 r).map fun mi => ![mi.getD 0 0, mi.getD 1 0]

theorem mem_triSquares {r : Nat} {p : Fin 2 → ℕ} : p ∈ triSquares r ↔ p 0 + p 1 ≤ r := by
  unfold triSquares
  rw [MI.generateAll_eq_mis]
  simp only [List.mem_map, MI.mem_mis]
  constructor
  · rintro ⟨mi, ⟨h1, h2⟩, rfl⟩
    match mi, h1 with
    | [a, b], _ => simpa using h2
  · intro h
    refine ⟨[p 0, p 1], ⟨rfl, by simpa using h⟩, ?_⟩
    funext k
    match k with
    | 0 => rfl
    | 1 => rfl

theorem nodup_triSquares (r : Nat) : (triSquares r).Nodup := by
  unfold triSquares
  rw [MI.generateAll_eq_mis]
  refine List.Nodup.map_on ?_ (MI.nodup_mis 2 r)
  intro a ha b hb hab
  have h1 := (MI.mem_mis.1 ha).1
  have h2 := (MI.mem_mis.1 hb).1
  match a, b, h1, h2 with
  | [a0, a1], [b0, b1], _, _ =>
    have e0 := congrFun hab 0
    have e1 := congrFun hab 1
    simp at e0 e1
    rw [e0, e1]

/-- The triangles of a square of a triangle. -/
def triCells (r : Nat) (p : Fin 2 → ℕ) : List (List (Fin 2 → ℕ)) :=
  if p 0 + p 1 < r then lower p :: (if p 0 + p 1 + 1 < r then [upper p] else []) else []

/-- The triangle is tiled by the triangles of the squares. -/
theorem tri_tiles (r : Nat) (hr : 1 ≤ r) :
    LTiles ((triSquares r).flatMap (triCells r)) {ξ : Fin 2 → K | 0 ≤ ξ 0 ∧ 0 ≤ ξ 1 ∧ ξ 0 + ξ 1 ≤ r} := by
  constructor
  · rintro ξ ⟨a0, b0, hs⟩
    obtain ⟨i, hi, i1, i2⟩ := exists_unit r hr (ξ 1) b0 (by linarith)
    have hcast : ((r - i : ℕ) : K) = r - i := Nat.cast_sub hi.le
    obtain ⟨j, hj, j1, j2⟩ := exists_unit (r - i) (by omega) (ξ 0) a0 (by rw [hcast]; linarith)
    by_cases hs' : ξ 0 + ξ 1 ≤ j + i + 1
    · refine ⟨lower ![j, i], List.mem_flatMap.2 ⟨![j, i], mem_triSquares.2 (by simp; omega), ?_⟩, ?_⟩
      · simp only [triCells]
        rw [if_pos (by simp; omega)]
        simp
      · rw [(bary_lower _).lin]
        simp
        refine ⟨?_, j1, i1⟩
        linarith
    · have hlt : j + i + 1 < r := by
        by_contra hc
        have : (r : K) ≤ j + i + 1 := by exact_mod_cast not_lt.1 hc
        exact hs' (hs.trans this)
      refine ⟨upper ![j, i], List.mem_flatMap.2 ⟨![j, i], mem_triSquares.2 (by simp; omega), ?_⟩, ?_⟩
      · simp only [triCells]
        rw [if_pos (by simp; omega), if_pos (by simpa using hlt)]
        simp
      · rw [(bary_upper _).lin]
        simp
        refine ⟨?_, ?_, ?_⟩ <;> linarith
  · intro P hP ξ hξ
    obtain ⟨p, hp, hP⟩ := List.mem_flatMap.1 hP
    have c3 : (0 : K) ≤ p 0 := Nat.cast_nonneg _
    have c4 : (0 : K) ≤ p 1 := Nat.cast_nonneg _
    unfold triCells at hP
    split at hP
    · rename_i h1
      have h1' : (p 0 : K) + p 1 + 1 ≤ r := by exact_mod_cast h1
      rcases List.mem_cons.1 hP with rfl | hP
      · rw [(bary_lower p).lin] at hξ
        simp at hξ
        obtain ⟨k1, k2, k3⟩ := hξ
        refine ⟨?_, ?_, ?_⟩ <;> linarith
      · split at hP
        · rename_i h2
          have h2' : (p 0 : K) + p 1 + 1 + 1 ≤ r := by exact_mod_cast h2
          rw [List.mem_singleton.1 hP, (bary_upper p).lin] at hξ
          simp at hξ
          obtain ⟨k1, k2, k3⟩ := hξ
          refine ⟨?_, ?_, ?_⟩ <;> linarith
        · simp at hP
    · simp at hP
  · refine disjoint_cubes _ (nodup_triSquares r) _ ?_ ?_
    · intro p _ P hP ξ hξ
      unfold triCells at hP
      split at hP
      · rcases List.mem_cons.1 hP with rfl | hP
        · exact lower_cube p ξ hξ
        · split at hP
          · rw [List.mem_singleton.1 hP] at hξ
            exact upper_cube p ξ hξ
          · simp at hP
      · simp at hP
    · intro p _
      unfold triCells
      split
      · split
        · simpa using lower_upper (K := K) p
        · simp
      · simp
  · have hal : ∀ P ∈ (triSquares r).flatMap (triCells r), IsAlcove P := by
      intro P hP
      obtain ⟨p, -, hP⟩ := List.mem_flatMap.1 hP
      unfold triCells at hP
      split at hP
      · rcases List.mem_cons.1 hP with rfl | hP
        · exact alcove_lower p
        · split at hP
          · rw [List.mem_singleton.1 hP]
            exact alcove_upper p
          · simp at hP
      · simp at hP
    exact fun P hP Q hQ ξ => common_face (hal P hP) (hal Q hQ)

end Verif.Mesh
