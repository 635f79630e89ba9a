import Mathlib.Algebra.BigOperators.Ring.Finset
import Mathlib.Algebra.BigOperators.Group.List.Lemmas
import Mathlib.Data.Fin.Tuple.Sort
import Mathlib.Data.List.NodupEquivFin
import Mathlib.GroupTheory.Perm.Fin
import Mathlib.Algebra.BigOperators.Fin
import Mathlib.Order.Interval.Finset.Fin
import Mathlib.Tactic.Ring
import Mathlib.Tactic.LinearCombination
import Verif.Model.SimplicialComplex
import Verif.Props.Permutations
import Verif.Spec.SimplicialComplex
/-!
# Alternating sums over the facets of a list
-/

namespace Verif.Complex
open Verif Verif.Perm Verif.Spec

section bd
variable {R : Type*} [CommRing R]

/-- Alternating sum of `α` over the lists with one entry removed. -/
def bd (α : List Nat → R) : List Nat → R
  | [] => 0
  | x :: l => α l - bd (fun m => α (x :: m)) l

theorem bd_eq_sum (s : List Nat) : ∀ (α : List Nat → R), bd α s = ((List.range s.length).map (fun (i : Nat) => (-1) ^ i * α (s.eraseIdx i))).sum := by
  induction s with
  | nil => intro α; rfl
  | cons x l ih =>
    intro α
    rw [bd, ih, List.length_cons, List.range_succ_eq_map, List.map_cons, List.sum_cons, List.map_map]
    have : ((List.range l.length).map ((fun (i : Nat) => (-1 : R) ^ i * α ((x :: l).eraseIdx i)) ∘ Nat.succ)) =
        (List.range l.length).map (fun (i : Nat) => - ((-1) ^ i * α (x :: l.eraseIdx i))) := by
      apply List.map_congr_left
      intro i _
      simp [pow_succ]
    rw [this]
    have h2 : ∀ (m : List Nat) (f : Nat → R), (m.map (fun (i : Nat) => - f i)).sum = - (m.map f).sum := by
      intro m f
      induction m with
      | nil => simp
      | cons a m ih => simp [ih]; ring
    rw [h2]
    simp; ring

theorem bd_sub (s : List Nat) : ∀ (α β : List Nat → R), bd (fun m => α m - β m) s = bd α s - bd β s := by
  induction s with
  | nil => intro α β; simp [bd]
  | cons x l ih => intro α β; simp only [bd]; rw [ih]; ring

theorem bd_neg (s : List Nat) : ∀ (α : List Nat → R), bd (fun m => - α m) s = - bd α s := by
  induction s with
  | nil => intro α; simp [bd]
  | cons x l ih => intro α; simp only [bd]; rw [ih]; ring

/-- The boundary of a boundary is zero. -/
theorem bd_bd (s : List Nat) : ∀ (α : List Nat → R), bd (bd α) s = 0 := by
  induction s with
  | nil => intro α; rfl
  | cons x l ih =>
    intro α
    have : (fun m => bd α (x :: m)) = fun m => α m - bd (fun k => α (x :: k)) m := rfl
    rw [bd, this, bd_sub, ih]; ring

/-- `f` changes sign when two neighbouring entries change places. -/
def Alternating (f : List Nat → R) : Prop := ∀ l a b r, f (l ++ a :: b :: r) = - f (l ++ b :: a :: r)

theorem Alternating.cons {f : List Nat → R} (h : Alternating f) (x : Nat) : Alternating (fun m => f (x :: m)) :=
  fun l a b r => h (x :: l) a b r

theorem alternating_bd : ∀ (l : List Nat) (α : List Nat → R), Alternating α → ∀ a b r, bd α (l ++ a :: b :: r) = - bd α (l ++ b :: a :: r) := by
  intro l
  induction l with
  | nil =>
    intro α h a b r
    have : (fun m => α (a :: b :: m)) = fun m => - α (b :: a :: m) := by funext m; exact h [] a b m
    simp only [List.nil_append, bd]
    rw [this, bd_neg]; ring
  | cons x l ih =>
    intro α h a b r
    simp only [List.cons_append, bd]
    rw [h l a b r, ih _ (h.cons x) a b r]; ring

theorem Alternating.bd {α : List Nat → R} (h : Alternating α) : Alternating (bd α) := fun l a b r => alternating_bd l α h a b r

end bd

/-- The sign of the permutation that sorts a list: the product over all pairs of positions. -/
def chi (a b : Nat) : ℤ := if a < b then 1 else -1

theorem chi_swap {a b : Nat} (h : a ≠ b) : chi a b = - chi b a := by
  unfold chi; split <;> split <;> first | omega | rfl

theorem chi_sq (a b : Nat) : chi a b * chi a b = 1 := by unfold chi; split <;> rfl

def sgn : List Nat → ℤ
  | [] => 1
  | x :: l => (l.map (chi x)).prod * sgn l

theorem prod_chi_sq (x : Nat) (l : List Nat) : (l.map (chi x)).prod * (l.map (chi x)).prod = 1 := by
  induction l with
  | nil => rfl
  | cons a l ih =>
    rw [List.map_cons, List.prod_cons]
    have := chi_sq x a
    linear_combination (chi x a * chi x a) * ih + this

theorem sgn_sq (l : List Nat) : sgn l * sgn l = 1 := by
  induction l with
  | nil => rfl
  | cons a l ih =>
    rw [sgn]
    have := prod_chi_sq a l
    linear_combination ((l.map (chi a)).prod * (l.map (chi a)).prod) * ih + this

theorem sgn_swap : ∀ (l : List Nat) (a b : Nat) (r : List Nat), a ≠ b → sgn (l ++ a :: b :: r) = - sgn (l ++ b :: a :: r) := by
  intro l
  induction l with
  | nil =>
    intro a b r h
    simp only [List.nil_append, sgn, List.map_cons, List.prod_cons]
    rw [chi_swap h]; ring
  | cons x l ih =>
    intro a b r h
    simp only [List.cons_append, sgn]
    rw [ih a b r h]
    have : ((l ++ a :: b :: r).map (chi x)).prod = ((l ++ b :: a :: r).map (chi x)).prod :=
      ((List.Perm.append_left l (List.Perm.swap b a r)).map _).prod_eq
    rw [this]; ring

/-- An alternating function takes the sign of the rearrangement. -/
theorem alternating_perm {R : Type*} [CommRing R] {s u : List Nat} (h : u.Perm s) : ∀ (f : List Nat → R), s.Nodup → Alternating f →
    f u = ((sgn u * sgn s : ℤ) : R) * f s := by
  induction h with
  | nil => intro f _ _; simp [sgn]
  | @cons x l1 l2 hp ih =>
    intro f hn hf
    have := ih (fun m => f (x :: m)) (List.nodup_cons.1 hn).2 (hf.cons x)
    rw [this, sgn, sgn, (hp.map (chi x)).prod_eq]
    have h2 := congrArg (Int.cast : ℤ → R) (prod_chi_sq x l2)
    push_cast at h2 ⊢
    linear_combination (-(sgn l1 : R) * (sgn l2) * f (x :: l2)) * h2
  | swap x y l =>
    intro f hn hf
    have hxy : y ≠ x := by
      rintro rfl; simp at hn
    rw [show f (y :: x :: l) = - f (x :: y :: l) from hf [] y x l, show sgn (y :: x :: l) = - sgn (x :: y :: l) from sgn_swap [] y x l hxy]
    have h2 := congrArg (Int.cast : ℤ → R) (sgn_sq (x :: y :: l))
    push_cast at h2 ⊢
    linear_combination (f (x :: y :: l)) * h2
  | @trans l1 l2 l3 h1 h2 ih1 ih2 =>
    intro f hn hf
    rw [ih1 f (h2.nodup_iff.2 hn) hf, ih2 f hn hf]
    have h3 := congrArg (Int.cast : ℤ → R) (sgn_sq l2)
    push_cast at h3 ⊢
    linear_combination ((sgn l1 : R) * (sgn l3 : R) * f l3) * h3

/-- The orientation of `u` relative to `t`: 0 unless `u` is a rearrangement of `t`. -/
def orient (t u : List Nat) : ℤ := if u.Perm t then sgn t * sgn u else 0

theorem alternating_orient {t : List Nat} (ht : t.Nodup) : Alternating (orient t) := by
  intro l a b r
  unfold orient
  have hp : (l ++ a :: b :: r).Perm (l ++ b :: a :: r) := List.Perm.append_left l (List.Perm.swap b a r)
  by_cases h : (l ++ b :: a :: r).Perm t
  · rw [if_pos h, if_pos (hp.trans h)]
    have hab : a ≠ b := by
      rintro rfl
      have := h.nodup_iff.2 ht
      simp [List.nodup_append] at this
    rw [sgn_swap l a b r hab]; ring
  · rw [if_neg h, if_neg (fun h' => h (hp.symm.trans h'))]; rfl

theorem sgn_ofFn : ∀ (n : Nat) (f : Fin n → Nat), sgn (List.ofFn f) = ∏ i : Fin n, ∏ j ∈ Finset.Ioi i, chi (f i) (f j) := by
  intro n
  induction n with
  | zero => intro f; simp [sgn]
  | succ n ih =>
    intro f
    rw [List.ofFn_succ, sgn, ih, Fin.prod_univ_succ]
    congr 1
    · rw [List.map_ofFn, List.prod_ofFn, Fin.prod_Ioi_zero]; rfl
    · apply Finset.prod_congr rfl
      intro i _
      rw [Fin.prod_Ioi_succ]

theorem prod_chi_perm {n : Nat} (σ : Equiv.Perm (Fin n)) :
    ∏ i : Fin n, ∏ j ∈ Finset.Ioi i, chi (σ i) (σ j) = ((Equiv.Perm.sign σ : ℤˣ) : ℤ) := by
  rw [Equiv.Perm.sign_eq_prod_prod_Ioi]
  push_cast
  apply Finset.prod_congr rfl; intro i _
  apply Finset.prod_congr rfl; intro j _
  unfold chi
  by_cases h : σ i < σ j
  · rw [if_pos h, if_pos (by exact_mod_cast h)]; rfl
  · rw [if_neg h, if_neg (by exact_mod_cast h)]; rfl

theorem sgn_reorder {n : Nat} (f : Fin n → Nat) (hf : Function.Injective f) (e : Equiv.Perm (Fin n)) :
    sgn (List.ofFn (fun i => f (e i))) = ((Equiv.Perm.sign e : ℤˣ) : ℤ) * sgn (List.ofFn f) := by
  have hm : StrictMono (f ∘ Tuple.sort f) := (Tuple.monotone_sort f).strictMono_of_injective (hf.comp (Tuple.sort f).injective)
  have hchi : ∀ i j, chi (f i) (f j) = chi ((Tuple.sort f)⁻¹ i) ((Tuple.sort f)⁻¹ j) := by
    intro i j
    have h1 : f i < f j ↔ (Tuple.sort f)⁻¹ i < (Tuple.sort f)⁻¹ j := by
      rw [← hm.lt_iff_lt]; simp
    unfold chi
    by_cases h : f i < f j
    · rw [if_pos h, if_pos (by exact_mod_cast h1.1 h)]
    · rw [if_neg h, if_neg (by intro h'; exact h (h1.2 (by exact_mod_cast h')))]
  rw [sgn_ofFn, sgn_ofFn]
  simp only [hchi]
  rw [prod_chi_perm (Tuple.sort f)⁻¹]
  have := prod_chi_perm ((Tuple.sort f)⁻¹ * e)
  simp only [Equiv.Perm.mul_apply] at this
  rw [this]; simp [mul_comm]

theorem Reorders.spec {t u : List Nat} {ε : ℤ} (ht : t.Nodup) (h : Reorders t u ε) : u.Perm t ∧ sgn u = ε * sgn t := by
  obtain ⟨e, rfl, rfl⟩ := h
  have h0 : List.ofFn (fun i : Fin t.length => t[i]) = t := by simp
  constructor
  · have h1 : (List.ofFn (fun i : Fin t.length => t[e i])).Perm (List.ofFn (fun i : Fin t.length => t[i])) := by
      have := Equiv.Perm.ofFn_comp_perm e (fun i : Fin t.length => t[i])
      exact this
    exact h1.trans (by rw [h0])
  · have := sgn_reorder (fun i : Fin t.length => t[i]) (List.nodup_iff_injective_get.1 ht) e
    rw [h0] at this
    exact this

theorem exists_reorder {t u : List Nat} (ht : t.Nodup) (h : u.Perm t) : Reorders t u (sgn t * sgn u) := by
  obtain ⟨e, _, h2⟩ := Verif.Props.general_p t u ht h
  have h3 : Reorders t u ((Equiv.Perm.sign e : ℤˣ) : ℤ) := ⟨e, h2, rfl⟩
  have h4 := (Reorders.spec ht h3).2
  have h5 := sgn_sq t
  have : sgn t * sgn u = ((Equiv.Perm.sign e : ℤˣ) : ℤ) := by rw [h4]; linear_combination ((Equiv.Perm.sign e : ℤˣ) : ℤ) * h5
  rw [this]; exact h3

theorem sign_general {t u : List Nat} (ht : t.Nodup) (h : u.Perm t) :
    (do let p ← constructPermutationGeneral t u true; sign p) = .ok (sgn t * sgn u) := by
  obtain ⟨e, h1, h2⟩ := Verif.Props.general_p t u ht h
  unfold constructPermutationGeneral
  rw [h1]
  simp only [Py.bind_ok, if_true, Py.pure_eq]
  rw [sign_oneLine]
  have h4 := (Reorders.spec ht ⟨e, h2, rfl⟩).2
  rw [h4]
  have h5 := sgn_sq t
  congr 1
  linear_combination - ((Equiv.Perm.sign e : ℤˣ) : ℤ) * h5

theorem swapLastTwo_append {α : Type*} (m : List α) (a b : α) : swapLastTwo (m ++ [a, b]) = .ok (m ++ [b, a]) := by
  have h1 : pyGet (m ++ [a, b]) (-2) = .ok a := by
    unfold pyGet
    have : ((-2 : Int) + ((m ++ [a, b]).length : Int)) = (m.length : Int) := by simp
    rw [if_neg (by omega), this, if_pos (by omega)]
    simp
  have h2 : pyGet (m ++ [a, b]) (-1) = .ok b := by
    unfold pyGet
    have : ((-1 : Int) + ((m ++ [a, b]).length : Int)) = ((m.length + 1 : Nat) : Int) := by simp; omega
    rw [if_neg (by omega), this, if_pos (by omega)]
    simp
  have h3 : pySet (m ++ [a, b]) (-1) a = .ok (m ++ [a, a]) := by
    unfold pySet
    have : ((-1 : Int) + ((m ++ [a, b]).length : Int)) = ((m.length + 1 : Nat) : Int) := by simp; omega
    rw [if_neg (by omega), this, if_pos (by omega)]
    simp [List.set_append]
  have h4 : pySet (m ++ [a, a]) (-2) b = .ok (m ++ [b, a]) := by
    unfold pySet
    have : ((-2 : Int) + ((m ++ [a, a]).length : Int)) = (m.length : Int) := by simp
    rw [if_neg (by omega), this, if_pos (by omega)]
    simp [List.set_append]
  unfold swapLastTwo
  rw [h1, h2]; simp only [Py.bind_ok]; rw [h3]; simp only [Py.bind_ok]; rw [h4]

theorem exists_last_two {α : Type*} (l : List α) (h : 2 ≤ l.length) : ∃ m a b, l = m ++ [a, b] := by
  refine ⟨l.take (l.length - 2), l[l.length - 2], l[l.length - 1], ?_⟩
  have h1 : l = l.take (l.length - 2) ++ l.drop (l.length - 2) := (List.take_append_drop _ _).symm
  have h2 : l.drop (l.length - 2) = [l[l.length - 2], l[l.length - 1]] := by
    rw [List.drop_eq_getElem_cons (by omega), List.drop_eq_getElem_cons (by omega), List.drop_of_length_le (by omega)]
    congr 2
    simp only [show l.length - 2 + 1 = l.length - 1 by omega]
  rw [← h2, ← h1]

theorem swapLastTwo_short {α : Type*} (l : List α) (h : l.length < 2) : swapLastTwo l = .error .index := by
  unfold swapLastTwo pyGet
  rw [if_neg (by omega), if_neg (by omega)]; rfl

/-- A facet is `s` without entry `i`, with the last two entries exchanged for odd `i`. -/
theorem facet_ok (s : List Nat) (i : Nat) : ∃ f, facet s i = .ok f ∧ f.Perm (s.eraseIdx i) ∧
    (s.Nodup → 3 ≤ s.length → i < s.length → sgn f = (-1) ^ i * sgn (s.eraseIdx i)) ∧ (s.length ≤ 2 → i < s.length → f = s.eraseIdx i) := by
  unfold facet
  have hlen : i < s.length → (s.eraseIdx i).length = s.length - 1 := fun h => List.length_eraseIdx_of_lt h
  by_cases h : i % 2 = 1 ∧ (s.eraseIdx i).length > 1
  · rw [if_pos h]
    obtain ⟨m, a, b, hm⟩ := exists_last_two (s.eraseIdx i) h.2
    refine ⟨m ++ [b, a], by rw [hm]; exact swapLastTwo_append m a b, ?_, ?_, ?_⟩
    · rw [hm]; exact List.Perm.append_left m (List.Perm.swap a b [])
    · intro hn _ _
      have hab : b ≠ a := by
        rintro rfl
        have : (s.eraseIdx i).Nodup := hn.sublist (List.eraseIdx_sublist s i)
        rw [hm] at this; simp [List.nodup_append] at this
      rw [hm, sgn_swap m b a [] hab]
      rw [Odd.neg_one_pow (Nat.odd_iff.2 h.1)]; ring
    · intro h1 h2
      have := hlen h2
      have := h.2
      omega
  · rw [if_neg h]
    refine ⟨_, rfl, List.Perm.refl _, ?_, fun _ _ => rfl⟩
    intro hn h3 hi
    have := hlen hi
    have he : Even i := by
      rw [Nat.even_iff]
      rcases Nat.mod_two_eq_zero_or_one i with h4 | h4
      · exact h4
      · exact absurd ⟨h4, by omega⟩ h
    rw [he.neg_one_pow, one_mul]

theorem mapM_exists {β γ : Type*} {f : β → Py γ} (P : β → γ → Prop) (l : List β) (h : ∀ x ∈ l, ∃ y, f x = .ok y ∧ P x y) :
    ∃ ys, l.mapM f = .ok ys ∧ List.Forall₂ P l ys := by
  induction l with
  | nil => exact ⟨[], rfl, List.Forall₂.nil⟩
  | cons a l ih =>
    obtain ⟨y, h1, h2⟩ := h a (by simp)
    obtain ⟨ys, h3, h4⟩ := ih (fun x hx => h x (by simp [hx]))
    exact ⟨y :: ys, by rw [List.mapM_cons, h1, h3]; rfl, List.Forall₂.cons h2 h4⟩

theorem mapM_error {β γ : Type*} {f : β → Py γ} {e : PyErr} (l : List β) (h : ∀ x ∈ l, (∃ y, f x = .ok y) ∨ f x = .error e)
    (hx : ∃ x ∈ l, f x = .error e) : l.mapM f = .error e := by
  induction l with
  | nil => obtain ⟨x, hx, _⟩ := hx; simp at hx
  | cons a l ih =>
    rw [List.mapM_cons]
    rcases h a (by simp) with ⟨y, hy⟩ | hy
    · rw [hy]
      simp only [Py.bind_ok]
      rw [ih (fun x hx => h x (by simp [hx]))]
      · rfl
      · obtain ⟨x, h1, h2⟩ := hx
        rcases List.mem_cons.1 h1 with rfl | h3
        · rw [hy] at h2; cases h2
        · exact ⟨x, h3, h2⟩
    · rw [hy]; rfl

theorem simplexBoundary_ok (s : List Nat) (h : 1 ≤ s.length) : ∃ fs, simplexBoundary s = .ok fs ∧
    (s.length = 1 → fs = []) ∧ (2 ≤ s.length → List.Forall₂ (fun i f => f.Perm (s.eraseIdx i) ∧
    (s.Nodup → 3 ≤ s.length → i < s.length → sgn f = (-1) ^ i * sgn (s.eraseIdx i)) ∧ (s.length ≤ 2 → i < s.length → f = s.eraseIdx i))
    (List.range s.length) fs) := by
  unfold simplexBoundary
  by_cases h1 : s.length = 1
  · rw [if_pos h1]; exact ⟨[], rfl, fun _ => rfl, fun h2 => absurd h1 (by omega)⟩
  · rw [if_neg h1, if_neg (by omega)]
    obtain ⟨fs, h2, h3⟩ := mapM_exists _ (List.range s.length) (fun i _ => facet_ok s i)
    exact ⟨fs, h2, fun h => absurd h h1, fun _ => h3⟩

theorem sorted_perm (s : List Nat) : (sorted s).Perm s := List.perm_insertionSort _ s

theorem sorted_eq_iff {s t : List Nat} : sorted s = sorted t ↔ s.Perm t := by
  constructor
  · intro h; exact (sorted_perm s).symm.trans (h ▸ sorted_perm t)
  · intro h
    exact ((sorted_perm s).trans (h.trans (sorted_perm t).symm)).eq_of_pairwise' (List.pairwise_insertionSort _ _) (List.pairwise_insertionSort _ _)

theorem sorted_sorted (s : List Nat) : sorted (sorted s) = sorted s := sorted_eq_iff.2 (sorted_perm s)

/-- What the variables of `boundary` look like after the facets `l` have been processed. -/
structure BInv (l : List (List Nat)) (st : BoundaryState) : Prop where
  idx : st.idx = l.length
  nodup : st.set.Nodup
  mem : ∀ κ, κ ∈ st.set ↔ Odd ((l.map sorted).count κ)
  keys : st.dict.map Prod.fst = st.set
  key : ∀ e ∈ st.dict, sorted e.2.1 = e.1
  sub : (st.dict.map Prod.snd).Sublist l.zipIdx
  last : ∀ e ∈ st.dict, ∃ pre post, l = pre ++ e.2.1 :: post ∧ e.1 ∉ post.map sorted

theorem boundaryStep_ok {l : List (List Nat)} {st : BoundaryState} (h : BInv l st) (b : List Nat) :
    ∃ st', boundaryStep st b = .ok st' ∧ BInv (l ++ [b]) st' := by
  have hcount : ∀ κ, ((l ++ [b]).map sorted).count κ = (l.map sorted).count κ + if sorted b = κ then 1 else 0 := by
    intro κ; rw [List.map_append, List.count_append]; simp [List.count_singleton]
  have hsubf : ∀ (q : List Nat × (List Nat × Nat) → Bool), ((st.dict.filter q).map Prod.snd).Sublist l.zipIdx :=
    fun q => ((List.filter_sublist (p := q)).map Prod.snd).trans h.sub
  have hlastf : ∀ e ∈ st.dict, e.1 ≠ sorted b → ∃ pre post, l ++ [b] = pre ++ e.2.1 :: post ∧ e.1 ∉ post.map sorted := by
    intro e he hne
    obtain ⟨pre, post, h1, h2⟩ := h.last e he
    refine ⟨pre, post ++ [b], by rw [h1]; simp, ?_⟩
    rw [List.map_append, List.mem_append]
    rintro (h3 | h3)
    · exact h2 h3
    · simp at h3; exact hne h3
  unfold boundaryStep
  by_cases hb : sorted b ∈ st.set
  · simp only [if_pos hb]
    have hd : ∃ e ∈ st.dict, e.1 = sorted b := by
      rw [← h.keys] at hb
      obtain ⟨e, h1, h2⟩ := List.mem_map.1 hb
      exact ⟨e, h1, h2⟩
    have hf : ∃ e, st.dict.find? (fun e => e.1 = sorted b) = some e := by
      rw [← Option.isSome_iff_exists, List.find?_isSome]
      obtain ⟨e, h1, h2⟩ := hd
      exact ⟨e, h1, by simpa using h2⟩
    obtain ⟨e, he⟩ := hf
    rw [he]
    refine ⟨_, rfl, ?_, ?_, ?_, ?_, ?_, ?_, ?_⟩
    · simp [h.idx]
    · exact h.nodup.erase _
    · intro κ
      rw [h.nodup.mem_erase_iff, h.mem, hcount]
      by_cases hk : sorted b = κ
      · subst hk
        rw [if_pos rfl]
        have := (h.mem _).1 hb
        simp [Nat.odd_add_one, this]
      · rw [if_neg hk]; simp [Ne.symm hk]
    · rw [h.nodup.erase_eq_filter, ← h.keys, List.filter_map]
      congr 1
      apply List.filter_congr
      intro x _; simp [bne, Function.comp]
      by_cases h3 : x.1 = sorted b <;> simp [h3]
    · intro e he; exact h.key e (List.mem_of_mem_filter he)
    · rw [List.zipIdx_append]
      exact (hsubf _).trans (List.sublist_append_left _ _)
    · intro e he
      have h3 := List.mem_filter.1 he
      exact hlastf e h3.1 (by simpa using h3.2)
  · simp only [if_neg hb]
    refine ⟨_, rfl, ?_, ?_, ?_, ?_, ?_, ?_, ?_⟩
    · simp [h.idx]
    · rw [List.nodup_append]
      refine ⟨h.nodup, by simp, ?_⟩
      intro a ha c hc; simp at hc; subst hc; rintro rfl; exact hb ha
    · intro κ
      rw [List.mem_append, hcount, h.mem]
      by_cases hk : sorted b = κ
      · subst hk
        rw [if_pos rfl]
        have : ¬ Odd ((l.map sorted).count (sorted b)) := fun h' => hb ((h.mem _).2 h')
        simp [Nat.odd_add_one, this]
      · rw [if_neg hk]; simp [Ne.symm hk]
    · have hfil : st.dict.filter (fun e => e.1 ≠ sorted b) = st.dict := by
        rw [List.filter_eq_self]
        intro e he
        have : e.1 ∈ st.set := by rw [← h.keys]; exact List.mem_map_of_mem he
        simp only [ne_eq, decide_not, Bool.not_eq_true', decide_eq_false_iff_not]
        rintro h3; rw [h3] at this; exact hb this
      simp only at hfil ⊢
      rw [hfil, List.map_append, h.keys]; rfl
    · intro e he
      rcases List.mem_append.1 he with h3 | h3
      · exact h.key e (List.mem_of_mem_filter h3)
      · simp at h3; rw [h3]
    · rw [List.zipIdx_append, List.map_append]
      apply (hsubf _).append
      simp [h.idx]
    · intro e he
      rcases List.mem_append.1 he with h3 | h3
      · have h3 := List.mem_filter.1 h3
        exact hlastf e h3.1 (by simpa using h3.2)
      · simp at h3; rw [h3]
        exact ⟨l, [], rfl, by simp⟩

theorem boundary_fold (m : List (List Nat)) : ∀ (l : List (List Nat)) (st : BoundaryState), BInv l st →
    ∃ st', m.foldlM boundaryStep st = .ok st' ∧ BInv (l ++ m) st' := by
  induction m with
  | nil => intro l st h; exact ⟨st, rfl, by simpa using h⟩
  | cons b m ih =>
    intro l st h
    obtain ⟨st1, h1, h2⟩ := boundaryStep_ok h b
    obtain ⟨st2, h3, h4⟩ := ih _ st1 h2
    exact ⟨st2, by rw [List.foldlM_cons, h1]; exact h3, by simpa using h4⟩

theorem boundary_fold_all (F : List Nat → List (List Nat)) (simplices : List (List Nat)) :
    ∀ (l : List (List Nat)) (st : BoundaryState), BInv l st → (∀ s ∈ simplices, simplexBoundary s = .ok (F s)) →
    ∃ st', simplices.foldlM (fun st s => do
      let bs ← simplexBoundary s
      bs.foldlM boundaryStep st) st = .ok st' ∧ BInv (l ++ simplices.flatMap F) st' := by
  induction simplices with
  | nil => intro l st h _; exact ⟨st, rfl, by simpa using h⟩
  | cons s m ih =>
    intro l st h hF
    obtain ⟨st1, h1, h2⟩ := boundary_fold (F s) l st h
    obtain ⟨st2, h3, h4⟩ := ih _ st1 h2 (fun x hx => hF x (by simp [hx]))
    refine ⟨st2, ?_, by simpa using h4⟩
    rw [List.foldlM_cons, hF s (by simp)]
    simp only [Py.bind_ok]
    rw [h1]; exact h3

theorem boundary_eq (F : List Nat → List (List Nat)) (simplices : List (List Nat)) (hF : ∀ s ∈ simplices, simplexBoundary s = .ok (F s)) :
    ∃ res, boundary simplices = .ok res ∧ res.Sublist (simplices.flatMap F) ∧
      (∀ κ, (res.map sorted).count κ = if Odd (((simplices.flatMap F).map sorted).count κ) then 1 else 0) ∧
      ∀ b ∈ res, ∃ pre post, simplices.flatMap F = pre ++ b :: post ∧ sorted b ∉ post.map sorted := by
  obtain ⟨st, h1, h2⟩ := boundary_fold_all F simplices [] ⟨[], [], 0⟩
    ⟨rfl, List.nodup_nil, by simp, rfl, by simp, by simp, by simp⟩ hF
  simp only [List.nil_append] at h2
  have hsort : (st.dict.map Prod.snd).insertionSort (fun a b => a.2 ≤ b.2) = st.dict.map Prod.snd := by
    apply List.Pairwise.insertionSort_eq
    apply List.Pairwise.sublist h2.sub
    have : (((simplices.flatMap F).zipIdx).map Prod.snd).Pairwise (· ≤ ·) := by
      rw [List.zipIdx_map_snd]
      refine List.Pairwise.imp (fun h => le_of_lt h) ?_
      exact List.pairwise_lt_range' _ (by omega)
    exact List.pairwise_map.1 this
  refine ⟨(st.dict.map Prod.snd).map Prod.fst, ?_, ?_, ?_, ?_⟩
  · unfold boundary
    rw [h1]; simp only [Py.bind_ok, Py.pure_eq, hsort]
  · have := h2.sub.map Prod.fst
    rwa [List.zipIdx_map_fst] at this
  · intro κ
    have h3 : ((st.dict.map Prod.snd).map Prod.fst).map sorted = st.set := by
      rw [← h2.keys, List.map_map, List.map_map]
      apply List.map_congr_left
      intro e he; exact h2.key e he
    rw [h3]
    by_cases h4 : κ ∈ st.set
    · rw [if_pos ((h2.mem κ).1 h4), List.count_eq_one_of_mem h2.nodup h4]
    · rw [if_neg (fun h => h4 ((h2.mem κ).2 h)), List.count_eq_zero_of_not_mem h4]
  · intro b hb
    obtain ⟨x, hx, rfl⟩ := List.mem_map.1 hb
    obtain ⟨e, he, rfl⟩ := List.mem_map.1 hx
    obtain ⟨pre, post, h5, h6⟩ := h2.last e he
    exact ⟨pre, post, h5, by rw [h2.key e he]; exact h6⟩

theorem keys_nodup {prev cur : List (List Nat)} (h : Closed prev cur) : (prev.map sorted).Nodup := by
  rw [List.Nodup, List.pairwise_map]
  exact h.distinct.imp (fun hab he => hab (sorted_eq_iff.1 he))

theorem matrixEntry_ok {prev : List (List Nat)} (hn : ∀ t ∈ prev, t.Nodup) (hk : (prev.map sorted).Nodup) (j : Nat) (bs : List Nat) (a : Int)
    (hb : ∃ t ∈ prev, bs.Perm t) :
    ∃ y, matrixEntry prev j bs a = .ok y ∧ y.2.1 = j ∧ ∀ (i : Nat) (hi : i < prev.length), (if y.1 = i then y.2.2 else 0) = orient prev[i] bs * a := by
  obtain ⟨t, ht, hp⟩ := hb
  obtain ⟨i, hi, rfl⟩ := List.mem_iff_getElem.1 ht
  have h1 : elementIndex (prev.map sorted) (sorted bs) = some i := by
    have := elementIndex_getElem (prev.map sorted) hk i (by simpa using hi)
    rw [List.getElem_map] at this
    rw [sorted_eq_iff.2 hp, this]
  refine ⟨(i, j, sgn prev[i] * sgn bs * a), ?_, rfl, ?_⟩
  · unfold matrixEntry
    rw [h1]
    simp only [keyE, Py.bind_ok]
    rw [getE_ok hi]
    simp only [Py.bind_ok]
    have := sign_general (hn _ ht) hp
    cases hc : constructPermutationGeneral prev[i] bs true with
    | error e => rw [hc] at this; simp at this
    | ok q =>
      rw [hc] at this
      simp only [Py.bind_ok] at this ⊢
      rw [this]; rfl
  · intro i' hi'
    simp only
    by_cases hii : i = i'
    · subst hii
      rw [if_pos rfl, orient, if_pos hp]
    · rw [if_neg hii, orient, if_neg, zero_mul]
      intro hp'
      apply hii
      have h3 : (prev.map sorted)[i]'(by simpa using hi) = (prev.map sorted)[i']'(by simpa using hi') := by
        rw [List.getElem_map, List.getElem_map, ← sorted_eq_iff.2 hp, sorted_eq_iff.2 hp']
      exact (hk.getElem_inj_iff).1 h3

theorem matrixEntry_missing {prev : List (List Nat)} (j : Nat) (bs : List Nat) (a : Int) (hb : ∀ t ∈ prev, ¬ bs.Perm t) :
    matrixEntry prev j bs a = .error .key := by
  unfold matrixEntry
  rw [elementIndex_none]
  · rfl
  · intro h
    obtain ⟨t, ht, h2⟩ := List.mem_map.1 h
    exact hb t ht (sorted_eq_iff.1 h2.symm)

/-- The contribution of a list of matrix entries to the element (i, j). -/
def entrySum (l : List (Nat × Nat × Int)) (i j : Nat) : Int := ((l.filter (fun e => e.1 = i ∧ e.2.1 = j)).map (fun e => e.2.2)).sum

theorem entrySum_eq (l : List (Nat × Nat × Int)) (i j : Nat) : entrySum l i j = (l.map (fun e => if e.1 = i ∧ e.2.1 = j then e.2.2 else 0)).sum := by
  unfold entrySum
  induction l with
  | nil => rfl
  | cons a l ih =>
    by_cases h : a.1 = i ∧ a.2.1 = j
    · simp [List.filter_cons, h, ← ih]
    · simp [List.filter_cons, h, ← ih]

theorem entrySum_append (l m : List (Nat × Nat × Int)) (i j : Nat) : entrySum (l ++ m) i j = entrySum l i j + entrySum m i j := by
  simp [entrySum]

theorem matrixColumn_ok {prev : List (List Nat)} (hn : ∀ t ∈ prev, t.Nodup) (hk : (prev.map sorted).Nodup) (s : List Nat) (j : Nat)
    (h2 : 2 ≤ s.length) (hf : ∀ i < s.length, ∃ t ∈ prev, (s.eraseIdx i).Perm t) :
    ∃ col, matrixColumn prev s j = .ok col ∧ ∀ (i : Nat) (hi : i < prev.length) (j' : Nat),
      entrySum col i j' = if j = j' then bd (orient prev[i]) s else 0 := by
  have hz : ((List.range s.length).map (fun (i : Nat) => s.eraseIdx i)).zip ((List.range s.length).map (fun (i : Nat) => (-1 : Int) ^ i)) =
      (List.range s.length).map (fun (i : Nat) => (s.eraseIdx i, (-1 : Int) ^ i)) := by
    rw [List.zip_map']
  obtain ⟨col, h3, h4⟩ := mapM_exists (f := fun (x : List Nat × Int) => matrixEntry prev j x.1 x.2)
    (fun x y => y.2.1 = j ∧ ∀ (i : Nat) (hi : i < prev.length), (if y.1 = i then y.2.2 else 0) = orient prev[i] x.1 * x.2)
    ((List.range s.length).map (fun (i : Nat) => (s.eraseIdx i, (-1 : Int) ^ i))) (by
      intro x hx
      obtain ⟨i, hi, rfl⟩ := List.mem_map.1 hx
      exact matrixEntry_ok hn hk j _ _ (hf i (List.mem_range.1 hi)))
  refine ⟨col, ?_, ?_⟩
  · unfold matrixColumn simplexBoundaryMap
    rw [if_neg (by omega), if_neg (by omega)]
    simp only [Py.bind_ok]
    rw [hz]; exact h3
  · intro i hi j'
    rw [entrySum_eq, bd_eq_sum]
    have h5 : ∀ (xs : List (List Nat × Int)) (col : List (Nat × Nat × Int)),
        List.Forall₂ (fun x y => y.2.1 = j ∧ ∀ (i : Nat) (hi : i < prev.length), (if y.1 = i then y.2.2 else 0) = orient prev[i] x.1 * x.2) xs col →
        (col.map (fun e => if e.1 = i ∧ e.2.1 = j' then e.2.2 else 0)).sum = if j = j' then (xs.map (fun x => x.2 * orient prev[i] x.1)).sum else 0 := by
      intro xs col h
      induction h with
      | nil => simp
      | @cons x y xs col hxy _ ih =>
        rw [List.map_cons, List.sum_cons, ih, List.map_cons, List.sum_cons]
        have h6 := hxy.2 i hi
        rw [hxy.1]
        by_cases hj : j = j'
        · simp only [hj, and_true, if_true]; rw [h6]; ring
        · simp only [hj, and_false, if_false]; rfl
    rw [h5 _ _ h4, List.map_map]; rfl

theorem boundaryMapMatrix_ok (simplices : List (List (List Nat))) (k : Nat) (hk : 1 ≤ k) (prev cur : List (List Nat)) (hp : simplices[k - 1]? = some prev)
    (hc : simplices[k]? = some cur) (h : Closed prev cur) :
    ∃ m, boundaryMapMatrix simplices k = .ok m ∧ m.rows = prev.length ∧ m.cols = cur.length ∧
      ∀ (i j : Nat) (hi : i < prev.length) (hj : j < cur.length), m.at i j = bd (orient prev[i]) cur[j] := by
  have h1 : pyGet simplices ((k : Int) - 1) = .ok prev := by
    unfold pyGet
    rw [if_pos (by omega), show ((k : Int) - 1).toNat = k - 1 by omega, hp]
  have h2 : pyGet simplices (k : Int) = .ok cur := by
    unfold pyGet
    rw [if_pos (by omega), Int.toNat_natCast, hc]
  obtain ⟨cols, h3, h4⟩ := mapM_exists (f := fun (x : List Nat × Nat) => matrixColumn prev x.1 x.2)
    (fun x col => ∀ (i : Nat) (hi : i < prev.length) (j' : Nat), entrySum col i j' = if x.2 = j' then bd (orient prev[i]) x.1 else 0)
    cur.zipIdx (by
      intro x hx
      have hx' : x.1 ∈ cur := by
        have := List.mem_map_of_mem (f := Prod.fst) hx
        rwa [List.zipIdx_map_fst] at this
      exact matrixColumn_ok h.nodup (keys_nodup h) x.1 x.2 (h.two _ hx') (h.facets _ hx'))
  refine ⟨⟨cols.flatten, prev.length, cur.length⟩, ?_, rfl, rfl, ?_⟩
  · unfold boundaryMapMatrix
    rw [h1, h2]; simp only [Py.bind_ok]; rw [h3]; rfl
  · intro i j hi hj
    show entrySum cols.flatten i j = _
    have h5 : ∀ (xs : List (List Nat × Nat)) (cols : List (List (Nat × Nat × Int))),
        List.Forall₂ (fun x col => ∀ (i : Nat) (hi : i < prev.length) (j' : Nat), entrySum col i j' = if x.2 = j' then bd (orient prev[i]) x.1 else 0) xs cols →
        entrySum cols.flatten i j = (xs.map (fun x => if x.2 = j then bd (orient prev[i]) x.1 else 0)).sum := by
      intro xs cols h
      induction h with
      | nil => rfl
      | @cons x col xs cols hx _ ih =>
        rw [List.flatten_cons, entrySum_append, ih, hx i hi j, List.map_cons, List.sum_cons]
    rw [h5 _ _ h4]
    have h6 : ∀ (l : List (List Nat)) (n : Nat) (f : List Nat → Int) (q : Nat) (hq : q < l.length),
        ((l.zipIdx n).map (fun x => if x.2 = n + q then f x.1 else 0)).sum = f l[q] := by
      intro l
      induction l with
      | nil => intro n f q hq; simp at hq
      | cons a l ih =>
        intro n f q hq
        rw [List.zipIdx_cons, List.map_cons, List.sum_cons]
        cases q with
        | zero =>
          have : ((l.zipIdx (n + 1)).map (fun x => if x.2 = n + 0 then f x.1 else 0)).sum = 0 := by
            apply List.sum_eq_zero
            intro y hy
            obtain ⟨x, hx, rfl⟩ := List.mem_map.1 hy
            have := List.le_snd_of_mem_zipIdx hx
            rw [if_neg (by omega)]
          rw [this]; simp
        | succ q =>
          have := ih (n + 1) f q (by simpa using hq)
          rw [show n + 1 + q = n + (q + 1) by omega] at this
          rw [this]; simp
    have := h6 cur 0 (bd (orient prev[i])) j hj
    rwa [Nat.zero_add] at this

/-- Summing an alternating function against the orientations picks out its value. -/
theorem sum_orient {prev : List (List Nat)} (hn : ∀ t ∈ prev, t.Nodup) (hk : prev.Pairwise (fun a b => ¬ a.Perm b)) (u : List Nat)
    (hu : ∃ t ∈ prev, u.Perm t) (β : List Nat → ℤ) (hβ : Alternating β) : (prev.map (fun t => orient t u * β t)).sum = β u := by
  induction prev with
  | nil => obtain ⟨t, ht, _⟩ := hu; simp at ht
  | cons a l ih =>
    rw [List.map_cons, List.sum_cons]
    have hk' := List.pairwise_cons.1 hk
    by_cases ha : u.Perm a
    · have : (l.map (fun t => orient t u * β t)).sum = 0 := by
        apply List.sum_eq_zero
        intro y hy
        obtain ⟨t, ht, rfl⟩ := List.mem_map.1 hy
        rw [orient, if_neg, zero_mul]
        intro h; exact hk'.1 t ht (ha.symm.trans h)
      rw [this, add_zero, orient, if_pos ha]
      have := alternating_perm ha β (hn a (by simp)) hβ
      rw [this, Int.cast_id]; ring
    · rw [orient, if_neg ha, zero_mul, zero_add]
      apply ih (fun t ht => hn t (by simp [ht])) hk'.2
      obtain ⟨t, ht, h⟩ := hu
      rcases List.mem_cons.1 ht with rfl | h'
      · exact absurd h ha
      · exact ⟨t, h', h⟩

end Verif.Complex
