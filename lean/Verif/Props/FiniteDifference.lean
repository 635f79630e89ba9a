import Verif.Model.FiniteDifference
import Mathlib.LinearAlgebra.BilinearMap
import Mathlib.LinearAlgebra.Pi
import Mathlib.Analysis.Calculus.FDeriv.Basic
import Mathlib.Analysis.Calculus.FDeriv.Comp
import Mathlib.Analysis.Calculus.Deriv.Slope
import Mathlib.Analysis.Calculus.Deriv.Comp
import Mathlib.Analysis.Calculus.Deriv.Add
import Mathlib.Analysis.Calculus.Deriv.Mul
import Mathlib.Tactic.Module
import Mathlib.Tactic.FieldSimp
import Mathlib.Tactic.Ring
import Mathlib.Tactic.NormNum
/-!
# C53: finite differences

A point of `K^n` is a function `p : Fin n → K`; the array holding it is `List.ofFn p`. `e i = Pi.single i 1` is the `i`-th unit vector.
-/

namespace Verif.FinDiff
open Verif

variable {K V : Type} [Field K] [AddCommGroup V] [Module K V]

/-- `f` computes the function `F` on arrays of length `n`. -/
def Computes {n : Nat} (f : List K → Py V) (F : (Fin n → K) → V) : Prop := ∀ p, f (List.ofFn p) = .ok (F p)

/-- The `i`-th unit vector. -/
def e {n : Nat} (i : Fin n) : Fin n → K := Pi.single i 1

theorem set_ofFn {n : Nat} (p : Fin n → K) (i : Fin n) (v : K) : (List.ofFn p).set i v = List.ofFn (Function.update p i v) := by
  apply List.ext_getElem
  · simp
  · intro k h1 h2
    rw [List.getElem_set]
    by_cases h : (i : Nat) = k
    · subst h
      simp
    · rw [if_neg h]
      simp only [List.getElem_ofFn]
      rw [Function.update_of_ne]
      intro h'
      exact h (by rw [← h'])

theorem update_add {n : Nat} (p : Fin n → K) (i : Fin n) (h : K) : Function.update p i (p i + h) = p + h • e i := by
  funext k
  by_cases hk : k = i
  · subst hk; simp [e]
  · simp [e, hk]

theorem getElem?_ofFn {n : Nat} (p : Fin n → K) (i : Fin n) : (List.ofFn p)[(i : Nat)]? = some (p i) := by
  rw [List.getElem?_eq_getElem (by simp)]
  simp

theorem forwardLoop_ok {n : Nat} (f : List K → Py V) (F : (Fin n → K) → V) (hf : Computes f F) (p : Fin n → K) (h : K) (f0 : V)
    (is : List (Fin n)) :
    forwardLoop f h f0 (is.map Fin.val) (List.ofFn p) =
      (.ok (is.map (fun i => (1 / h) • (F (p + h • e i) - f0))), List.ofFn p) := by
  induction is with
  | nil => rfl
  | cons i is ih =>
    simp only [List.map_cons, forwardLoop, getElem?_ofFn, set_ofFn, update_add]
    rw [hf]
    simp only [Function.update_idem]
    rw [← update_add, Function.update_idem, Function.update_eq_self, ih]

/-- **C53** What the forward differences (gradient, columns of the Jacobian) compute for every function, and that the caller's array is the
same afterwards. -/
theorem C53_forward_difference {n : Nat} (f : List K → Py V) (F : (Fin n → K) → V) (hf : Computes f F) (p : Fin n → K) (h : K) :
    forwardDifference f (List.ofFn p) h = (.ok (List.ofFn (fun i => (1 / h) • (F (p + h • e i) - F p))), List.ofFn p) := by
  unfold forwardDifference
  rw [hf]
  have h1 : List.range (List.ofFn p).length = (List.finRange n).map Fin.val := by simp
  simp only
  rw [h1, forwardLoop_ok f F hf, ← List.ofFn_eq_map]

theorem centralLoop_ok {n : Nat} (f : List K → Py V) (F : (Fin n → K) → V) (hf : Computes f F) (p : Fin n → K) (h : K)
    (is : List (Fin n)) :
    centralLoop f h (is.map Fin.val) (List.ofFn p) =
      (.ok (is.map (fun i => (1 / h) • (F (p + (1 / 2 * h) • e i) - F (p - (1 / 2 * h) • e i)))), List.ofFn p) := by
  induction is with
  | nil => rfl
  | cons i is ih =>
    have h2 : p i - 1 / 2 * h = p i + -(1 / 2 * h) := by ring
    have h3 : p + (-(1 / 2 * h)) • e i = p - (1 / 2 * h) • e i := by rw [neg_smul, sub_eq_add_neg]
    simp only [List.map_cons, centralLoop, getElem?_ofFn, set_ofFn]
    rw [hf]
    simp only [Function.update_idem]
    rw [hf]
    simp only [Function.update_eq_self, ih]
    rw [h2, update_add, update_add, h3]

/-- **C53** What the central differences compute for every function, and that the caller's array is the same afterwards. -/
theorem C53_central_difference {n : Nat} (f : List K → Py V) (F : (Fin n → K) → V) (hf : Computes f F) (p : Fin n → K) (h : K) :
    centralDifference f (List.ofFn p) h =
      (.ok (List.ofFn (fun i => (1 / h) • (F (p + (1 / 2 * h) • e i) - F (p - (1 / 2 * h) • e i)))), List.ofFn p) := by
  unfold centralDifference
  have h1 : List.range (List.ofFn p).length = (List.finRange n).map Fin.val := by simp
  rw [h1, centralLoop_ok f F hf, ← List.ofFn_eq_map]

/-- **C53** Forward differences are exact for affine functions. -/
theorem C53_forward_affine {n : Nat} (c : V) (L : (Fin n → K) →ₗ[K] V) (f : List K → Py V) (hf : Computes f (fun p => c + L p))
    (p : Fin n → K) (h : K) (hh : h ≠ 0) :
    forwardDifference f (List.ofFn p) h = (.ok (List.ofFn (fun i => L (e i))), List.ofFn p) := by
  rw [C53_forward_difference f _ hf]
  congr 4
  funext i
  rw [map_add, map_smul, show c + (L p + h • L (e i)) - (c + L p) = h • L (e i) from by abel, smul_smul, one_div_mul_cancel hh, one_smul]

/-- **C53** Central differences are exact for quadratic functions `c + L p + B p p` with `L` linear, `B` bilinear: the derivative in
direction `i` is `L e_i + B p e_i + B e_i p`. -/
theorem C53_central_quadratic [NeZero (2 : K)] {n : Nat} (c : V) (L : (Fin n → K) →ₗ[K] V) (B : (Fin n → K) →ₗ[K] (Fin n → K) →ₗ[K] V)
    (f : List K → Py V) (hf : Computes f (fun p => c + L p + B p p)) (p : Fin n → K) (h : K) (hh : h ≠ 0) :
    centralDifference f (List.ofFn p) h = (.ok (List.ofFn (fun i => L (e i) + B p (e i) + B (e i) p)), List.ofFn p) := by
  have h2 : (2 : K) ≠ 0 := NeZero.ne 2
  rw [C53_central_difference f _ hf]
  congr 4
  funext i
  simp only [map_add, map_sub, map_smul, LinearMap.add_apply, LinearMap.sub_apply, LinearMap.smul_apply]
  match_scalars <;> field_simp <;> ring

/-- **C53** The univariate forward and central differences are exact for affine, respectively quadratic, functions. -/
theorem C53_univariate [NeZero (2 : K)] (a b c : K) (x h : K) (hh : h ≠ 0) :
    (∀ f : K → Py K, (∀ x, f x = .ok (a + b * x)) → forward1 f x h = .ok b) ∧
      (∀ f : K → Py K, (∀ x, f x = .ok (a + b * x + c * x ^ 2)) → central1 f x h = .ok (b + 2 * c * x)) := by
  have h2 : (2 : K) ≠ 0 := NeZero.ne 2
  constructor
  · intro f hf
    simp only [forward1, hf, Py.bind_ok, Py.pure_eq, smul_eq_mul]
    congr 1
    field_simp
    ring
  · intro f hf
    simp only [central1, hf, Py.bind_ok, Py.pure_eq, smul_eq_mul]
    congr 1
    field_simp
    ring

/-- **C53** The univariate second differences are exact: the forward ones for quadratic, the central ones for cubic polynomials. -/
theorem C53_univariate_second (a b c d : K) (x h : K) (hh : h ≠ 0) :
    (∀ f : K → Py K, (∀ x, f x = .ok (a + b * x + c * x ^ 2)) → secondForward1 f x h = .ok (2 * c)) ∧
      (∀ f : K → Py K, (∀ x, f x = .ok (a + b * x + c * x ^ 2 + d * x ^ 3)) → secondCentral1 f x h = .ok (2 * c + 6 * d * x)) := by
  constructor
  · intro f hf
    simp only [secondForward1, hf, Py.bind_ok, Py.pure_eq]
    congr 1
    field_simp
    ring
  · intro f hf
    simp only [secondCentral1, hf, Py.bind_ok, Py.pure_eq]
    congr 1
    field_simp
    ring

/-- **C53** `discrete_forward_difference` is the slope of the line through the two points. -/
theorem C53_discrete (f0 x0 f1 x1 : K) (hx : x0 ≠ x1) :
    f0 + discreteForwardDifference f0 x0 f1 x1 * (x1 - x0) = f1 := by
  unfold discreteForwardDifference
  rw [div_mul_cancel₀ _ (sub_ne_zero.2 (Ne.symm hx))]
  ring

/-! ## Second differences -/

theorem addScaled_ofFn {n : Nat} (p q : Fin n → K) (s : K) : addScaled (List.ofFn p) s (List.ofFn q) = List.ofFn (p + s • q) := by
  unfold addScaled
  apply List.ext_getElem
  · simp
  · intro k h1 h2
    simp

theorem setE_ofFn {n : Nat} (p : Fin n → K) (i : Fin n) (v : K) : setE (List.ofFn p) i v = .ok (List.ofFn (Function.update p i v)) := by
  rw [setE_ok (by simp), set_ofFn]

theorem replicate_ofFn (n : Nat) : List.replicate n (0 : K) = List.ofFn (fun _ : Fin n => (0 : K)) := by
  apply List.ext_getElem <;> simp

/-- The entries with row and column as in `S` are `G`, the others as in `t`. -/
def Filled {n : Nat} (G : Fin n → Fin n → K) (S : Nat → Nat → Prop) (t u : Table K) : Prop :=
  (∀ (a b : Fin n), S a b → u a b = G a b) ∧ ∀ a b : Nat, ¬S a b → u a b = t a b

omit [Field K] in
theorem put_get (t : Table K) (i j a b : Nat) (v : K) : t.put i j v a b = if a = i ∧ b = j then v else t a b := by
  unfold Table.put
  by_cases h : a = i
  · subst h
    by_cases h' : b = j
    · subst h'; simp
    · simp [h']
  · simp [h]

theorem innerLoop_ok {n : Nat} (entry : List K → List K → Py K) (G : Fin n → Fin n → K)
    (hG : ∀ i j, entry (List.ofFn (e i)) (List.ofFn (e j)) = .ok (G i j)) (hsym : ∀ i j, G i j = G j i) (i : Fin n) (js : List (Fin n))
    (t : Table K) :
    ∃ u, innerLoop entry i (List.ofFn (e i)) (js.map Fin.val) (List.ofFn (fun _ : Fin n => (0 : K))) t =
        .ok (List.ofFn (fun _ : Fin n => (0 : K)), u) ∧
      Filled G (fun a b => (a = i ∧ ∃ j ∈ js, (j : Nat) = b) ∨ (b = i ∧ ∃ j ∈ js, (j : Nat) = a)) t u := by
  induction js generalizing t with
  | nil => exact ⟨t, rfl, by simp [Filled], by simp⟩
  | cons j js ih =>
    have e1 : Function.update (fun _ : Fin n => (0 : K)) j 1 = e j := by
      funext k
      by_cases hk : k = j
      · subst hk; simp [e]
      · simp [e, hk]
    have e2 : Function.update (e j) j (0 : K) = fun _ => 0 := by
      funext k
      by_cases hk : k = j
      · subst hk; simp
      · simp [e, hk]
    simp only [List.map_cons, innerLoop]
    rw [setE_ofFn, e1, Py.bind_ok, hG, Py.bind_ok, setE_ofFn, e2, Py.bind_ok]
    obtain ⟨u, hu, h1, h2⟩ := ih (if (i : Nat) ≠ j then (t.put i j (G i j)).put j i ((t.put i j (G i j)) i j) else t.put i j (G i j))
    refine ⟨u, hu, ?_, ?_⟩
    · intro a b hS
      by_cases hS' : ((a : Nat) = i ∧ ∃ k ∈ js, (k : Nat) = b) ∨ ((b : Nat) = i ∧ ∃ k ∈ js, (k : Nat) = a)
      · exact h1 a b hS'
      · rw [h2 a b hS']
        have hab : (a = i ∧ b = j) ∨ (a = j ∧ b = i) := by
          rcases hS with ⟨ha, k, hk, hkb⟩ | ⟨hb, k, hk, hka⟩
          · rcases List.mem_cons.1 hk with rfl | hk
            · exact Or.inl ⟨Fin.ext ha, Fin.ext hkb.symm⟩
            · exact absurd (Or.inl ⟨ha, k, hk, hkb⟩) hS'
          · rcases List.mem_cons.1 hk with rfl | hk
            · exact Or.inr ⟨Fin.ext hka.symm, Fin.ext hb⟩
            · exact absurd (Or.inr ⟨hb, k, hk, hka⟩) hS'
        rcases hab with ⟨rfl, rfl⟩ | ⟨rfl, rfl⟩
        · split
          · rename_i hne
            rw [put_get, put_get, if_neg (fun h => hne h.1), if_pos ⟨rfl, rfl⟩]
          · rw [put_get, if_pos ⟨rfl, rfl⟩]
        · split
          · rw [put_get, if_pos ⟨rfl, rfl⟩, put_get, if_pos ⟨rfl, rfl⟩, hsym]
          · rename_i hne
            rw [not_not] at hne
            rw [put_get, if_pos ⟨hne.symm, hne⟩, hsym]
    · intro a b hS
      rw [not_or] at hS
      have n1 : ¬(a = (i : Nat) ∧ b = j) := fun h => hS.1 ⟨h.1, j, List.mem_cons_self, h.2.symm⟩
      have n2 : ¬(a = (j : Nat) ∧ b = i) := fun h => hS.2 ⟨h.2, j, List.mem_cons_self, h.1.symm⟩
      rw [h2 a b ?_]
      · split
        · rw [put_get, if_neg n2, put_get, if_neg n1]
        · rw [put_get, if_neg n1]
      · rintro (⟨ha, k, hk, hkb⟩ | ⟨hb, k, hk, hka⟩)
        · exact hS.1 ⟨ha, k, List.mem_cons_of_mem _ hk, hkb⟩
        · exact hS.2 ⟨hb, k, List.mem_cons_of_mem _ hk, hka⟩

theorem range'_eq {n : Nat} (i : Fin n) : List.range' i (n - i) = ((List.finRange n).filter (fun j => decide (i ≤ j))).map Fin.val := by
  have h1 : ((List.finRange n).filter (fun j => decide (i ≤ j))).map Fin.val = (List.range n).filter (fun j => decide ((i : Nat) ≤ j)) := by
    rw [← List.map_coe_finRange_eq_range, List.filter_map]
    rfl
  rw [h1]
  have h2 : List.range n = List.range i ++ List.range' i (n - i) := by
    have hi := i.isLt
    have := List.range'_append_1 (s := 0) (m := i) (n := n - i)
    rw [List.range_eq_range', List.range_eq_range']
    rw [Nat.zero_add] at this
    rw [this]
    congr 1
    omega
  rw [h2, List.filter_append, List.filter_eq_nil_iff.2 (by intro a ha; simp at ha ⊢; omega), List.filter_eq_self.2]
  · rfl
  · intro a ha
    simp at ha ⊢
    omega

theorem outerLoop_ok {n : Nat} (entry : List K → List K → Py K) (G : Fin n → Fin n → K)
    (hG : ∀ i j, entry (List.ofFn (e i)) (List.ofFn (e j)) = .ok (G i j)) (hsym : ∀ i j, G i j = G j i) (is : List (Fin n)) (t : Table K) :
    ∃ u, outerLoop entry n (is.map Fin.val) (List.ofFn (fun _ : Fin n => (0 : K))) (List.ofFn (fun _ : Fin n => (0 : K))) t = .ok u ∧
      (∀ a b : Fin n, (∃ i ∈ is, (a = i ∧ i ≤ b) ∨ (b = i ∧ i ≤ a)) → u a b = G a b) ∧
      ∀ a b : Nat, (∀ a' b' : Fin n, (a' : Nat) = a → (b' : Nat) = b → ¬∃ i ∈ is, (a' = i ∧ i ≤ b') ∨ (b' = i ∧ i ≤ a')) → u a b = t a b := by
  induction is generalizing t with
  | nil => exact ⟨t, rfl, by simp, by simp⟩
  | cons i is ih =>
    have e1 : Function.update (fun _ : Fin n => (0 : K)) i 1 = e i := by
      funext k
      by_cases hk : k = i
      · subst hk; simp [e]
      · simp [e, hk]
    have e2 : Function.update (e i) i (0 : K) = fun _ => 0 := by
      funext k
      by_cases hk : k = i
      · subst hk; simp
      · simp [e, hk]
    obtain ⟨u, hu, h1, h2⟩ := innerLoop_ok entry G hG hsym i ((List.finRange n).filter (fun j => decide (i ≤ j))) t
    obtain ⟨w, hw, h3, h4⟩ := ih u
    refine ⟨w, ?_, ?_, ?_⟩
    · simp only [List.map_cons, outerLoop]
      rw [setE_ofFn, e1, Py.bind_ok, range'_eq, hu, Py.bind_ok]
      simp only
      rw [setE_ofFn, e2, Py.bind_ok, hw]
    · intro a b hab
      by_cases hab' : ∃ i ∈ is, (a = i ∧ i ≤ b) ∨ (b = i ∧ i ≤ a)
      · exact h3 a b hab'
      · rw [h4 a b (by intro a' b' ha hb; rw [Fin.ext ha, Fin.ext hb]; exact hab')]
        apply h1
        obtain ⟨k, hk, hk'⟩ := hab
        rcases List.mem_cons.1 hk with rfl | hk
        · rcases hk' with ⟨rfl, h⟩ | ⟨rfl, h⟩
          · exact Or.inl ⟨rfl, b, by simpa using h, rfl⟩
          · exact Or.inr ⟨rfl, a, by simpa using h, rfl⟩
        · exact absurd ⟨k, hk, hk'⟩ hab'
    · intro a b hab
      rw [h4 a b (by
        rintro a' b' ha hb ⟨k, hk, hk'⟩
        exact hab a' b' ha hb ⟨k, List.mem_cons_of_mem _ hk, hk'⟩), h2 a b]
      rintro (⟨ha, k, hk, hkb⟩ | ⟨hb, k, hk, hka⟩)
      · exact hab i k ha.symm hkb ⟨i, List.mem_cons_self, Or.inl ⟨rfl, by simpa using hk⟩⟩
      · exact hab k i hka hb.symm ⟨i, List.mem_cons_self, Or.inr ⟨rfl, by simpa using hk⟩⟩

theorem second_ok {n : Nat} (entry : List K → List K → Py K) (G : Fin n → Fin n → K)
    (hG : ∀ i j, entry (List.ofFn (e i)) (List.ofFn (e j)) = .ok (G i j)) (hsym : ∀ i j, G i j = G j i) (t : Table K) :
    ∃ u, outerLoop entry n (List.range n) (List.replicate n 0) (List.replicate n 0) t = .ok u ∧ ∀ a b : Fin n, u a b = G a b := by
  obtain ⟨u, hu, h1, -⟩ := outerLoop_ok entry G hG hsym (List.finRange n) t
  refine ⟨u, ?_, ?_⟩
  · rw [replicate_ofFn, ← hu, List.map_coe_finRange_eq_range]
  · intro a b
    apply h1
    rcases le_total a b with h | h
    · exact ⟨a, List.mem_finRange _, Or.inl ⟨rfl, h⟩⟩
    · exact ⟨b, List.mem_finRange _, Or.inr ⟨rfl, h⟩⟩

/-- **C53** What the second forward differences compute for every function: all `n²` entries of the array are written. -/
theorem C53_second_forward_difference {n : Nat} (f : List K → Py K) (F : (Fin n → K) → K) (hf : Computes f F) (p : Fin n → K) (h : K)
    (t : Table K) :
    ∃ H, secondForwardDifference f (List.ofFn p) h t = .ok H ∧
      ∀ i j : Fin n, H i j = (F (p + h • e i + h • e j) - F (p + h • e i) - F (p + h • e j) + F p) / h ^ 2 := by
  have := second_ok (forwardEntry f (List.ofFn p) h)
    (fun i j : Fin n => (F (p + h • e i + h • e j) - F (p + h • e i) - F (p + h • e j) + F p) / h ^ 2) ?_ ?_ t
  · unfold secondForwardDifference
    rw [List.length_ofFn]
    exact this
  · intro i j
    unfold forwardEntry
    rw [addScaled_ofFn, addScaled_ofFn, addScaled_ofFn, addScaled_ofFn, hf, hf, hf, hf]
    simp only [Py.bind_ok, Py.pure_eq]
    rw [one_smul, smul_add, ← add_assoc, mul_one_div]
  · intro i j
    have : p + h • e i + h • e j = p + h • e j + h • e i := by abel
    rw [this]
    ring

/-- **C53** What the second central differences compute for every function. -/
theorem C53_second_central_difference {n : Nat} (f : List K → Py K) (F : (Fin n → K) → K) (hf : Computes f F) (p : Fin n → K) (h : K)
    (t : Table K) :
    ∃ H, secondCentralDifference f (List.ofFn p) h t = .ok H ∧
      ∀ i j : Fin n, H i j = (F (p + (1 / 2 * h) • (e i + e j)) - F (p + (1 / 2 * h) • (e i - e j)) - F (p + (1 / 2 * h) • (e j - e i)) +
        F (p - (1 / 2 * h) • (e i + e j))) / h ^ 2 := by
  have := second_ok (centralEntry f (List.ofFn p) h)
    (fun i j : Fin n => (F (p + (1 / 2 * h) • (e i + e j)) - F (p + (1 / 2 * h) • (e i - e j)) - F (p + (1 / 2 * h) • (e j - e i)) +
        F (p - (1 / 2 * h) • (e i + e j))) / h ^ 2) ?_ ?_ t
  · unfold secondCentralDifference
    rw [List.length_ofFn]
    exact this
  · intro i j
    unfold centralEntry
    simp only [addScaled_ofFn]
    rw [hf, hf, hf, hf]
    simp only [Py.bind_ok, Py.pure_eq]
    rw [one_smul, neg_one_smul, neg_one_smul, ← sub_eq_add_neg, ← sub_eq_add_neg, neg_smul, ← sub_eq_add_neg, mul_one_div]
  · intro i j
    rw [add_comm (e i) (e j)]
    ring

/-- **C53** The second differences give the exact Hessian `B e_i e_j + B e_j e_i` of every quadratic function `c + L p + B p p`. -/
theorem C53_second_quadratic [NeZero (2 : K)] {n : Nat} (c : K) (L : (Fin n → K) →ₗ[K] K) (B : (Fin n → K) →ₗ[K] (Fin n → K) →ₗ[K] K)
    (f : List K → Py K) (hf : Computes f (fun p => c + L p + B p p)) (p : Fin n → K) (h : K) (hh : h ≠ 0) (t : Table K) :
    (∃ H, secondForwardDifference f (List.ofFn p) h t = .ok H ∧ ∀ i j : Fin n, H i j = B (e i) (e j) + B (e j) (e i)) ∧
      ∃ H, secondCentralDifference f (List.ofFn p) h t = .ok H ∧ ∀ i j : Fin n, H i j = B (e i) (e j) + B (e j) (e i) := by
  have h2 : (2 : K) ≠ 0 := NeZero.ne 2
  constructor
  · obtain ⟨H, hH, h1⟩ := C53_second_forward_difference f _ hf p h t
    refine ⟨H, hH, fun i j => ?_⟩
    rw [h1]
    simp only [map_add, map_smul, LinearMap.add_apply, LinearMap.smul_apply, smul_eq_mul]
    field_simp
    ring
  · obtain ⟨H, hH, h1⟩ := C53_second_central_difference f _ hf p h t
    refine ⟨H, hH, fun i j => ?_⟩
    rw [h1]
    simp only [map_add, map_sub, map_smul, LinearMap.add_apply, LinearMap.sub_apply, LinearMap.smul_apply, smul_eq_mul]
    field_simp
    ring

/-- **C53** The result matrix is symmetric, for every function. -/
theorem C53_second_symmetric {n : Nat} (f : List K → Py K) (F : (Fin n → K) → K) (hf : Computes f F) (p : Fin n → K) (h : K) (t : Table K) :
    (∃ H, secondForwardDifference f (List.ofFn p) h t = .ok H ∧ ∀ i j : Fin n, H i j = H j i) ∧
      ∃ H, secondCentralDifference f (List.ofFn p) h t = .ok H ∧ ∀ i j : Fin n, H i j = H j i := by
  constructor
  · obtain ⟨H, hH, h1⟩ := C53_second_forward_difference f F hf p h t
    refine ⟨H, hH, fun i j => ?_⟩
    rw [h1, h1, show p + h • e i + h • e j = p + h • e j + h • e i from by abel]
    ring
  · obtain ⟨H, hH, h1⟩ := C53_second_central_difference f F hf p h t
    refine ⟨H, hH, fun i j => ?_⟩
    rw [h1, h1, add_comm (e i) (e j)]
    ring

/-- **C53** If the function raises an exception at a perturbed point, the exception is passed on and the caller's array stays perturbed: the
restoring assignment is not in a `finally` block. -/
theorem C53_array_after_exception :
    ∃ f : List ℚ → Py ℚ, forwardDifference f [1, 2] 1 = (.error .value, [2, 2]) := by
  refine ⟨fun x => if x = [1, 2] then .ok 0 else .error .value, ?_⟩
  simp [forwardDifference, forwardLoop, List.range_succ]
  norm_num

/-- **C53** Accuracy for every differentiable function: the forward and the central differences tend to the derivative as `h → 0`. -/
theorem C53_converges {n : Nat} (f : List ℝ → Py ℝ) (F : (Fin n → ℝ) → ℝ) (hf : Computes f F) (p : Fin n → ℝ) (F' : (Fin n → ℝ) →L[ℝ] ℝ)
    (hF : HasFDerivAt F F' p) (ε : ℝ) (hε : 0 < ε) :
    ∃ δ > 0, ∀ h : ℝ, h ≠ 0 → |h| < δ →
      (∃ g : Fin n → ℝ, forwardDifference f (List.ofFn p) h = (.ok (List.ofFn g), List.ofFn p) ∧ ∀ i, |g i - F' (e i)| < ε) ∧
      ∃ g : Fin n → ℝ, centralDifference f (List.ofFn p) h = (.ok (List.ofFn g), List.ofFn p) ∧ ∀ i, |g i - F' (e i)| < ε := by
  have hline : ∀ i : Fin n, HasDerivAt (fun t : ℝ => F (p + t • e i)) (F' (e i)) 0 := by
    intro i
    have h1 : HasDerivAt (fun t : ℝ => p + t • (e i : Fin n → ℝ)) (e i) 0 := by
      have := ((hasDerivAt_id (0 : ℝ)).smul_const (e i : Fin n → ℝ)).const_add p
      simpa using this
    have h2 : HasFDerivAt F F' (p + (0 : ℝ) • e i) := by simpa using hF
    exact h2.comp_hasDerivAt (0 : ℝ) h1
  have key : ∀ i : Fin n, ∃ δ > 0, ∀ h : ℝ, h ≠ 0 → |h| < δ → |(1 / h) • (F (p + h • e i) - F p) - F' (e i)| < ε := by
    intro i
    have := (hline i).tendsto_slope_zero
    rw [Metric.tendsto_nhdsWithin_nhds] at this
    obtain ⟨δ, hδ, h1⟩ := this ε hε
    refine ⟨δ, hδ, fun h hh hlt => ?_⟩
    have := h1 (x := h) hh (by simpa [Real.dist_eq] using hlt)
    rw [Real.dist_eq] at this
    simpa using this
  choose δ hδ hkey using key
  obtain ⟨d, hd, hd'⟩ : ∃ d > 0, ∀ i, d ≤ δ i := by
    rcases Nat.eq_zero_or_pos n with rfl | hn
    · exact ⟨1, one_pos, fun i => i.elim0⟩
    · have : Nonempty (Fin n) := ⟨⟨0, hn⟩⟩
      exact ⟨Finset.univ.inf' Finset.univ_nonempty δ, (Finset.lt_inf'_iff _).2 (fun i _ => hδ i), fun i => Finset.inf'_le _ (Finset.mem_univ i)⟩
  refine ⟨d, hd, fun h hh hlt => ⟨⟨_, C53_forward_difference f F hf p h, fun i => hkey i h hh (hlt.trans_le (hd' i))⟩,
    _, C53_central_difference f F hf p h, fun i => ?_⟩⟩
  have hhalf : |1 / 2 * h| < d := by rw [abs_mul, abs_of_pos (by norm_num : (0 : ℝ) < 1 / 2)]; linarith [abs_nonneg h]
  have a1 := hkey i (1 / 2 * h) (by simpa using hh) (hhalf.trans_le (hd' i))
  have a2 := hkey i (-(1 / 2 * h)) (by simpa using hh) (by rw [abs_neg]; exact hhalf.trans_le (hd' i))
  have e3 : (1 / h) • (F (p + (1 / 2 * h) • e i) - F (p - (1 / 2 * h) • e i)) - F' (e i) =
      1 / 2 * ((1 / (1 / 2 * h)) • (F (p + (1 / 2 * h) • e i) - F p) - F' (e i)) +
      1 / 2 * ((1 / (-(1 / 2 * h))) • (F (p + (-(1 / 2 * h)) • e i) - F p) - F' (e i)) := by
    rw [neg_smul, ← sub_eq_add_neg]
    simp only [smul_eq_mul]
    field_simp
    ring
  rw [e3]
  refine (abs_add_le _ _).trans_lt ?_
  rw [abs_mul, abs_mul, abs_of_pos (by norm_num : (0 : ℝ) < 1 / 2)]
  linarith

example : ∃ (c : ℚ) (L : (Fin 2 → ℚ) →ₗ[ℚ] ℚ) (B : (Fin 2 → ℚ) →ₗ[ℚ] (Fin 2 → ℚ) →ₗ[ℚ] ℚ) (f : List ℚ → Py ℚ),
    Computes f (fun p => c + L p + B p p) ∧ f [1, 2] = .ok 6 :=
  ⟨1, LinearMap.proj 0, LinearMap.mk₂ ℚ (fun p q => p 1 * q 1) (by intros; simp [add_mul]) (by intros; simp [mul_assoc]) (by intros; simp [mul_add])
      (by intros; simp [mul_left_comm]), fun x => do let a ← getE x 0; let b ← getE x 1; return 1 + a + b * b,
    by intro p; simp [getE_ok, Py.bind_ok, Py.pure_eq], by
      show Except.ok ((1 : ℚ) + 1 + 2 * 2) = Except.ok 6
      norm_num⟩

end Verif.FinDiff
