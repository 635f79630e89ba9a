import Mathlib.Data.Int.ModEq
import Mathlib.Algebra.BigOperators.Fin
import Verif.Lemmas.MultiIndexOps
/-!
# Properties C08 - C11: multi-index objects, multi-index algebra, modular integers, products of sets
-/

namespace Verif.Props
open Verif Verif.Spec

/-! ## C08 -/
section C08
open MIHeap

/-- Every MultiIndex object refers to an existing list without negative entries. -/
def AllNonneg (h : Heap) : Prop := ∀ a ∈ h.objs, ∃ xs, h.lists[a]? = some xs ∧ ∀ x ∈ xs, 0 ≤ x

/-- The operation is part of the MultiIndex API or harmless (not a direct write into a list the program still holds). -/
def IsApi : Op → Prop
  | .userSet .. => False
  | _ => True

private theorem allNonneg_append {h : Heap} (hI : AllNonneg h) (xs : List Int) :
    AllNonneg { h with lists := h.lists ++ [xs] } := by
  intro a ha
  obtain ⟨ys, h1, h2⟩ := hI a ha
  refine ⟨ys, ?_, h2⟩
  have := List.getElem?_eq_some_iff.1 h1
  simp only
  rw [List.getElem?_append_left this.1, h1]

private theorem allNonneg_set {h : Heap} (hI : AllNonneg h) (l : Nat) (xs : List Int) (hx : ∀ x ∈ xs, 0 ≤ x) :
    AllNonneg { h with lists := h.lists.set l xs } := by
  intro a ha
  obtain ⟨ys, h1, h2⟩ := hI a ha
  have h3 := List.getElem?_eq_some_iff.1 h1
  by_cases e : l = a
  · subst e; exact ⟨xs, by simp [h3.1], hx⟩
  · exact ⟨ys, by simp only; rw [List.getElem?_set_ne e, h1], h2⟩

private theorem allNonneg_fresh {h : Heap} (hI : AllNonneg h) (xs : List Int) : AllNonneg (h.fresh xs).1 := by
  unfold Heap.fresh Heap.finish
  split
  · exact hI
  · rename_i hn
    intro a ha
    simp only [List.mem_append, List.mem_singleton] at ha
    rcases ha with ha | rfl
    · exact allNonneg_append hI xs a ha
    · exact ⟨xs, by simp, by simpa using hn⟩

private theorem allNonneg_binSeq {h : Heap} (hI : AllNonneg h) (f : Int → Int → Int) (a : Nat) (ys : List Int) :
    AllNonneg (h.binSeq f a ys).1 := by
  unfold Heap.binSeq; split
  · exact hI
  · exact allNonneg_fresh hI _

private theorem mem_pySet {xs ys : List Int} {i v : Int} (h : pySet xs i v = .ok ys) : ∀ y ∈ ys, y ∈ xs ∨ y = v := by
  unfold pySet at h
  intro y hy
  split at h
  · split at h
    · cases h; exact List.mem_or_eq_of_mem_set hy
    · cases h
  · split at h
    · cases h; exact List.mem_or_eq_of_mem_set hy
    · cases h

private theorem allNonneg_step (h : Heap) (op : Op) (hop : IsApi op) (hI : AllNonneg h) : AllNonneg (step h op).1 := by
  cases op with
  | userList xs => exact allNonneg_append hI xs
  | userSet => exact hop.elim
  | ctorList l =>
    simp only [step]
    split
    · exact hI
    · rename_i xs hl
      unfold Heap.finish
      split
      · exact hI
      · rename_i hn
        intro a ha
        simp only [List.mem_append, List.mem_singleton] at ha
        rcases ha with ha | rfl
        · exact hI a ha
        · exact ⟨xs, hl, by simpa using hn⟩
  | ctorCopy xs => exact allNonneg_fresh hI xs
  | setItem a i v =>
    simp only [step]
    split
    · exact hI
    · rename_i l hl
      split
      · exact hI
      · rename_i xs hx
        split
        · exact hI
        · rename_i hv
          split
          · exact hI
          · rename_i ys hy
            refine allNonneg_set hI l ys ?_
            intro y hy'
            rcases mem_pySet hy y hy' with h1 | rfl
            · obtain ⟨zs, h2, h3⟩ := hI l (List.mem_of_getElem? hl)
              rw [hx] at h2; cases h2; exact h3 y h1
            · omega
  | add a b => simp only [step]; split; exacts [hI, allNonneg_binSeq hI _ _ _]
  | sub a b => simp only [step]; split; exacts [hI, allNonneg_binSeq hI _ _ _]
  | addSeq a ys => exact allNonneg_binSeq hI _ _ _
  | subSeq a ys => exact allNonneg_binSeq hI _ _ _
  | rsubSeq a ys => exact allNonneg_binSeq hI _ _ _

/-- **C08.** After every history of constructions, item assignments, additions and subtractions, every component of every
MultiIndex object is non-negative. -/
theorem C08_nonneg_invariant (ops : List Op) (hops : ∀ op ∈ ops, IsApi op) : AllNonneg (run ops) := by
  unfold run
  have : ∀ (ops : List Op) (h : Heap), (∀ op ∈ ops, IsApi op) → AllNonneg h →
      AllNonneg (ops.foldl (fun h op => (step h op).1) h) := by
    intro ops
    induction ops with
    | nil => intro h _ hI; exact hI
    | cons op ops ih =>
      intro h ho hI
      exact ih _ (fun o ho' => ho o (by simp [ho'])) (allNonneg_step h op (ho op (by simp)) hI)
  exact this ops Heap.empty hops (by intro a ha; simp [Heap.empty] at ha)

/-- **C08.** Any operation that fails leaves the heap, and so every object, unchanged. -/
theorem C08_failure_unchanged (h : Heap) (op : Op) (e : PyErr) (hf : (step h op).2 = .error e) : (step h op).1 = h := by
  have hfin : ∀ (h' : Heap) xs l, (h.finish h' xs l).2 = .error e → (h.finish h' xs l).1 = h := by
    intro h' xs l; unfold Heap.finish; split
    · intro; rfl
    · intro h; cases h
  have hbin : ∀ f a ys, (h.binSeq f a ys).2 = .error e → (h.binSeq f a ys).1 = h := by
    intro f a ys; unfold Heap.binSeq; split
    · intro; rfl
    · exact hfin _ _ _
  cases op with
  | userList xs => cases hf
  | userSet l i v =>
    simp only [step] at hf ⊢
    split at hf
    · rfl
    · split at hf
      · cases hf
      · rename_i h1; rw [if_neg h1]
  | ctorList l => simp only [step] at hf ⊢; split at hf; exacts [rfl, hfin _ _ _ hf]
  | ctorCopy xs => exact hfin _ _ _ hf
  | setItem a i v =>
    simp only [step] at hf ⊢
    split at hf
    · rfl
    · split at hf
      · simp_all
      · split at hf
        · simp_all
        · split at hf
          · rename_i h1 _ _ h2; rw [if_neg h1]
          · cases hf
  | add a b => simp only [step] at hf ⊢; split at hf; exacts [rfl, hbin _ _ _ hf]
  | sub a b => simp only [step] at hf ⊢; split at hf; exacts [rfl, hbin _ _ _ hf]
  | addSeq a ys => exact hbin _ _ _ hf
  | subSeq a ys => exact hbin _ _ _ hf
  | rsubSeq a ys => exact hbin _ _ _ hf

/-- **C08.** Assigning a negative value, and building a multi-index with a negative component, raise ValueError. -/
theorem C08_negative_rejected (h : Heap) :
    (∀ a i v xs, h.comps a = .ok xs → v < 0 → (step h (.setItem a i v)).2 = .error .value) ∧
    (∀ xs : List Int, (∃ x ∈ xs, x < 0) → (step h (.ctorCopy xs)).2 = .error .value) ∧
    (∀ l xs, h.lists[l]? = some xs → (∃ x ∈ xs, x < 0) → (step h (.ctorList l)).2 = .error .value) ∧
    (∀ a b xs ys, h.comps a = .ok xs → h.comps b = .ok ys → (∃ z ∈ List.zipWith (· - ·) xs ys, z < 0) →
      (step h (.sub a b)).2 = .error .value) := by
  refine ⟨?_, ?_, ?_, ?_⟩
  · intro a i v xs hx hv
    unfold Heap.comps at hx
    simp only [step]
    split at hx
    · cases hx
    · rename_i l hl
      split at hx
      · cases hx
      · rw [if_pos hv]
  · rintro xs ⟨x, hx, hn⟩
    simp only [step, Heap.fresh, Heap.finish]
    rw [if_pos (by rw [List.any_eq_true]; exact ⟨x, hx, by simpa using hn⟩)]
  · rintro l xs hl ⟨x, hx, hn⟩
    simp only [step, hl, Heap.finish]
    rw [if_pos (by rw [List.any_eq_true]; exact ⟨x, hx, by simpa using hn⟩)]
  · rintro a b xs ys hxs hys ⟨x, hx, hn⟩
    simp only [step, hys, Heap.binSeq, hxs, Heap.fresh, Heap.finish]
    rw [if_pos (by rw [List.any_eq_true]; exact ⟨x, hx, by simpa using hn⟩)]

/-- **C08.** `a[i] = v` on the components of a multi-index: negative values raise ValueError, positions outside of `-n … n - 1`
raise IndexError, and otherwise exactly the component at position `i` (counted from the end if `i` is negative) becomes `v`. -/
theorem C08_set_item (a : List Nat) (i v : Int) :
    (v < 0 → MI.setItem a i v = .error .value) ∧
    (0 ≤ v → (i < -a.length ∨ (a.length : Int) ≤ i) → MI.setItem a i v = .error .index) ∧
    (0 ≤ v → ∀ k : Nat, k < a.length → (i = k ∨ i = (k : Int) - a.length) →
      ∃ b, MI.setItem a i v = .ok b ∧ b.length = a.length ∧ (b[k]? = some v.toNat) ∧
        ∀ j : Nat, j ≠ k → b[j]? = a[j]?) := by
  refine ⟨fun h => ?_, fun h hi => ?_, fun h k hk hi => ⟨a.set k v.toNat, ?_, by simp, by simp [hk], fun j hj => ?_⟩⟩
  · unfold MI.setItem; rw [if_pos h]
  · unfold MI.setItem pySet
    rw [if_neg (by omega)]
    split
    · rw [if_neg (by omega)]
    · rw [if_neg (by omega)]
  · unfold MI.setItem pySet
    rw [if_neg (by omega)]
    rcases hi with rfl | rfl
    · rw [if_pos (by omega), if_pos (by omega)]; rfl
    · rw [if_neg (by omega), if_pos (by omega)]
      congr 2; omega
  · rw [List.getElem?_set_ne (Ne.symm hj)]

/-- The restriction to API operations is needed: `MultiIndex(l)` shares the list `l`, so a later `l[0] = -1` by the program
makes the object negative (multiindex.py:40-41). -/
theorem C08_alias_breaks_invariant : ¬ AllNonneg (run [.userList [1, 2], .ctorList 0, .userSet 0 0 (-1)]) := by
  intro h
  obtain ⟨xs, h1, h2⟩ := h 0 (by decide)
  have : xs = [-1, 2] := by
    have h3 : (run [.userList [1, 2], .ctorList 0, .userSet 0 0 (-1)]).lists[0]? = some [-1, 2] := by decide
    rw [h3] at h1; exact (Option.some.inj h1).symm
  subst this
  exact absurd (h2 (-1) (by decide)) (by decide)

example : run [.ctorCopy [1, 2], .ctorCopy [0, 1], .sub 0 1, .setItem 2 0 5, .sub 1 0] =
    ⟨[[1, 2], [0, 1], [5, 1]], [0, 1, 2]⟩ := by decide

end C08

/-! ## C09 -/
section C09
open MI

/-- **C09.** `power(x, a + b) = power(x, a) * power(x, b)`. -/
theorem C09_power_add {K : Type*} [CommMonoid K] (x : List K) (a b : List Nat) (ha : a.length = x.length) (hb : b.length = x.length) :
    ∃ c, add a (b.map Int.ofNat) = .ok c ∧ ∃ pa pb pc, power x a = .ok pa ∧ power x b = .ok pb ∧ power x c = .ok pc ∧
      pc = pa * pb := by
  refine ⟨_, add_natCast a b, _, _, _, power_eq x a ha.symm, power_eq x b hb.symm, power_eq x _ (by simp [ha, hb]), ?_⟩
  induction x generalizing a b with
  | nil => simp
  | cons y x ih =>
    cases a with
    | nil => simp at ha
    | cons k a =>
      cases b with
      | nil => simp at hb
      | cons l b =>
        simp only [List.zipWith_cons_cons, List.prod_cons, pow_add, ih a b (by simpa using ha) (by simpa using hb)]
        exact mul_mul_mul_comm _ _ _ _

/-- **C09.** `power(x * y, a) = power(x, a) * power(y, a)` (componentwise product of points). -/
theorem C09_power_mul {K : Type*} [CommMonoid K] (x y : List K) (a : List Nat) (hx : x.length = a.length) (hy : y.length = a.length) :
    ∃ px py, power x a = .ok px ∧ power y a = .ok py ∧ power (List.zipWith (· * ·) x y) a = .ok (px * py) := by
  refine ⟨_, _, power_eq x a hx, power_eq y a hy, ?_⟩
  rw [power_eq _ a (by simp [hx, hy])]
  congr 1
  induction a generalizing x y with
  | nil => simp
  | cons k a ih =>
    cases x with
    | nil => simp at hx
    | cons u x =>
      cases y with
      | nil => simp at hy
      | cons v y =>
        simp only [List.zipWith_cons_cons, List.prod_cons, mul_pow, ih x y (by simpa using hx) (by simpa using hy)]
        exact mul_mul_mul_comm _ _ _ _

/-- **C09.** `power(x, a) = x_1^a_1 ... x_n^a_n`; different lengths raise AssertionError. -/
theorem C09_power_spec {K : Type*} [CommMonoid K] :
    (∀ (n : Nat) (x : Fin n → K) (a : Fin n → Nat), power (List.ofFn x) (List.ofFn a) = .ok (∏ i, x i ^ a i)) ∧
    (∀ (x : List K) (a : List Nat), x.length ≠ a.length → power x a = .error .assertion) := by
  constructor
  · intro n x a
    rw [power_eq _ _ (by simp)]; congr 1
    rw [← List.prod_ofFn]; congr 1
    apply List.ext_getElem <;> simp
  · intro x a h; simp [power, h]

/-- **C09.** `multinom(a) * a! = |a|!`, with `a!` the product of the factorials of the components. -/
theorem C09_multinom (a : List Nat) :
    multinom a * ((a.map Nat.factorial).prod : ℚ) = (a.sum.factorial : ℚ) ∧ factorial a = (a.map Nat.factorial).prod := by
  refine ⟨?_, factorial_eq_prod a⟩
  have h : ((factorial a : Nat) : ℚ) ≠ 0 := by exact_mod_cast (factorial_pos a).ne'
  rw [multinom, norm, ← factorial_eq_prod]
  field_simp

/-- **C09.** `binom(a, b)` is the product of the binomial coefficients of the components when `b ≤ a`, and raises ValueError when
some component of `b` exceeds that of `a`. -/
theorem C09_binom (a b : List Nat) :
    (List.Forall₂ (· ≤ ·) b a → binom a b = .ok ((List.zipWith Nat.choose a b).prod : ℚ)) ∧
    ((∃ p ∈ a.zip b, p.1 < p.2) → binom a b = .error .value) := by
  constructor
  · intro h
    rw [binom, sub_natCast a b h]
    simp only [Py.bind_ok, Py.pure_eq]
    congr 1
    rw [div_eq_iff (by have h1 := factorial_pos b; have h2 := factorial_pos (List.zipWith (· - ·) a b); positivity)]
    norm_cast
    rw [factorial_eq_prod, factorial_eq_prod, factorial_eq_prod]
    induction h with
    | nil => simp
    | @cons y x b a hxy _ ih =>
      simp only [List.zipWith_cons_cons, List.map_cons, List.prod_cons, ih]
      have := Nat.choose_mul_factorial_mul_factorial hxy
      rw [← this]; ring
  · rintro ⟨⟨x, y⟩, hp, hlt⟩
    have : sub a (b.map Int.ofNat) = .error .value := by
      unfold sub mk?
      rw [if_pos]
      rw [List.any_eq_true]
      obtain ⟨i, hi, e⟩ := List.mem_iff_getElem.1 hp
      simp at hi e
      refine ⟨(x : Int) - y, ?_, by simp; exact hlt⟩
      rw [List.mem_iff_getElem]
      exact ⟨i, by simp; omega, by simp [e.1, e.2]⟩
    rw [binom, this]; rfl

/-- **C09.** `binom(a, b) * b! * (a - b)! = a!` for `b ≤ a`. -/
theorem C09_binom_factorial (a b : List Nat) (h : List.Forall₂ (· ≤ ·) b a) :
    ∃ c d, binom a b = .ok c ∧ sub a (b.map Int.ofNat) = .ok d ∧ c * (factorial b : ℚ) * (factorial d : ℚ) = (factorial a : ℚ) := by
  refine ⟨_, _, (C09_binom a b).1 h, sub_natCast a b h, ?_⟩
  norm_cast
  rw [factorial_eq_prod, factorial_eq_prod, factorial_eq_prod]
  induction h with
  | nil => simp
  | @cons y x b a hxy _ ih =>
    simp only [List.zipWith_cons_cons, List.map_cons, List.prod_cons, ← ih]
    have := Nat.choose_mul_factorial_mul_factorial hxy
    rw [← this]; ring

/-- **C09.** `norm(a + b) = norm(a) + norm(b)` for equal lengths. -/
theorem C09_norm_add (a b : List Nat) (h : a.length = b.length) :
    ∃ c, add a (b.map Int.ofNat) = .ok c ∧ norm c = norm a + norm b :=
  ⟨_, add_natCast a b, sum_zipWith_add a b h⟩

/-- **C09.** `multinom_general(r, a) * a! * (r - |a|)! = r!` for `|a| ≤ r`. -/
theorem C09_multinom_general (r : Nat) (a : List Nat) (h : a.sum ≤ r) :
    ∃ m, multinomGeneral r a = .ok m ∧
      m * ((a.map Nat.factorial).prod : ℚ) * ((r - a.sum).factorial : ℚ) = (r.factorial : ℚ) := by
  refine ⟨multinom ((r - a.sum) :: a), ?_, ?_⟩
  · rw [multinomGeneral, generalToExactNorm_ok a r h]; rfl
  · have := (C09_multinom ((r - a.sum) :: a)).1
    simp only [List.map_cons, List.prod_cons, List.sum_cons] at this
    have e : r - a.sum + a.sum = r := by omega
    rw [e] at this
    rw [← this]; push_cast; ring

/-- A finding: `+` and `-` silently truncate to the shorter operand (`map` stops at the shorter sequence). -/
theorem C09_add_truncates : add [1, 2, 3] [1] = .ok [2] := by decide

example : List.Forall₂ (· ≤ ·) [1, 0, 2] [2, 0, 3] := by simp
example : (∃ p ∈ List.zip [2, 0] [1, 1], p.1 < p.2) := by decide

end C09

/-! ## C10 -/
section C10

/-- The integer value of an expression (objects stand for their construction value). -/
def ArithExpr.intValue : ArithExpr → Int
  | .lit k => k
  | .obj v _ => v
  | .add a b => ArithExpr.intValue a + ArithExpr.intValue b
  | .sub a b => ArithExpr.intValue a - ArithExpr.intValue b
  | .mul a b => ArithExpr.intValue a * ArithExpr.intValue b
  | .neg a => - ArithExpr.intValue a

/-- All objects in the expression have modulus `n`. -/
def ArithExpr.AllMod (n : Int) : ArithExpr → Prop
  | .lit _ => True
  | .obj _ m => m = n
  | .add a b | .sub a b | .mul a b => ArithExpr.AllMod n a ∧ ArithExpr.AllMod n b
  | .neg a => ArithExpr.AllMod n a

/-- The expression contains an object. -/
def ArithExpr.HasObj : ArithExpr → Prop
  | .lit _ => False
  | .obj _ _ => True
  | .add a b | .sub a b | .mul a b => ArithExpr.HasObj a ∨ ArithExpr.HasObj b
  | .neg a => ArithExpr.HasObj a

/-- What the evaluation must yield: the integer value, or its residue in `[0, n)`. -/
private def Good (n : Int) (e : ArithExpr) (v : Operand) : Prop :=
  (¬ ArithExpr.HasObj e ∧ v = .int (ArithExpr.intValue e)) ∨
  (ArithExpr.HasObj e ∧ v = .mod ⟨ArithExpr.intValue e % n, n⟩)

private theorem red_eq {v n : Int} (hn : 0 < n) : IntMod.red v n = ⟨v % n, n⟩ := by
  simp [IntMod.red, Int.fmod_eq_emod_of_nonneg _ hn.le]

private theorem mk?_eq {v n : Int} (hn : 0 < n) : IntMod.mk? v n = .ok ⟨v % n, n⟩ := by
  rw [IntMod.mk?, if_neg hn.ne', red_eq hn]

private theorem run_good (n : Int) (hn : 0 < n) (e : ArithExpr) (he : ArithExpr.AllMod n e) :
    ∃ v, e.run = .ok v ∧ Good n e v := by
  induction e with
  | lit k => exact ⟨_, rfl, .inl ⟨id, rfl⟩⟩
  | obj v m =>
    cases he
    refine ⟨_, ?_, .inr ⟨trivial, rfl⟩⟩
    simp [ArithExpr.run, mk?_eq hn, ArithExpr.intValue]
  | neg a ih =>
    obtain ⟨v, h1, h2⟩ := ih he
    rcases h2 with ⟨h2, rfl⟩ | ⟨h2, rfl⟩
    · exact ⟨_, by rw [ArithExpr.run, h1]; rfl, .inl ⟨h2, rfl⟩⟩
    · refine ⟨_, ?_, .inr ⟨h2, rfl⟩⟩
      simp [ArithExpr.run, h1, opNeg, IntMod.neg, mk?_eq hn, ArithExpr.intValue]
      exact (Int.mod_modEq _ n).neg
  | add a b iha ihb =>
    obtain ⟨v, h1, h2⟩ := iha he.1
    obtain ⟨w, h3, h4⟩ := ihb he.2
    rcases h2 with ⟨h2, rfl⟩ | ⟨h2, rfl⟩ <;> rcases h4 with ⟨h4, rfl⟩ | ⟨h4, rfl⟩
    · exact ⟨_, by simp [ArithExpr.run, h1, h3, opAdd]; rfl, .inl ⟨by simp [ArithExpr.HasObj, h2, h4], rfl⟩⟩
    · refine ⟨_, ?_, .inr ⟨.inr h4, rfl⟩⟩
      simp [ArithExpr.run, h1, h3, opAdd, IntMod.add, mk?_eq hn, ArithExpr.intValue, add_comm]
    · refine ⟨_, ?_, .inr ⟨.inl h2, rfl⟩⟩
      simp [ArithExpr.run, h1, h3, opAdd, IntMod.add, mk?_eq hn, ArithExpr.intValue]
    · refine ⟨_, ?_, .inr ⟨.inl h2, rfl⟩⟩
      simp [ArithExpr.run, h1, h3, opAdd, IntMod.add, mk?_eq hn, ArithExpr.intValue]
  | sub a b iha ihb =>
    obtain ⟨v, h1, h2⟩ := iha he.1
    obtain ⟨w, h3, h4⟩ := ihb he.2
    rcases h2 with ⟨h2, rfl⟩ | ⟨h2, rfl⟩ <;> rcases h4 with ⟨h4, rfl⟩ | ⟨h4, rfl⟩
    · exact ⟨_, by simp [ArithExpr.run, h1, h3, opSub]; rfl, .inl ⟨by simp [ArithExpr.HasObj, h2, h4], rfl⟩⟩
    · refine ⟨_, ?_, .inr ⟨.inr h4, rfl⟩⟩
      simp [ArithExpr.run, h1, h3, opSub, IntMod.rsub, IntMod.sub, IntMod.neg, mk?_eq hn, ArithExpr.intValue]
      have := (Int.mod_modEq (ArithExpr.intValue b - ArithExpr.intValue a) n).neg
      rw [neg_sub] at this; exact this
    · refine ⟨_, ?_, .inr ⟨.inl h2, rfl⟩⟩
      simp [ArithExpr.run, h1, h3, opSub, IntMod.sub, mk?_eq hn, ArithExpr.intValue]
    · refine ⟨_, ?_, .inr ⟨.inl h2, rfl⟩⟩
      simp [ArithExpr.run, h1, h3, opSub, IntMod.sub, mk?_eq hn, ArithExpr.intValue, Int.sub_emod]
  | mul a b iha ihb =>
    obtain ⟨v, h1, h2⟩ := iha he.1
    obtain ⟨w, h3, h4⟩ := ihb he.2
    rcases h2 with ⟨h2, rfl⟩ | ⟨h2, rfl⟩ <;> rcases h4 with ⟨h4, rfl⟩ | ⟨h4, rfl⟩
    · exact ⟨_, by simp [ArithExpr.run, h1, h3, opMul]; rfl, .inl ⟨by simp [ArithExpr.HasObj, h2, h4], rfl⟩⟩
    · refine ⟨_, ?_, .inr ⟨.inr h4, rfl⟩⟩
      simp [ArithExpr.run, h1, h3, opMul, IntMod.mul, mk?_eq hn, ArithExpr.intValue, mul_comm]
      exact (Int.mod_modEq _ n).mul_left _
    · refine ⟨_, ?_, .inr ⟨.inl h2, rfl⟩⟩
      simp [ArithExpr.run, h1, h3, opMul, IntMod.mul, mk?_eq hn, ArithExpr.intValue]
      exact (Int.mod_modEq _ n).mul_right _
    · refine ⟨_, ?_, .inr ⟨.inl h2, rfl⟩⟩
      simp [ArithExpr.run, h1, h3, opMul, IntMod.mul, mk?_eq hn, ArithExpr.intValue, Int.mul_emod]

/-- **C10.** Every arithmetic expression over integers modulo `n ≥ 1` and plain integers evaluates without an exception; if it contains an
`IntegerModuloN`, the result is the residue of the integer value of the expression, reduced to `[0, n)`. -/
theorem C10_arithmetic (n : Int) (hn : 1 ≤ n) (e : ArithExpr) (he : ArithExpr.AllMod n e) (ho : ArithExpr.HasObj e) :
    ∃ x : IntMod, e.run = .ok (.mod x) ∧ x.n = n ∧ 0 ≤ x.i ∧ x.i < n ∧ x.i ≡ ArithExpr.intValue e [ZMOD n] := by
  obtain ⟨v, h1, h2⟩ := run_good n (by omega) e he
  rcases h2 with ⟨h2, _⟩ | ⟨_, rfl⟩
  · exact absurd ho h2
  · exact ⟨_, h1, rfl, Int.emod_nonneg _ (by omega), Int.emod_lt_of_pos _ (by omega), Int.mod_modEq _ _⟩

/-- **C10.** Combining different moduli raises ValueError, for `+`, `-`, `*`, `==`, `<` and `>`. -/
theorem C10_mixed_moduli (a b : IntMod) (h : a.n ≠ b.n) :
    a.add (.mod b) = .error .value ∧ a.sub (.mod b) = .error .value ∧ a.mul (.mod b) = .error .value ∧
    a.eq (.mod b) = .error .value ∧ a.lt (.mod b) = .error .value ∧ a.gt (.mod b) = .error .value := by
  simp [IntMod.add, IntMod.sub, IntMod.mul, IntMod.eq, IntMod.lt, IntMod.gt, h]

/-- **C10** (order), the part that holds: comparisons between objects with the same modulus compare the representatives, and
`<`, `>=`, `==` with a plain integer compare the representative with it. Missing: `>` and `<=` with a plain integer, see
`C10_gt_int_crashes`. -/
theorem C10_comparisons_partial (a b : IntMod) (h : a.n = b.n) (k : Int) :
    a.lt (.mod b) = .ok (decide (a.i < b.i)) ∧ a.gt (.mod b) = .ok (decide (a.i > b.i)) ∧
    a.le (.mod b) = .ok (decide (a.i ≤ b.i)) ∧ a.ge (.mod b) = .ok (decide (a.i ≥ b.i)) ∧
    a.eq (.mod b) = .ok (decide (a.i = b.i)) ∧
    a.lt (.int k) = .ok (decide (a.i < k)) ∧ a.ge (.int k) = .ok (decide (a.i ≥ k)) ∧
    a.eq (.int k) = .ok (decide (a.i = k)) := by
  have hd : ∀ x y : Int, (x == y) = decide (x = y) := fun x y => by rw [Bool.eq_iff_iff]; simp
  simp [IntMod.lt, IntMod.gt, IntMod.le, IntMod.ge, IntMod.eq, h, hd, ← decide_not]

/-- **C10** (negation). Comparing any object with any plain integer by `>` or `<=` raises AttributeError (line 73 reads `other.i`). -/
theorem C10_gt_int_crashes (a : IntMod) (k : Int) :
    a.gt (.int k) = .error .attribute ∧ a.le (.int k) = .error .attribute := ⟨rfl, rfl⟩

/-- A further finding: `==` with a plain integer does not reduce it, so `IntegerModuloN(1, 3) == 4` is False although `4 ≡ 1 (mod 3)`. -/
theorem C10_eq_int_not_modular : (IntMod.mk 1 3).eq (.int 4) = .ok false := by decide

example : ArithExpr.AllMod 5 (.sub (.lit 2) (.mul (.obj 7 5) (.obj (-1) 5))) ∧
    (ArithExpr.sub (.lit 2) (.mul (.obj 7 5) (.obj (-1) 5))).run = .ok (.mod ⟨4, 5⟩) := by
  refine ⟨⟨trivial, rfl, rfl⟩, by decide⟩

end C10

/-! ## C11 -/
section C11
open SetTheory

/-- **C11**, the part that holds: for `n ≥ 2` the result is the set of all `n`-tuples with entries in `s`. Missing: `n = 0` and
`n = 1`, where the claim is false (`C11_zero_and_one_differ`). -/
theorem C11_nfold_partial [DecidableEq α] (s : List α) (n : Nat) (hn : 2 ≤ n) :
    ∃ ts, nfoldCartesianProduct s n = .tuples ts ∧ ts.Nodup ∧ ∀ y, y ∈ ts ↔ y.length = n ∧ ∀ x ∈ y, x ∈ s := by
  obtain ⟨k, rfl⟩ : ∃ k, n = k + 2 := ⟨n - 2, by omega⟩
  exact ⟨_, rfl, nodup_nfoldTuples s k, mem_nfoldTuples s k⟩

/-- **C11** (negation). For `n = 1` the elements are those of `s` itself rather than 1-tuples, and for `n = 0` the result is the
empty set rather than the set of the empty tuple. -/
theorem C11_zero_and_one_differ [DecidableEq α] (s : List α) :
    nfoldCartesianProduct s 1 = .elems s ∧
    ∃ ts, nfoldCartesianProduct s 0 = .tuples ts ∧ ([] : List α) ∉ ts := ⟨rfl, [], rfl, by simp⟩

example : nfoldCartesianProduct [1, 2] 2 = .tuples [[1, 1], [1, 2], [2, 1], [2, 2]] := by decide

end C11

end Verif.Props
