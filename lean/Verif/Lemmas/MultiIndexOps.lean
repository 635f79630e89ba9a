import Mathlib.Tactic.FieldSimp
import Mathlib.Tactic.Positivity
import Mathlib.Data.Nat.Cast.Field
import Mathlib.Algebra.Order.Field.Rat
import Verif.Lemmas.MultiCap
import Verif.Model.OrderCache
import Verif.Model.PolynomialsBase
import Verif.Model.SetTheory
import Verif.Model.MultiIndexHeap
/-!
# Helper lemmas: index lookup, multi-index arithmetic, dimension inference, products of sets
-/

namespace Verif.MI
open Verif Verif.Spec

theorem eq_of_length {a b : List Nat} (h : a.length = b.length) : eq a b = .ok (decide (a = b)) := by
  unfold eq
  rw [if_neg (by simpa using h)]
  congr 1
  rw [Bool.eq_iff_iff]
  simp only [List.all_eq_true, decide_eq_true_eq]
  constructor
  · intro h2
    apply List.ext_getElem h
    intro i h3 h4
    have := h2 (a[i], b[i]) (by rw [List.mem_iff_getElem]; exact ⟨i, by simp; omega, by simp⟩)
    simpa using this
  · rintro rfl p hp
    have := List.of_mem_zip hp
    obtain ⟨i, hi, rfl⟩ := List.mem_iff_getElem.1 hp
    simp

theorem getIndexLoop_eq (mi : List Nat) : ∀ (l : List (List Nat)) (k i : Nat), (∀ a ∈ l, a.length = mi.length) →
    l.Nodup → l[i]? = some mi → getIndexLoop mi k l = .ok (k + i) := by
  intro l
  induction l with
  | nil => intro k i _ _ h; simp at h
  | cons a l ih =>
    intro k i hl hn h
    have ha := hl a (by simp)
    rw [getIndexLoop, eq_of_length ha.symm]
    simp only [Py.bind_ok]
    cases i with
    | zero => simp at h; subst h; simp
    | succ i =>
      simp only [List.getElem?_cons_succ] at h
      have hne : mi ≠ a := by
        rintro rfl
        rw [List.nodup_cons] at hn
        exact hn.1 (List.mem_of_getElem? h)
      simp only [hne, decide_false, Bool.false_eq_true, if_false]
      rw [ih (k + 1) i (fun b hb => hl b (by simp [hb])) (List.nodup_cons.1 hn).2 h]
      congr 1; omega

theorem getIndexLoop_notin (mi : List Nat) : ∀ (l : List (List Nat)) (k : Nat), (∀ a ∈ l, a.length = mi.length) →
    mi ∉ l → getIndexLoop mi k l = .error .value := by
  intro l
  induction l with
  | nil => intro k _ _; rfl
  | cons a l ih =>
    intro k hl h
    rw [getIndexLoop, eq_of_length (hl a (by simp)).symm]
    simp only [List.mem_cons, not_or] at h
    simp only [Py.bind_ok, h.1, decide_false, Bool.false_eq_true, if_false]
    exact ih _ (fun b hb => hl b (by simp [hb])) h.2

/-- A cache agrees with the enumeration. -/
def CacheOK (cache : OrderCache) : Prop :=
  ∀ n r d, cache.lookup (n, r) = some d → d = (mis n r).zipIdx

theorem lookup_zipIdx (mi : List Nat) : ∀ (l : List (List Nat)) (k i : Nat), l.Nodup → l[i]? = some mi →
    (l.zipIdx k).lookup mi = some (k + i) := by
  intro l
  induction l with
  | nil => intro k i _ h; simp at h
  | cons a l ih =>
    intro k i hn h
    rw [List.zipIdx_cons, List.lookup_cons]
    cases i with
    | zero => simp at h; subst h; simp
    | succ i =>
      simp only [List.getElem?_cons_succ] at h
      rw [List.nodup_cons] at hn
      have hne : (mi == a) = false := by
        rw [beq_eq_false_iff_ne]; rintro rfl; exact hn.1 (List.mem_of_getElem? h)
      rw [hne]
      simp only
      rw [ih (k + 1) i hn.2 h]; congr 1; omega

theorem getIndexWith_eq (cache : OrderCache) (hc : CacheOK cache) (mi : List Nat) (r i : Nat)
    (h : (mis mi.length r)[i]? = some mi) : getIndexWith cache mi r = .ok i := by
  have hm := mem_mis.1 (List.mem_of_getElem? h)
  unfold getIndexWith
  rw [if_pos (by unfold norm; exact_mod_cast hm.2)]
  simp only [Int.toNat_natCast]
  split
  · rename_i d hd
    rw [hc _ _ _ hd, lookup_zipIdx mi _ 0 i (nodup_mis _ _) h]
    simp
  · rw [generateAll_eq_mis, getIndexLoop_eq mi _ 0 i (fun a ha => (mem_mis.1 ha).1) (nodup_mis _ _) h]
    simp

theorem skip_next (n r : Nat) : ∀ (l : List (List Nat)) (c : List Nat) (i : Nat) (x : List Nat),
    Run r (c :: l) → c.sum ≤ r → l[i]? = some x →
    (skip i (atState n r c) >>= fun it => it.next.1) = .ok x := by
  intro l
  induction l with
  | nil => intro c i x _ _ h; simp at h
  | cons d l ih =>
    intro c i x h hc hx
    obtain ⟨h1, h2⟩ := h
    rw [List.isChain_cons_cons] at h1
    have hd := (succ?_sum h1.1 hc).1
    cases i with
    | zero =>
      simp at hx; subst hx
      simp [skip, next_atState n r c hc, h1.1]
    | succ i =>
      simp only [skip, next_atState n r c hc, h1.1]
      exact ih d i x ⟨h1.2, by simpa using h2⟩ hd (by simpa using hx)

theorem skip_stop (n r : Nat) : ∀ (l : List (List Nat)) (c : List Nat) (i : Nat),
    Run r (c :: l) → c.sum ≤ r → i = l.length →
    (skip i (atState n r c) >>= fun it => it.next.1) = .error .stopIteration := by
  intro l
  induction l with
  | nil =>
    intro c i h hc hi
    have := h.2 c (by simp)
    simp at hi; subst hi
    simp [skip, next_atState n r c hc, this]
  | cons d l ih =>
    intro c i h hc hx
    obtain ⟨h1, h2⟩ := h
    rw [List.isChain_cons_cons] at h1
    have hd := (succ?_sum h1.1 hc).1
    subst hx
    simp only [List.length_cons, skip, next_atState n r c hc, h1.1]
    exact ih d _ ⟨h1.2, by simpa using h2⟩ hd rfl

theorem mis_cons (n r : Nat) : ∃ l, mis n r = zero n :: l := by
  have := head_mis n r
  cases hm : mis n r with
  | nil => simp [hm] at this
  | cons a l => simp [hm] at this; exact ⟨l, by rw [this]⟩

theorem generate_eq (n r i : Nat) (x : List Nat) (h : (mis n r)[i]? = some x) : generate n r i = .ok x := by
  obtain ⟨l, hl⟩ := mis_cons n r
  have hrun := run_mis n r
  rw [hl] at hrun h
  unfold generate
  cases i with
  | zero => simp at h; subst h; simp [skip, next_init]
  | succ i =>
    simp only [skip, next_init]
    exact skip_next n r l _ i x hrun (by simp [zero]) (by simpa using h)

theorem generate_stop (n r : Nat) : generate n r (mis n r).length = .error .stopIteration := by
  obtain ⟨l, hl⟩ := mis_cons n r
  have hrun := run_mis n r
  rw [hl] at hrun ⊢
  unfold generate
  simp only [List.length_cons, skip, next_init]
  exact skip_stop n r l _ _ hrun (by simp [zero]) rfl

/-! ### exact norm -/

theorem mk?_natCast (a : List Nat) : mk? (a.map Int.ofNat) = .ok a := by
  unfold mk?
  rw [if_neg]
  · congr 1; rw [List.map_map]; conv_rhs => rw [← List.map_id a]
    exact List.map_congr_left (fun x _ => by simp)
  · simp

theorem generalToExactNorm_ok (a : List Nat) (r : Nat) (h : a.sum ≤ r) :
    generalToExactNorm a r = .ok ((r - a.sum) :: a) := by
  unfold generalToExactNorm norm
  rw [if_pos (by exact_mod_cast h)]
  have : ((r : Int) - (a.sum : Int)) :: a.map Int.ofNat = ((r - a.sum) :: a).map Int.ofNat := by
    rw [List.map_cons]; congr 1
    have : Int.ofNat (r - a.sum) = ((r - a.sum : Nat) : Int) := rfl
    rw [this]; omega
  rw [this, mk?_natCast]

theorem mapM_ok {α β : Type} (f : α → Py β) (g : α → β) (l : List α) (h : ∀ x ∈ l, f x = .ok (g x)) :
    l.mapM f = .ok (l.map g) := by
  induction l with
  | nil => rfl
  | cons x l ih =>
    rw [List.mapM_cons, h x (by simp), ih (fun y hy => h y (by simp [hy]))]
    rfl

theorem generateAllExactNorm_eq (n r : Nat) :
    generateAllExactNorm n r = .ok ((mis (n - 1) r).map fun a => (r - a.sum) :: a) := by
  unfold generateAllExactNorm
  rw [generateAll_eq_mis]
  exact mapM_ok _ _ _ (fun a ha => generalToExactNorm_ok a r (mem_mis.1 ha).2)

/-! ### arithmetic -/

theorem factorial_eq_prod (a : List Nat) : factorial a = (a.map Nat.factorial).prod := by
  have : ∀ (a : List Nat) (f : Nat), a.foldl (fun f k => f * k.factorial) f = f * (a.map Nat.factorial).prod := by
    intro a
    induction a with
    | nil => intro f; simp
    | cons x a ih => intro f; simp [ih, mul_assoc]
  unfold factorial; simpa using this a 1

theorem factorial_pos (a : List Nat) : 0 < factorial a := by
  rw [factorial_eq_prod]
  induction a with
  | nil => simp
  | cons x a ih => simp only [List.map_cons, List.prod_cons]; exact Nat.mul_pos (Nat.factorial_pos x) ih

theorem powerLoop_eq {K : Type*} [CommMonoid K] : ∀ (x : List K) (a : List Nat) (p : K),
    powerLoop p x a = p * (List.zipWith (· ^ ·) x a).prod := by
  intro x
  induction x with
  | nil => intro a p; cases a <;> simp [powerLoop]
  | cons y x ih =>
    intro a p
    cases a with
    | nil => simp [powerLoop]
    | cons k a => simp [powerLoop, ih, mul_assoc]

theorem power_eq {K : Type*} [CommMonoid K] (x : List K) (a : List Nat) (h : x.length = a.length) :
    power x a = .ok (List.zipWith (· ^ ·) x a).prod := by
  simp [power, h, powerLoop_eq]

theorem zipWith_add_natCast (a b : List Nat) :
    List.zipWith (fun (x : Nat) (y : Int) => (x : Int) + y) a (b.map Int.ofNat) =
      (List.zipWith (· + ·) a b).map Int.ofNat := by
  induction a generalizing b with
  | nil => simp
  | cons x a ih => cases b <;> simp [ih]

theorem add_natCast (a b : List Nat) : add a (b.map Int.ofNat) = .ok (List.zipWith (· + ·) a b) := by
  rw [add, zipWith_add_natCast, mk?_natCast]

theorem zipWith_sub_natCast (a b : List Nat) (h : List.Forall₂ (· ≤ ·) b a) :
    List.zipWith (fun (x : Nat) (y : Int) => (x : Int) - y) a (b.map Int.ofNat) =
      (List.zipWith (· - ·) a b).map Int.ofNat := by
  induction h with
  | nil => simp
  | cons h _ ih => simp only [List.map_cons, List.zipWith_cons_cons, ih]; simp; omega

theorem sub_natCast (a b : List Nat) (h : List.Forall₂ (· ≤ ·) b a) :
    sub a (b.map Int.ofNat) = .ok (List.zipWith (· - ·) a b) := by
  rw [sub, zipWith_sub_natCast a b h, mk?_natCast]

theorem sum_zipWith_add (a b : List Nat) (h : a.length = b.length) : (List.zipWith (· + ·) a b).sum = a.sum + b.sum := by
  induction a generalizing b with
  | nil => cases b <;> simp at *
  | cons x a ih =>
    cases b with
    | nil => simp at h
    | cons y b => simp [ih b (by simpa using h)]; omega

end Verif.MI

namespace Verif.Poly
open Verif

theorem degreeSearch_error (dim n : Nat) : ∀ l : List Nat, (∀ r ∈ l, getDimension r n ≠ dim) →
    degreeSearch dim n l = .error .assertion := by
  intro l
  induction l with
  | nil => intro _; rfl
  | cons r l ih =>
    intro h
    rw [degreeSearch, if_neg (h r (by simp))]
    exact ih (fun s hs => h s (by simp [hs]))

theorem degreeSearch_ok (dim n r : Nat) : ∀ l : List Nat, (∀ s ∈ l, getDimension s n = dim → s = r) → r ∈ l →
    getDimension r n = dim → degreeSearch dim n l = .ok r := by
  intro l
  induction l with
  | nil => intro _ h; simp at h
  | cons s l ih =>
    intro h hr hd
    rw [degreeSearch]
    split
    · rw [h s (by simp) (by assumption)]
    · refine ih (fun t ht => h t (by simp [ht])) ?_ hd
      rcases List.mem_cons.1 hr with rfl | hr
      · contradiction
      · exact hr

theorem getDimension_strictMono (n : Nat) (hn : 0 < n) {r s : Nat} (h : r < s) : getDimension r n < getDimension s n := by
  have step : ∀ r, getDimension r n < getDimension (r + 1) n := by
    intro r
    obtain ⟨m, rfl⟩ : ∃ m, n = m + 1 := ⟨n - 1, by omega⟩
    unfold getDimension
    have e : r + 1 + (m + 1) = (r + (m + 1)) + 1 := by ring
    rw [e, Nat.choose_succ_succ' _ m]
    have : 0 < (r + (m + 1)).choose m := Nat.choose_pos (by omega)
    omega
  induction h with
  | refl => exact step r
  | step _ ih => exact lt_trans ih (step _)

theorem getDimension_inj (n : Nat) (hn : 0 < n) {r s : Nat} (h : getDimension r n = getDimension s n) : r = s := by
  rcases lt_trichotomy r s with h1 | h1 | h1
  · have := getDimension_strictMono n hn h1; omega
  · exact h1
  · have := getDimension_strictMono n hn h1; omega

end Verif.Poly

namespace Verif.SetTheory

theorem mem_setAdd [DecidableEq α] (p : List α) (x y : α) : y ∈ setAdd p x ↔ y ∈ p ∨ y = x := by
  unfold setAdd; split
  · constructor
    · exact Or.inl
    · rintro (h | rfl) <;> assumption
  · simp

theorem nodup_setAdd [DecidableEq α] (p : List α) (x : α) (h : p.Nodup) : (setAdd p x).Nodup := by
  unfold setAdd; split
  · exact h
  · rw [List.nodup_append]; refine ⟨h, by simp, ?_⟩
    rintro a ha b hb rfl; simp at hb; subst hb; contradiction

theorem mem_foldl_setAdd [DecidableEq β] (f : α → β) (l : List α) (p : List β) (y : β) :
    y ∈ l.foldl (fun p x => setAdd p (f x)) p ↔ y ∈ p ∨ ∃ x ∈ l, y = f x := by
  induction l generalizing p with
  | nil => simp
  | cons x l ih => simp only [List.foldl_cons, ih, mem_setAdd, List.exists_mem_cons_iff, or_assoc]

theorem nodup_foldl_setAdd [DecidableEq β] (f : α → β) (l : List α) (p : List β) (h : p.Nodup) :
    (l.foldl (fun p x => setAdd p (f x)) p).Nodup := by
  induction l generalizing p with
  | nil => exact h
  | cons x l ih => exact ih _ (nodup_setAdd _ _ h)

theorem mem_prependAll [DecidableEq α] (s : List α) (p0 : List (List α)) (y : List α) :
    y ∈ prependAll s p0 ↔ ∃ e ∈ s, ∃ t ∈ p0, y = e :: t := by
  have : ∀ (p : List (List α)), y ∈ p0.foldl (fun product sub => s.foldl (fun product element => setAdd product (element :: sub)) product) p ↔ y ∈ p ∨ ∃ e ∈ s, ∃ t ∈ p0, y = e :: t := by
    induction p0 with
    | nil => simp
    | cons t p0 ih =>
      intro p
      simp only [List.foldl_cons, ih, mem_foldl_setAdd (fun e => e :: t)]
      constructor
      · rintro ((h | ⟨e, he, rfl⟩) | ⟨e, he, u, hu, rfl⟩)
        · exact .inl h
        · exact .inr ⟨e, he, t, by simp, rfl⟩
        · exact .inr ⟨e, he, u, by simp [hu], rfl⟩
      · rintro (h | ⟨e, he, u, hu, rfl⟩)
        · exact .inl (.inl h)
        · rcases List.mem_cons.1 hu with rfl | hu
          · exact .inl (.inr ⟨e, he, rfl⟩)
          · exact .inr ⟨e, he, u, hu, rfl⟩
  simpa [prependAll] using this []

theorem nodup_prependAll [DecidableEq α] (s : List α) (p0 : List (List α)) : (prependAll s p0).Nodup := by
  have : ∀ (p : List (List α)), p.Nodup → (p0.foldl (fun product sub => s.foldl (fun product element => setAdd product (element :: sub)) product) p).Nodup := by
    induction p0 with
    | nil => simp
    | cons t p0 ih => intro p hp; exact ih _ (nodup_foldl_setAdd (fun e => e :: t) s p hp)
  exact this [] (by simp)

theorem mem_cartesianProduct [DecidableEq α] (s t : List α) (y : List α) :
    y ∈ cartesianProduct s t ↔ ∃ a ∈ s, ∃ b ∈ t, y = [a, b] := by
  unfold cartesianProduct toSet
  rw [show (setAdd : List (List α) → List α → List (List α)) = (fun p x => setAdd p (id x)) from rfl, mem_foldl_setAdd]
  simp [eq_comm]

theorem mem_nfoldTuples [DecidableEq α] (s : List α) (k : Nat) (y : List α) :
    y ∈ nfoldTuples s k ↔ y.length = k + 2 ∧ ∀ x ∈ y, x ∈ s := by
  induction k generalizing y with
  | zero =>
    rw [nfoldTuples, mem_cartesianProduct]
    constructor
    · rintro ⟨a, ha, b, hb, rfl⟩; simp [ha, hb]
    · rintro ⟨hl, h⟩
      obtain ⟨a, b, rfl⟩ := List.length_eq_two.1 hl
      exact ⟨a, h a (by simp), b, h b (by simp), rfl⟩
  | succ k ih =>
    rw [nfoldTuples, mem_prependAll]
    constructor
    · rintro ⟨e, he, t, ht, rfl⟩
      rw [ih] at ht
      refine ⟨by simp [ht.1], ?_⟩
      intro x hx
      rcases List.mem_cons.1 hx with rfl | hx
      · exact he
      · exact ht.2 x hx
    · rintro ⟨hl, h⟩
      cases y with
      | nil => simp at hl
      | cons e t =>
        exact ⟨e, h e (by simp), t, (ih t).2 ⟨by simpa using hl, fun x hx => h x (by simp [hx])⟩, rfl⟩

theorem nodup_nfoldTuples [DecidableEq α] (s : List α) (k : Nat) : (nfoldTuples s k).Nodup := by
  cases k with
  | zero =>
    unfold nfoldTuples cartesianProduct toSet
    exact nodup_foldl_setAdd id _ _ (by simp)
  | succ k => exact nodup_prependAll _ _

end Verif.SetTheory
