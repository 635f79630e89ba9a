import Verif.Model.FloatPolynomial
import Verif.Lemmas.FloatIntegration
import Verif.Lemmas.PolyRep
import Verif.Lemmas.NonFinite
import Verif.Props.PolynomialBernstein
/-!
# Rounding errors of the arithmetic of Bernstein polynomials
-/

namespace Verif.FloatPoly
open Verif Verif.Poly Verif.PyExpr Verif.FloatIntegration Verif.MI Verif.Spec

variable {ε : ℝ}

/-- All numbers in the (non-empty) set are `v` up to `k` roundings of terms of total size `M`. -/
def AllNear (ε : ℝ) (k : Nat) (v M : ℝ) (T : Set ℝ) : Prop := T.Nonempty ∧ ∀ t ∈ T, Near ε k v M t

theorem allNear_single (hε : 0 ≤ ε) (v : ℝ) : AllNear ε 0 v |v| {v} :=
  ⟨⟨v, rfl⟩, fun t ht => by rw [Set.mem_singleton_iff] at ht; subst ht; exact near_self hε 0 t⟩

theorem allNear_round (hε : 0 ≤ ε) (v : ℝ) : AllNear ε 1 v |v| (round ε v) :=
  ⟨⟨v, rounded_self hε⟩, fun _ ht => near_of_rounded ht⟩

theorem AllNear.mono (hε : 0 ≤ ε) {k l : Nat} {v M : ℝ} {T : Set ℝ} (h : AllNear ε k v M T) (hl : k ≤ l) : AllNear ε l v M T :=
  ⟨h.1, fun t ht => (h.2 t ht).mono hε hl⟩

theorem AllNear.mul (hε : 0 ≤ ε) {k l : Nat} {v w M N : ℝ} {A B : Set ℝ} (h : AllNear ε k v M A) (h' : AllNear ε l w N B) :
    AllNear ε (k + l + 1) (v * w) (M * N) (FloatPoly.mul ε A B) := by
  obtain ⟨⟨a, ha⟩, h1⟩ := h
  obtain ⟨⟨b, hb⟩, h2⟩ := h'
  refine ⟨⟨_, a, ha, b, hb, rounded_self hε⟩, ?_⟩
  rintro t ⟨a, ha, b, hb, ht⟩
  exact ((h1 a ha).mul hε (h2 b hb)).round hε ht

theorem AllNear.add (hε : 0 ≤ ε) {k : Nat} {v w M N : ℝ} {A B : Set ℝ} (h : AllNear ε k v M A) (h' : AllNear ε k w N B) :
    AllNear ε (k + 1) (v + w) (M + N) (FloatPoly.add ε A B) := by
  obtain ⟨⟨a, ha⟩, h1⟩ := h
  obtain ⟨⟨b, hb⟩, h2⟩ := h'
  refine ⟨⟨_, a, ha, b, hb, rounded_self hε⟩, ?_⟩
  rintro t ⟨a, ha, b, hb, ht⟩
  exact ((h1 a ha).add (h2 b hb)).round hε ht

theorem AllNear.sub (hε : 0 ≤ ε) {k : Nat} {v w M N : ℝ} {A B : Set ℝ} (h : AllNear ε k v M A) (h' : AllNear ε k w N B) :
    AllNear ε (k + 1) (v - w) (M + N) (FloatPoly.sub ε A B) := by
  obtain ⟨⟨a, ha⟩, h1⟩ := h
  obtain ⟨⟨b, hb⟩, h2⟩ := h'
  refine ⟨⟨_, a, ha, b, hb, rounded_self hε⟩, ?_⟩
  rintro t ⟨a, ha, b, hb, ht⟩
  have h3 : Near ε k (-w) N (-b) := ⟨by rw [abs_neg]; exact (h2 b hb).1, by rw [neg_sub_neg, abs_sub_comm]; exact (h2 b hb).2⟩
  have := ((h1 a ha).add h3).round hε (show Rounded ε (a + -b) t by rwa [← sub_eq_add_neg])
  rwa [← sub_eq_add_neg] at this

/-- Division by a rounded positive number. -/
theorem AllNear.div (hε : 0 ≤ ε) (hε' : ε ≤ 1 / 2) {k : Nat} {v M b : ℝ} {A : Set ℝ} (h : AllNear ε k v M A) (hb : 0 < b) :
    AllNear ε (k + 3) (v / b) (M / b) (FloatPoly.div ε A (round ε b)) := by
  obtain ⟨⟨a, ha⟩, h1⟩ := h
  refine ⟨⟨_, a, ha, b, rounded_self hε, rounded_self hε⟩, ?_⟩
  rintro t ⟨a, ha, c, hc, ht⟩
  have h2 := (near_inv hε hε' hb hc).2
  have := ((h1 a ha).mul hε h2).round hε (show Rounded ε (a * (1 / c)) t by rwa [mul_one_div])
  rwa [mul_one_div, mul_one_div] at this

theorem multinomGeneral_round (r : Nat) (ν : List Nat) (h : ν.sum ≤ r) : multinomGeneral ε r ν = .ok (round ε (multinomial r ν : ℝ)) := by
  have h1 := multinomGeneral_eq r ν h
  unfold MI.multinomGeneral at h1
  unfold FloatPoly.multinomGeneral
  rcases he : generalToExactNorm ν (r : Int) with e | a
  · rw [he] at h1; cases h1
  · rw [he, Py.bind_ok] at h1
    have h2 : MI.multinom a = (multinomial r ν : ℚ) := Except.ok.inj h1
    rw [Py.bind_ok]
    show Except.ok (FloatIntegration.multinom ε a) = _
    congr 1
    unfold FloatIntegration.multinom round
    rw [← multinom_real, h2]
    push_cast
    rfl

theorem binom_round (n k : Nat) (h : k ≤ n) : binom ε n k = round ε (multinomial n [k] : ℝ) := by
  rw [multinomial_one _ _ h]; rfl

/-- A sum of terms that are near to given numbers; the terms that do not satisfy `P` are skipped. -/
theorem sumLoop_near {ι : Type} (hε : 0 ≤ ε) (k : Nat) (f : ι → Py (Option (Set ℝ))) (l : List ι) (P : ι → Prop) [DecidablePred P]
    (T : ι → Set ℝ) (v M : ι → ℝ) (h0 : ∀ i ∈ l, ¬ P i → f i = .ok none) (h1 : ∀ i ∈ l, P i → f i = .ok (some (T i)))
    (h2 : ∀ i ∈ l, P i → AllNear ε k (v i) (M i) (T i)) :
    ∃ Y, sumLoop ε f l = .ok Y ∧ AllNear ε (k + (l.filter P).length) (l.map (fun i => if P i then v i else 0)).sum
      (l.map (fun i => if P i then M i else 0)).sum Y := by
  have hs : ∀ g : ι → ℝ, (l.map (fun i => if P i then g i else 0)).sum = ((l.filter P).map g).sum := by
    intro g
    induction l with
    | nil => rfl
    | cons a l ih =>
      rw [List.map_cons, List.sum_cons, ih (fun i hi => h0 i (by simp [hi])) (fun i hi => h1 i (by simp [hi])) (fun i hi => h2 i (by simp [hi]))]
      by_cases ha : P a
      · simp [ha]
      · simp [ha]
  have ht : (l.map (fun i => if P i then some (T i) else none)).filterMap id = (l.filter P).map T := by
    rw [List.filterMap_map]
    clear hs h0 h1 h2
    simp only [Function.comp_def, id]
    induction l with
    | nil => rfl
    | cons a l ih =>
      by_cases ha : P a
      · simp [ha, ih]
      · simp [ha, ih]
  refine ⟨sumTerms ε ((l.filter P).map T) 0, ?_, ?_⟩
  · unfold sumLoop
    rw [mapM_eq_ok (fun i => if P i then some (T i) else none)]
    · rw [Py.bind_ok, ht]; rfl
    · intro i hi
      by_cases hp : P i
      · rw [if_pos hp, h1 i hi hp]
      · rw [if_neg hp, h0 i hi hp]
  · rw [hs, hs]
    have hm : ∀ i ∈ l.filter P, i ∈ l ∧ P i := fun i hi => by simpa using hi
    exact sumTerms_map hε k (l.filter P) T v M (fun i hi => (h2 i (hm i hi).1 (hm i hi).2).1) (fun i hi => (h2 i (hm i hi).1 (hm i hi).2).2)

theorem fillLoop_sets_tab (m r : Nat) (f : List Nat → Py (Set ℝ)) (g : List Nat → Set ℝ)
    (h : ∀ ν, ν.length = m → ν.sum ≤ r → f ν = .ok (g ν)) :
    fillLoop f (generateAll m r) 0 (List.replicate (getDimension r m) {0}) = .ok (tab m r g) := by
  rw [generateAll_eq_mis]
  have := NonFinite.fillLoop_eq' f g (mis m r) [] (List.replicate (getDimension r m) {0})
    (fun x hx => h x (mem_mis.1 hx).1 (mem_mis.1 hx).2) (by simp [length_mis_eq])
  simpa [tab] using this

theorem fillLoop_sets_range (n : Nat) (f : Nat → Py (Set ℝ)) (g : Nat → Set ℝ) (h : ∀ i, i < n → f i = .ok (g i)) :
    fillLoop f (List.range n) 0 (List.replicate n {0}) = .ok ((List.range n).map g) := by
  have := NonFinite.fillLoop_eq' f g (List.range n) [] (List.replicate n {0}) (fun x hx => h x (List.mem_range.1 hx)) (by simp)
  simpa using this

theorem pyRange_length (lo hi : Nat) : (pyRange lo hi).length = hi - lo := by simp [pyRange]

/-- The number of terms in the sum for one coefficient. -/
theorem cap_length (m r s : Nat) (t : List Nat) (ht : t.length = m) :
    ((generateAllMultiCap t).filter (fun ν => (List.zipWith (· - ·) t ν).sum ≤ s ∧ ν.sum ≤ r)).length ≤ getDimension r m := by
  rw [← length_mis_eq]
  refine (((nodup_generateAllMultiCap t).filter _).subperm fun ν hν => ?_).length_le
  rw [List.mem_filter, mem_generateAllMultiCap] at hν
  rw [mem_mis]
  refine ⟨?_, ?_⟩
  · rw [← ht]; exact hν.1.length_eq
  · have := hν.2
    simp only [decide_eq_true_eq] at this
    exact this.2

/-- The product of two Bernstein polynomials. -/
theorem mulBernstein_near (hε : 0 ≤ ε) (hε' : ε ≤ 1 / 2) (p q : Obj ℝ) (f g : List Nat → ℝ) (hb : q.basis = .bernstein) (hm : p.m = q.m)
    (hp : p.coeff = tab p.m p.r f) (hq : q.coeff = tab q.m q.r g) :
    ∃ Y : List Nat → Set ℝ, mulBernstein ε p q = Obj.new .bernstein (tab p.m (p.r + q.r) Y) (some (p.r + q.r)) p.m ∧
      ∀ τ ∈ mis p.m (p.r + q.r), AllNear ε (getDimension p.r p.m + 8)
        (convCoeff p.m p.r q.r (fun ν μ => (multinomial p.r ν : ℝ) * (multinomial q.r μ : ℝ) / (multinomial (p.r + q.r) τ : ℝ) * f ν * g μ) τ)
        (convCoeff p.m p.r q.r (fun ν μ => (multinomial p.r ν : ℝ) * (multinomial q.r μ : ℝ) / (multinomial (p.r + q.r) τ : ℝ) * |f ν| * |g μ|) τ)
        (Y τ) := by
  have term : ∀ (ν μ τ : List Nat), τ.sum ≤ p.r + q.r → AllNear ε 8
      ((multinomial p.r ν : ℝ) * (multinomial q.r μ : ℝ) / (multinomial (p.r + q.r) τ : ℝ) * f ν * g μ)
      ((multinomial p.r ν : ℝ) * (multinomial q.r μ : ℝ) / (multinomial (p.r + q.r) τ : ℝ) * |f ν| * |g μ|)
      (FloatPoly.mul ε (FloatPoly.mul ε (FloatPoly.div ε (FloatPoly.mul ε (round ε (multinomial p.r ν : ℝ)) (round ε (multinomial q.r μ : ℝ)))
        (round ε (multinomial (p.r + q.r) τ : ℝ))) {f ν}) {g μ}) := by
    intro ν μ τ hτ
    have h := ((((allNear_round hε (multinomial p.r ν : ℝ)).mul hε (allNear_round hε (multinomial q.r μ : ℝ))).div hε hε'
      (b := (multinomial (p.r + q.r) τ : ℝ)) (by exact_mod_cast multinomial_pos _ _ hτ)).mul hε (allNear_single hε (f ν))).mul hε (allNear_single hε (g μ))
    rw [Nat.abs_cast, Nat.abs_cast] at h
    exact h
  unfold mulBernstein
  simp only [hb, hm, decide_true, pyAssert_true, Py.bind_ok]
  rw [hm] at hp
  by_cases h1 : q.m = 1
  · rw [if_pos h1, h1, getDimension_one]
    rw [h1] at hp hq
    have key : ∀ k, k < p.r + q.r + 1 → ∃ Y, sumLoop ε (fun i => do
          let a ← getE p.coeff i
          let b ← getE q.coeff (k - i)
          return some (FloatPoly.mul ε (FloatPoly.mul ε (FloatPoly.div ε (FloatPoly.mul ε (binom ε p.r i) (binom ε q.r (k - i))) (binom ε (p.r + q.r) k)) {a}) {b}))
          (pyRange (max 0 (k - q.r)) (min p.r k + 1)) = .ok Y ∧ AllNear ε (getDimension p.r 1 + 8)
        (convCoeff 1 p.r q.r (fun ν μ => (multinomial p.r ν : ℝ) * (multinomial q.r μ : ℝ) / (multinomial (p.r + q.r) [k] : ℝ) * f ν * g μ) [k])
        (convCoeff 1 p.r q.r (fun ν μ => (multinomial p.r ν : ℝ) * (multinomial q.r μ : ℝ) / (multinomial (p.r + q.r) [k] : ℝ) * |f ν| * |g μ|) [k]) Y := by
      intro k hk
      have hi' : ∀ i ∈ pyRange (max 0 (k - q.r)) (min p.r k + 1), max 0 (k - q.r) ≤ i ∧ i < min p.r k + 1 := by
        intro i hi
        unfold pyRange at hi; rw [List.mem_range'_1] at hi; omega
      obtain ⟨Y, hY, hN⟩ := sumLoop_near hε 8 (fun i => do
          let a ← getE p.coeff i
          let b ← getE q.coeff (k - i)
          return some (FloatPoly.mul ε (FloatPoly.mul ε (FloatPoly.div ε (FloatPoly.mul ε (binom ε p.r i) (binom ε q.r (k - i))) (binom ε (p.r + q.r) k)) {a}) {b}))
        (pyRange (max 0 (k - q.r)) (min p.r k + 1)) (fun _ => True)
        (fun i => FloatPoly.mul ε (FloatPoly.mul ε (FloatPoly.div ε (FloatPoly.mul ε (round ε (multinomial p.r [i] : ℝ)) (round ε (multinomial q.r [k - i] : ℝ)))
          (round ε (multinomial (p.r + q.r) [k] : ℝ))) {f [i]}) {g [k - i]})
        (fun i => (multinomial p.r [i] : ℝ) * (multinomial q.r [k - i] : ℝ) / (multinomial (p.r + q.r) [k] : ℝ) * f [i] * g [k - i])
        (fun i => (multinomial p.r [i] : ℝ) * (multinomial q.r [k - i] : ℝ) / (multinomial (p.r + q.r) [k] : ℝ) * |f [i]| * |g [k - i]|)
        (fun i _ h => absurd trivial h)
        (by
          intro i hi _
          have := hi' i hi
          rw [hp, getE_tab f (ν := [i]) (mis_one_get _ _ (by omega)), Py.bind_ok, hq, getE_tab g (ν := [k - i]) (mis_one_get _ _ (by omega)), Py.bind_ok,
            binom_round _ _ (by omega), binom_round _ _ (by omega), binom_round _ _ (by omega)]
          rfl)
        (fun i _ _ => term [i] [k - i] [k] (by simp; omega))
      refine ⟨Y, hY, ?_⟩
      simp only [if_true] at hN
      rw [range_sum p.r q.r k (by omega) (fun ν μ => (multinomial p.r ν : ℝ) * (multinomial q.r μ : ℝ) / (multinomial (p.r + q.r) [k] : ℝ) * f ν * g μ),
        range_sum p.r q.r k (by omega) (fun ν μ => (multinomial p.r ν : ℝ) * (multinomial q.r μ : ℝ) / (multinomial (p.r + q.r) [k] : ℝ) * |f ν| * |g μ|)] at hN
      refine hN.mono hε ?_
      have := List.length_filter_le (fun _ => decide True) (pyRange (max 0 (k - q.r)) (min p.r k + 1))
      rw [pyRange_length] at this
      rw [getDimension_one]
      omega
    choose! Y hY hN using key
    refine ⟨fun τ => Y (τ.headD 0), ?_, ?_⟩
    · rw [fillLoop_sets_range _ _ Y (fun k hk => hY k hk), Py.bind_ok, tab_one]
      rfl
    · intro τ hτ
      rw [mis_one, List.mem_map] at hτ
      obtain ⟨k, hk, rfl⟩ := hτ
      exact hN k (List.mem_range.1 hk)
  · rw [if_neg h1]
    have key : ∀ τ : List Nat, τ.length = q.m → τ.sum ≤ p.r + q.r → ∃ Y, sumLoop ε (fun nu => do
          let d ← MI.sub τ (nu.map Int.ofNat)
          if MI.norm d > q.r then return none
          else if MI.norm nu > p.r then return none
          else
            let i ← MI.getIndex nu p.r
            let j ← MI.getIndex d q.r
            let b1 ← multinomGeneral ε p.r nu
            let b2 ← multinomGeneral ε q.r d
            let b3 ← multinomGeneral ε ((p.r + q.r : Nat) : Int) τ
            let a ← getE p.coeff i
            let b ← getE q.coeff j
            return some (FloatPoly.mul ε (FloatPoly.mul ε (FloatPoly.div ε (FloatPoly.mul ε b1 b2) b3) {a}) {b}))
          (MI.generateAllMultiCap τ) = .ok Y ∧ AllNear ε (getDimension p.r q.m + 8)
        (convCoeff q.m p.r q.r (fun ν μ => (multinomial p.r ν : ℝ) * (multinomial q.r μ : ℝ) / (multinomial (p.r + q.r) τ : ℝ) * f ν * g μ) τ)
        (convCoeff q.m p.r q.r (fun ν μ => (multinomial p.r ν : ℝ) * (multinomial q.r μ : ℝ) / (multinomial (p.r + q.r) τ : ℝ) * |f ν| * |g μ|) τ) Y := by
      intro τ hl hs
      obtain ⟨Y, hY, hN⟩ := sumLoop_near hε 8 (fun nu => do
          let d ← MI.sub τ (nu.map Int.ofNat)
          if MI.norm d > q.r then return none
          else if MI.norm nu > p.r then return none
          else
            let i ← MI.getIndex nu p.r
            let j ← MI.getIndex d q.r
            let b1 ← multinomGeneral ε p.r nu
            let b2 ← multinomGeneral ε q.r d
            let b3 ← multinomGeneral ε ((p.r + q.r : Nat) : Int) τ
            let a ← getE p.coeff i
            let b ← getE q.coeff j
            return some (FloatPoly.mul ε (FloatPoly.mul ε (FloatPoly.div ε (FloatPoly.mul ε b1 b2) b3) {a}) {b}))
        (MI.generateAllMultiCap τ) (fun ν => (List.zipWith (· - ·) τ ν).sum ≤ q.r ∧ ν.sum ≤ p.r)
        (fun ν => FloatPoly.mul ε (FloatPoly.mul ε (FloatPoly.div ε (FloatPoly.mul ε (round ε (multinomial p.r ν : ℝ))
          (round ε (multinomial q.r (List.zipWith (· - ·) τ ν) : ℝ))) (round ε (multinomial (p.r + q.r) τ : ℝ))) {f ν}) {g (List.zipWith (· - ·) τ ν)})
        (fun ν => (multinomial p.r ν : ℝ) * (multinomial q.r (List.zipWith (· - ·) τ ν) : ℝ) / (multinomial (p.r + q.r) τ : ℝ) * f ν *
          g (List.zipWith (· - ·) τ ν))
        (fun ν => (multinomial p.r ν : ℝ) * (multinomial q.r (List.zipWith (· - ·) τ ν) : ℝ) / (multinomial (p.r + q.r) τ : ℝ) * |f ν| *
          |g (List.zipWith (· - ·) τ ν)|)
        (by
          intro ν hν hP
          rw [mem_generateAllMultiCap] at hν
          simp only [MI.sub_natCast _ _ hν, Py.bind_ok]
          by_cases c1 : MI.norm (List.zipWith (· - ·) τ ν) ≤ q.r
          · rw [if_neg (not_lt.2 c1), if_pos (show MI.norm ν > p.r from not_le.1 fun h => hP ⟨c1, h⟩)]; rfl
          · rw [if_pos (not_le.1 c1)]; rfl)
        (by
          intro ν hν hP
          rw [mem_generateAllMultiCap] at hν
          have hlen : ν.length = q.m := by rw [← hl]; exact hν.length_eq
          simp only [MI.sub_natCast _ _ hν, Py.bind_ok]
          rw [if_neg (not_lt.2 (show MI.norm (List.zipWith (· - ·) τ ν) ≤ q.r from hP.1)), if_neg (not_lt.2 (show MI.norm ν ≤ p.r from hP.2))]
          obtain ⟨k1, e1, -, e2, -⟩ := index_tab (W := ℝ) (m := q.m) (r := p.r) (ν := ν) hlen hP.2
          obtain ⟨k2, e3, -, e4, -⟩ := index_tab (W := ℝ) (m := q.m) (r := q.r) (ν := List.zipWith (· - ·) τ ν) (by simp [hl, hlen]) hP.1
          rw [e1, Py.bind_ok, e3, Py.bind_ok, multinomGeneral_round _ _ hP.2, Py.bind_ok, multinomGeneral_round _ _ hP.1, Py.bind_ok,
            multinomGeneral_round _ _ hs, Py.bind_ok, hp, e2, Py.bind_ok, hq, e4, Py.bind_ok]
          rfl)
        (fun ν _ _ => term ν _ τ hs)
      refine ⟨Y, hY, ?_⟩
      obtain ⟨t, rfl⟩ := eq_ofFn hl
      rw [sum_cap, sum_cap] at hN
      simp only [zipWith_sub_ofFn, List.sum_ofFn] at hN
      rw [cap_sum q.m p.r q.r t (fun ν μ => (multinomial p.r ν : ℝ) * (multinomial q.r μ : ℝ) / (multinomial (p.r + q.r) (List.ofFn t) : ℝ) * f ν * g μ),
        cap_sum q.m p.r q.r t (fun ν μ => (multinomial p.r ν : ℝ) * (multinomial q.r μ : ℝ) / (multinomial (p.r + q.r) (List.ofFn t) : ℝ) * |f ν| * |g μ|)] at hN
      refine hN.mono hε ?_
      have := cap_length q.m p.r q.r (List.ofFn t) (by simp)
      omega
    choose! Y hY hN using key
    refine ⟨Y, ?_, fun τ hτ => hN τ (mem_mis.1 hτ).1 (mem_mis.1 hτ).2⟩
    rw [fillLoop_sets_tab q.m (p.r + q.r) _ Y (fun ν h1 h2 => hY ν h1 h2), Py.bind_ok]

theorem multinom_round (d : List Nat) : FloatIntegration.multinom ε d = round ε ((MI.multinom d : ℚ) : ℝ) := by
  unfold FloatIntegration.multinom round
  rw [multinom_real]

/-- Degree elevation of a Bernstein polynomial. -/
theorem degreeElevateBernstein_near (hε : 0 ≤ ε) (hε' : ε ≤ 1 / 2) (p : Obj ℝ) (f : List Nat → ℝ) (s : Nat) (hp : p.coeff = tab p.m p.r f)
    (h : p.r < s) :
    ∃ Y : List Nat → Set ℝ, degreeElevateBernstein ε p s = Obj.new .bernstein (tab p.m s Y) (some s) p.m ∧
      ∀ τ ∈ mis p.m s, AllNear ε (getDimension p.r p.m + 10)
        (convCoeff p.m p.r (s - p.r) (fun ν μ => ((multinomial p.r ν : ℝ) * (multinomial (s - p.r) μ : ℝ) * (1 / (multinomial s τ : ℝ))) * f ν) τ)
        (convCoeff p.m p.r (s - p.r) (fun ν μ => ((multinomial p.r ν : ℝ) * (multinomial (s - p.r) μ : ℝ) * (1 / (multinomial s τ : ℝ))) * |f ν|) τ)
        (Y τ) := by
  unfold degreeElevateBernstein
  simp only [h.le, ge_iff_le, decide_true, pyAssert_true, Py.bind_ok, h.ne', ↓reduceIte]
  by_cases h1 : p.m = 1
  · rw [if_pos h1, h1, getDimension_one]
    rw [h1] at hp
    have key : ∀ k, k < s + 1 → ∃ Y, sumLoop ε (fun i => do
            let a ← getE p.coeff i
            return some (FloatPoly.mul ε (FloatPoly.mul ε (FloatPoly.mul ε (binom ε p.r i) (binom ε (s - p.r) (k - i))) (FloatPoly.div ε {1} (binom ε s k))) {a}))
            (pyRange (max 0 (k - (s - p.r))) (min p.r k + 1)) = .ok Y ∧ AllNear ε (getDimension p.r 1 + 10)
        (convCoeff 1 p.r (s - p.r) (fun ν μ => ((multinomial p.r ν : ℝ) * (multinomial (s - p.r) μ : ℝ) * (1 / (multinomial s [k] : ℝ))) * f ν) [k])
        (convCoeff 1 p.r (s - p.r) (fun ν μ => ((multinomial p.r ν : ℝ) * (multinomial (s - p.r) μ : ℝ) * (1 / (multinomial s [k] : ℝ))) * |f ν|) [k]) Y := by
      intro k hk
      have hi' : ∀ i ∈ pyRange (max 0 (k - (s - p.r))) (min p.r k + 1), max 0 (k - (s - p.r)) ≤ i ∧ i < min p.r k + 1 := by
        intro i hi
        unfold pyRange at hi; rw [List.mem_range'_1] at hi; omega
      obtain ⟨Y, hY, hN⟩ := sumLoop_near hε 10 (fun i => do
            let a ← getE p.coeff i
            return some (FloatPoly.mul ε (FloatPoly.mul ε (FloatPoly.mul ε (binom ε p.r i) (binom ε (s - p.r) (k - i))) (FloatPoly.div ε {1} (binom ε s k))) {a}))
        (pyRange (max 0 (k - (s - p.r))) (min p.r k + 1)) (fun _ => True)
        (fun i => FloatPoly.mul ε (FloatPoly.mul ε (FloatPoly.mul ε (round ε (multinomial p.r [i] : ℝ)) (round ε (multinomial (s - p.r) [k - i] : ℝ)))
          (FloatPoly.div ε {1} (round ε (multinomial s [k] : ℝ)))) {f [i]})
        (fun i => ((multinomial p.r [i] : ℝ) * (multinomial (s - p.r) [k - i] : ℝ) * (1 / (multinomial s [k] : ℝ))) * f [i])
        (fun i => ((multinomial p.r [i] : ℝ) * (multinomial (s - p.r) [k - i] : ℝ) * (1 / (multinomial s [k] : ℝ))) * |f [i]|)
        (fun i _ h => absurd trivial h)
        (by
          intro i hi _
          have := hi' i hi
          rw [hp, getE_tab f (ν := [i]) (mis_one_get _ _ (by omega)), Py.bind_ok,
            binom_round _ _ (by omega), binom_round _ _ (by omega), binom_round _ _ (by omega)]
          rfl)
        (by
          intro i _ _
          have := (((allNear_round hε (multinomial p.r [i] : ℝ)).mul hε (allNear_round hε (multinomial (s - p.r) [k - i] : ℝ))).mul hε
            ((allNear_single hε 1).div hε hε' (b := (multinomial s [k] : ℝ)) (by exact_mod_cast multinomial_pos _ _ (by simp; omega)))).mul hε
            (allNear_single hε (f [i]))
          rw [Nat.abs_cast, Nat.abs_cast, abs_one] at this
          exact this.mono hε (by omega))
      refine ⟨Y, hY, ?_⟩
      simp only [if_true] at hN
      rw [range_sum p.r (s - p.r) k (by omega) (fun ν μ => ((multinomial p.r ν : ℝ) * (multinomial (s - p.r) μ : ℝ) * (1 / (multinomial s [k] : ℝ))) * f ν),
        range_sum p.r (s - p.r) k (by omega)
          (fun ν μ => ((multinomial p.r ν : ℝ) * (multinomial (s - p.r) μ : ℝ) * (1 / (multinomial s [k] : ℝ))) * |f ν|)] at hN
      refine hN.mono hε ?_
      have := List.length_filter_le (fun _ => decide True) (pyRange (max 0 (k - (s - p.r))) (min p.r k + 1))
      rw [pyRange_length] at this
      rw [getDimension_one]
      omega
    choose! Y hY hN using key
    refine ⟨fun τ => Y (τ.headD 0), ?_, ?_⟩
    · rw [fillLoop_sets_range _ _ Y (fun k hk => hY k hk), Py.bind_ok, tab_one]
      rfl
    · intro τ hτ
      rw [mis_one, List.mem_map] at hτ
      obtain ⟨k, hk, rfl⟩ := hτ
      exact hN k (List.mem_range.1 hk)
  · rw [if_neg h1]
    have key : ∀ τ : List Nat, τ.length = p.m → τ.sum ≤ s → ∃ Y, (do
          let c ← multinomGeneral ε s τ
          sumLoop ε (fun sigma => do
            if (MI.norm sigma : Int) < (MI.norm τ : Int) - ((s : Int) - (p.r : Int)) then return none
            else if MI.norm sigma > p.r then return none
            else
              let idx ← MI.getIndex sigma p.r
              let b1 ← multinomGeneral ε p.r sigma
              let d ← MI.sub τ (sigma.map Int.ofNat)
              let a ← getE p.coeff idx
              return some (FloatPoly.mul ε (FloatPoly.mul ε (FloatPoly.mul ε (FloatPoly.mul ε b1 (binom ε (s - p.r) (MI.norm d))) (multinom ε d))
                (FloatPoly.div ε {1} c)) {a}))
            (MI.generateAllMultiCap τ)) = .ok Y ∧ AllNear ε (getDimension p.r p.m + 10)
        (convCoeff p.m p.r (s - p.r) (fun ν μ => ((multinomial p.r ν : ℝ) * (multinomial (s - p.r) μ : ℝ) * (1 / (multinomial s τ : ℝ))) * f ν) τ)
        (convCoeff p.m p.r (s - p.r) (fun ν μ => ((multinomial p.r ν : ℝ) * (multinomial (s - p.r) μ : ℝ) * (1 / (multinomial s τ : ℝ))) * |f ν|) τ) Y := by
      intro τ hl hs
      rw [multinomGeneral_round _ _ hs, Py.bind_ok]
      have hnorm : ∀ ν ∈ generateAllMultiCap τ, MI.norm (List.zipWith (· - ·) τ ν) + MI.norm ν = MI.norm τ := by
        intro ν hν
        rw [mem_generateAllMultiCap] at hν
        have hlen : ν.length = p.m := by rw [← hl]; exact hν.length_eq
        obtain ⟨t, rfl⟩ := eq_ofFn hl
        obtain ⟨n, rfl⟩ := eq_ofFn hlen
        have hle := (isCapped_ofFn t n).1 hν
        have hsub := sum_sub hle
        have hle' : ∑ i, n i ≤ ∑ i, t i := Finset.sum_le_sum (fun i _ => hle i)
        simp only [MI.norm, zipWith_sub_ofFn, List.sum_ofFn]
        omega
      have hns : MI.norm τ ≤ s := hs
      obtain ⟨Y, hY, hN⟩ := sumLoop_near hε 10 (fun sigma => do
            if (MI.norm sigma : Int) < (MI.norm τ : Int) - ((s : Int) - (p.r : Int)) then return none
            else if MI.norm sigma > p.r then return none
            else
              let idx ← MI.getIndex sigma p.r
              let b1 ← multinomGeneral ε p.r sigma
              let d ← MI.sub τ (sigma.map Int.ofNat)
              let a ← getE p.coeff idx
              return some (FloatPoly.mul ε (FloatPoly.mul ε (FloatPoly.mul ε (FloatPoly.mul ε b1 (binom ε (s - p.r) (MI.norm d))) (multinom ε d))
                (FloatPoly.div ε {1} (round ε (multinomial s τ : ℝ)))) {a}))
        (MI.generateAllMultiCap τ) (fun ν => (List.zipWith (· - ·) τ ν).sum ≤ s - p.r ∧ ν.sum ≤ p.r)
        (fun ν => FloatPoly.mul ε (FloatPoly.mul ε (FloatPoly.mul ε (FloatPoly.mul ε (round ε (multinomial p.r ν : ℝ))
          (round ε ((s - p.r).choose (MI.norm (List.zipWith (· - ·) τ ν)) : ℝ))) (round ε ((MI.multinom (List.zipWith (· - ·) τ ν) : ℚ) : ℝ)))
          (FloatPoly.div ε {1} (round ε (multinomial s τ : ℝ)))) {f ν})
        (fun ν => ((multinomial p.r ν : ℝ) * (multinomial (s - p.r) (List.zipWith (· - ·) τ ν) : ℝ) * (1 / (multinomial s τ : ℝ))) * f ν)
        (fun ν => ((multinomial p.r ν : ℝ) * (multinomial (s - p.r) (List.zipWith (· - ·) τ ν) : ℝ) * (1 / (multinomial s τ : ℝ))) * |f ν|)
        (by
          intro ν hν hP
          have hn := hnorm ν hν
          by_cases c1 : MI.norm (List.zipWith (· - ·) τ ν) ≤ s - p.r
          · have c2 : MI.norm ν > p.r := not_le.1 fun h => hP ⟨c1, h⟩
            rw [if_neg (by omega), if_pos c2]; rfl
          · rw [if_pos (by omega)]; rfl)
        (by
          intro ν hν hP
          have hn := hnorm ν hν
          have c1 : MI.norm (List.zipWith (· - ·) τ ν) ≤ s - p.r := hP.1
          have c2 : MI.norm ν ≤ p.r := hP.2
          rw [if_neg (by omega), if_neg (by omega)]
          rw [mem_generateAllMultiCap] at hν
          have hlen : ν.length = p.m := by rw [← hl]; exact hν.length_eq
          obtain ⟨k1, e1, -, e2, -⟩ := index_tab (W := ℝ) (m := p.m) (r := p.r) (ν := ν) hlen hP.2
          rw [e1, Py.bind_ok, multinomGeneral_round _ _ hP.2, Py.bind_ok, MI.sub_natCast _ _ hν, Py.bind_ok, hp, e2, Py.bind_ok, multinom_round]
          rfl)
        (by
          intro ν hν hP
          have hc := congrArg (fun q : ℚ => (q : ℝ)) (choose_mul_multinom (s - p.r) (List.zipWith (· - ·) τ ν) hP.1)
          simp only [Rat.cast_mul, Rat.cast_natCast] at hc
          have h0 : (0 : ℝ) ≤ ((MI.multinom (List.zipWith (· - ·) τ ν) : ℚ) : ℝ) := by
            rw [multinom_real]; positivity
          have := ((((allNear_round hε (multinomial p.r ν : ℝ)).mul hε
            (allNear_round hε ((s - p.r).choose (MI.norm (List.zipWith (· - ·) τ ν)) : ℝ))).mul hε
            (allNear_round hε ((MI.multinom (List.zipWith (· - ·) τ ν) : ℚ) : ℝ))).mul hε
            ((allNear_single hε 1).div hε hε' (b := (multinomial s τ : ℝ)) (by exact_mod_cast multinomial_pos _ _ hs))).mul hε
            (allNear_single hε (f ν))
          rw [Nat.abs_cast, Nat.abs_cast, abs_one, abs_of_nonneg h0, mul_assoc (multinomial p.r ν : ℝ), hc] at this
          exact this)
      refine ⟨Y, hY, ?_⟩
      obtain ⟨t, rfl⟩ := eq_ofFn hl
      rw [sum_cap, sum_cap] at hN
      simp only [zipWith_sub_ofFn, List.sum_ofFn] at hN
      rw [cap_sum p.m p.r (s - p.r) t
          (fun ν μ => ((multinomial p.r ν : ℝ) * (multinomial (s - p.r) μ : ℝ) * (1 / (multinomial s (List.ofFn t) : ℝ))) * f ν),
        cap_sum p.m p.r (s - p.r) t
          (fun ν μ => ((multinomial p.r ν : ℝ) * (multinomial (s - p.r) μ : ℝ) * (1 / (multinomial s (List.ofFn t) : ℝ))) * |f ν|)] at hN
      refine hN.mono hε ?_
      have := cap_length p.m p.r (s - p.r) (List.ofFn t) (by simp)
      omega
    choose! Y hY hN using key
    refine ⟨Y, ?_, fun τ hτ => hN τ (mem_mis.1 hτ).1 (mem_mis.1 hτ).2⟩
    rw [fillLoop_sets_tab p.m s _ Y (fun ν h1 h2 => hY ν h1 h2), Py.bind_ok]

/-- Partial derivatives of a Bernstein polynomial. -/
theorem partialDerivativeBernstein_near (hε : 0 ≤ ε) (p : Obj ℝ) (f : List Nat → ℝ) (i : Nat) (hp : p.coeff = tab p.m p.r f) (hi : i < p.m)
    (hr : p.r ≠ 0) :
    ∃ Y : List Nat → Set ℝ, partialDerivativeBernstein ε p i = Obj.new .bernstein (tab p.m (p.r - 1) Y) (some (p.r - 1)) p.m ∧
      ∀ τ, AllNear ε 2 ((p.r : ℝ) * (f (incAt τ i) - f τ)) ((p.r : ℝ) * (|f (incAt τ i)| + |f τ|)) (Y τ) := by
  refine ⟨fun τ => FloatPoly.mul ε (FloatPoly.sub ε {f (incAt τ i)} {f τ}) {(p.r : ℝ)}, ?_, fun τ => ?_⟩
  · unfold partialDerivativeBernstein
    simp only [hi, decide_true, pyAssert_true, Py.bind_ok, hr, ↓reduceIte]
    by_cases h1 : p.m = 1
    · rw [if_pos h1, h1]
      rw [h1] at hp
      rw [fillLoop_sets_range p.r _ (fun k => FloatPoly.sub ε {f [k + 1]} {f [k]})]
      · simp only [Py.bind_ok]
        congr 1
        rw [tab_one, List.map_map, Nat.sub_add_cancel (by omega)]
        refine List.map_congr_left (fun k _ => ?_)
        have : i = 0 := by omega
        subst this
        simp [incAt]
      · intro k hk
        rw [hp, getE_tab f (ν := [k + 1]) (mis_one_get _ _ (by omega))]
        simp only [Py.bind_ok]
        rw [getE_tab f (ν := [k]) (mis_one_get _ _ (by omega))]
        simp
    · rw [if_neg h1]
      rw [fillLoop_sets_tab p.m (p.r - 1) _ (fun τ => FloatPoly.sub ε {f (incAt τ i)} {f τ})]
      · simp only [Py.bind_ok]
        congr 1
        simp [tab]
      · intro τ hl hs
        rw [unit_ok p.m i hi]; simp only [Py.bind_ok]
        rw [add_natCast]; simp only [Py.bind_ok]
        rw [← hl, zipWith_unit τ i (by omega)]
        obtain ⟨k, hk1, -, hk2, -⟩ := index_tab (W := ℝ) (m := p.m) (r := p.r) (ν := incAt τ i)
          (by simp [incAt, hl]) (by rw [sum_incAt _ _ (by omega)]; omega)
        obtain ⟨k', hk3, -, hk4, -⟩ := index_tab (W := ℝ) (m := p.m) (r := p.r) (ν := τ) hl (by omega)
        rw [hk1]; simp only [Py.bind_ok]
        rw [hk3]; simp only [Py.bind_ok]
        rw [hp, hk2]; simp only [Py.bind_ok]
        rw [hk4]; simp
  · have := ((allNear_single hε (f (incAt τ i))).sub hε (allNear_single hε (f τ))).mul hε (allNear_single hε (p.r : ℝ))
    rw [Nat.abs_cast, mul_comm (f (incAt τ i) - f τ), mul_comm (|f (incAt τ i)| + |f τ|)] at this
    exact this

/-- The value of a polynomial whose coefficients are known up to rounding errors, at a point of the unit simplex. -/
theorem value_near {k m r : Nat} {c v M : List Nat → ℝ} (h : ∀ τ ∈ mis m r, Near ε k (v τ) (M τ) (c τ)) {x : Fin m → ℝ} (hx : x ∈ unitSimplex m) :
    |val .bernstein m r c x - val .bernstein m r v x| ≤ ((1 + ε) ^ k - 1) * val .bernstein m r M x := by
  unfold val
  rw [← Finset.sum_sub_distrib, Finset.mul_sum]
  refine (Finset.abs_sum_le_sum_abs _ _).trans (Finset.sum_le_sum fun ν hν => ?_)
  have hb : 0 ≤ basisFn .bernstein r (List.ofFn x) (List.ofFn ν) := Verif.Props.bernstein_nonneg r x ν hx.1 hx.2
  have := (h (List.ofFn ν) (mem_mis.2 ⟨by simp, by rw [List.sum_ofFn]; exact mem_S.1 hν⟩)).2
  rw [smul_eq_mul, smul_eq_mul, smul_eq_mul, ← mul_sub, abs_mul, abs_of_nonneg hb]
  calc _ ≤ basisFn .bernstein r (List.ofFn x) (List.ofFn ν) * (((1 + ε) ^ k - 1) * M (List.ofFn ν)) := mul_le_mul_of_nonneg_left this hb
    _ = _ := by ring

end Verif.FloatPoly
