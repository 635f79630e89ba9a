import Verif.Model.FloatSecondDifference
import Verif.Props.FloatDifference
import Verif.Lemmas.FloatIntegration
/-!
# C101: the accuracy of second order finite differences in floating point arithmetic
-/

namespace Verif.Props
open Verif Verif.FloatIntegration Verif.FloatPoly Verif.FloatDifference Verif.FinDiff Verif.PyExpr Set

namespace C101aux

variable {ε δ : ℝ}

theorem near_sub {k : Nat} {v w M N c d : ℝ} (h : Near ε k v M c) (h' : Near ε k w N d) : Near ε k (v - w) (M + N) (c - d) := by
  refine ⟨(abs_sub _ _).trans (add_le_add h.1 h'.1), ?_⟩
  rw [show c - d - (v - w) = (c - v) - (d - w) by ring, mul_add]
  exact (abs_sub _ _).trans (add_le_add h.2 h'.2)

theorem near_le (hε : 0 ≤ ε) (k : Nat) {v M : ℝ} (h : |v| ≤ M) : Near ε k v M v :=
  ⟨h, by rw [sub_self, abs_zero]; exact mul_nonneg (by have := one_le_base hε k; linarith) ((abs_nonneg _).trans h)⟩

theorem near_enlarge (hε : 0 ≤ ε) {k : Nat} {v M N c : ℝ} (h : Near ε k v M c) (hN : M ≤ N) : Near ε k v N c :=
  ⟨h.1.trans hN, h.2.trans (mul_le_mul_of_nonneg_left hN (by have := one_le_base hε k; linarith))⟩

theorem abs_value {c v B : ℝ} (h : |c - v| ≤ δ) (hv : |v| ≤ B) : |c| ≤ B + δ := by
  have : |c| ≤ |c - v| + |v| := by simpa using abs_add_le (c - v) v
  linarith

theorem second_quotient (hε : 0 ≤ ε) (hε' : ε ≤ 1 / 2) {h V y : ℝ} (hh : h ≠ 0) {A B C : Set ℝ} (hA : ∀ a ∈ A, |a| ≤ V) (hB : ∀ b ∈ B, |b| ≤ V)
    (hC : ∀ c ∈ C, |c| ≤ V) (hy : y ∈ FloatPoly.div ε (FloatPoly.add ε (FloatPoly.sub ε A (FloatPoly.mul ε {2} B)) C) (FloatPoly.round ε (h ^ 2))) :
    ∃ a ∈ A, ∃ b ∈ B, ∃ c ∈ C, |y - (a - 2 * b + c) / h ^ 2| ≤ ((1 + ε) ^ 6 - 1) * (4 * V) / h ^ 2 := by
  obtain ⟨s, ⟨t, ⟨a, ha, u, ⟨w, hw, b, hb, hu⟩, ht⟩, c, hc, hs⟩, q, hq, hy⟩ := hy
  obtain rfl : w = 2 := hw
  refine ⟨a, ha, b, hb, c, hc, ?_⟩
  have hu' : Near ε 1 (2 * b) (2 * V) u :=
    (near_le hε 0 (show |2 * b| ≤ 2 * V by rw [abs_mul, abs_of_pos (by norm_num : (0 : ℝ) < 2)]; linarith [hB b hb])).round hε hu
  have ht' : Near ε 2 (a - 2 * b) (V + 2 * V) t := (near_sub (near_le hε 1 (hA a ha)) hu').round hε ht
  have hs' : Near ε 3 (a - 2 * b + c) (V + 2 * V + V) s := (ht'.add (near_le hε 2 (hC c hc))).round hε hs
  have hq' := (near_inv hε hε' (by positivity : (0 : ℝ) < h ^ 2) hq).2
  have hy' : Near ε 6 ((a - 2 * b + c) * (1 / h ^ 2)) ((V + 2 * V + V) * (1 / h ^ 2)) y :=
    (hs'.mul hε hq').round hε (by rwa [mul_one_div])
  have := hy'.2
  rw [mul_one_div] at this
  refine this.trans (le_of_eq ?_)
  ring

theorem combineFour_near (hε : 0 ≤ ε) (hε' : ε ≤ 1 / 2) {h V y : ℝ} (hh : h ≠ 0) {A B C D : Set ℝ} (hA : ∀ a ∈ A, |a| ≤ V) (hB : ∀ b ∈ B, |b| ≤ V)
    (hC : ∀ c ∈ C, |c| ≤ V) (hD : ∀ d ∈ D, |d| ≤ V) (hy : y ∈ combineFour ε h A B C D) :
    ∃ a ∈ A, ∃ b ∈ B, ∃ c ∈ C, ∃ d ∈ D, |y - (a - b - c + d) / h ^ 2| ≤ ((1 + ε) ^ 7 - 1) * (4 * V) / h ^ 2 := by
  obtain ⟨s, ⟨t, ⟨u, ⟨a, ha, b, hb, hu⟩, c, hc, ht⟩, d, hd, hs⟩, g, ⟨w, hw, q, hq, hg⟩, hy⟩ := hy
  obtain rfl : w = 1 := hw
  refine ⟨a, ha, b, hb, c, hc, d, hd, ?_⟩
  have hu' : Near ε 1 (a - b) (V + V) u := (near_sub (near_le hε 0 (hA a ha)) (near_le hε 0 (hB b hb))).round hε hu
  have ht' : Near ε 2 (a - b - c) (V + V + V) t := (near_sub hu' (near_le hε 1 (hC c hc))).round hε ht
  have hs' : Near ε 3 (a - b - c + d) (V + V + V + V) s := (ht'.add (near_le hε 2 (hD d hd))).round hε hs
  have hg' := ((near_inv hε hε' (by positivity : (0 : ℝ) < h ^ 2) hq).2).round hε hg
  have hy' : Near ε 7 ((a - b - c + d) * (1 / h ^ 2)) ((V + V + V + V) * (1 / h ^ 2)) y := (hs'.mul hε hg').round hε hy
  have := hy'.2
  rw [mul_one_div] at this
  refine this.trans (le_of_eq ?_)
  ring

/-- Lipschitz bound on an interval from a bound of the derivative. -/
theorem lipschitz {F D : ℝ → ℝ} {x ρ L u v : ℝ} (h1 : ∀ t, |t - x| ≤ ρ → HasDerivAt F (D t) t) (hL : ∀ t, |t - x| ≤ ρ → |D t| ≤ L) (hu : |u - x| ≤ ρ)
    (hv : |v - x| ≤ ρ) : |F v - F u| ≤ L * |v - u| := by
  have hm : ∀ t ∈ uIcc u v, |t - x| ≤ ρ := by
    intro t ht
    rw [abs_le] at *
    rcases le_total u v with h | h
    · rw [uIcc_of_le h] at ht; exact ⟨by linarith [ht.1], by linarith [ht.2]⟩
    · rw [uIcc_of_ge h] at ht; exact ⟨by linarith [ht.1], by linarith [ht.2]⟩
  obtain ⟨c, hc, e⟩ := mean_value (fun t ht => h1 t (hm t ht))
  rw [e, abs_mul]
  exact mul_le_mul_of_nonneg_right (hL c (hm c hc)) (abs_nonneg _)

end C101aux
open C101aux

/-- **C101** Second forward differences of univariate functions with rounding: `η` bounds the errors of the points, `ρ` their distances from `x`, `B` the
values of the function, `L` its first and `M` its third derivatives. -/
theorem C101_second_forward_rounding (ε δ : ℝ) (hε : 0 ≤ ε) (hε' : ε ≤ 1 / 2) (hδ : 0 ≤ δ) (F D D2 D3 : ℝ → ℝ) (x h B L M η ρ : ℝ) (hh : h ≠ 0)
    (hη : η = ((1 + ε) ^ 2 - 1) * (|x| + 2 * |h|)) (hρ : ρ = 2 * |h| + η) (hB : ∀ t, |t - x| ≤ ρ → |F t| ≤ B)
    (h1 : ∀ t, |t - x| ≤ ρ → HasDerivAt F (D t) t) (h2 : ∀ t, |t - x| ≤ ρ → HasDerivAt D (D2 t) t) (h3 : ∀ t, |t - x| ≤ ρ → HasDerivAt D2 (D3 t) t)
    (hL : ∀ t, |t - x| ≤ ρ → |D t| ≤ L) (hM : ∀ t, |t - x| ≤ ρ → |D3 t| ≤ M) :
    (FloatDifference.secondForward1 ε δ F x h).Nonempty ∧ ∀ y ∈ FloatDifference.secondForward1 ε δ F x h,
      |y - D2 x| ≤ (((1 + ε) ^ 6 - 1) * (4 * (B + δ)) + 4 * δ + 3 * (L * η)) / h ^ 2 + M * |h| := by
  have hb : 0 ≤ (1 + ε) ^ 2 - 1 := by have := one_le_base hε 2; linarith
  have hη0 : 0 ≤ η := by rw [hη]; positivity
  have hρ2 : 2 * |h| ≤ ρ := by linarith
  have hx : |x - x| ≤ ρ := by rw [sub_self, abs_zero]; linarith [abs_nonneg h]
  have hL0 : 0 ≤ L := (abs_nonneg _).trans (hL x hx)
  refine ⟨⟨_, _, ⟨_, ⟨F (x + 2 * h), ⟨x + 2 * h, ⟨x, rfl, 2 * h, ⟨2, rfl, h, rfl, rounded_self hε⟩, rounded_self hε⟩, by simpa using hδ⟩, 2 * F (x + h),
    ⟨2, rfl, F (x + h), ⟨x + h, ⟨x, rfl, h, rfl, rounded_self hε⟩, by simpa using hδ⟩, rounded_self hε⟩, rounded_self hε⟩, F x, ⟨x, rfl, by simpa using hδ⟩,
    rounded_self hε⟩, h ^ 2, rounded_self hε, rounded_self hε⟩, fun y hy => ?_⟩
  have p2 : ∀ z ∈ FloatPoly.add ε {x} (FloatPoly.mul ε {2} {h}), |z - (x + 2 * h)| ≤ η := by
    rintro z ⟨x', rfl, g, ⟨w, hw, h', rfl, hg⟩, hz⟩
    obtain rfl : w = 2 := hw
    have n1 : Near ε 1 (2 * h') (2 * |h'|) g :=
      (near_le hε 0 (show |2 * h'| ≤ 2 * |h'| by rw [abs_mul, abs_of_pos (by norm_num : (0 : ℝ) < 2)])).round hε hg
    rw [hη]
    exact (((near_le hε 1 (le_refl |x'|)).add n1).round hε hz).2
  have p1 : ∀ z ∈ FloatPoly.add ε {x} {h}, |z - (x + h)| ≤ η := by
    rintro z ⟨x', rfl, h', rfl, hz⟩
    rw [hη]
    exact (near_enlarge hε ((((near_le hε 0 (le_refl |x'|)).add (near_le hε 0 (le_refl |h'|))).round hε hz).mono hε (by norm_num : 0 + 1 ≤ 2))
      (by linarith [abs_nonneg h'])).2
  have r2 : ∀ z, |z - (x + 2 * h)| ≤ η → |z - x| ≤ ρ := fun z hz => by
    have : |z - x| ≤ |z - (x + 2 * h)| + |2 * h| := by
      calc |z - x| = |(z - (x + 2 * h)) + 2 * h| := by congr 1; ring
        _ ≤ _ := abs_add_le _ _
    rw [abs_mul, abs_of_pos (by norm_num : (0 : ℝ) < 2)] at this
    linarith
  have r1 : ∀ z, |z - (x + h)| ≤ η → |z - x| ≤ ρ := fun z hz => by
    have : |z - x| ≤ |z - (x + h)| + |h| := by
      calc |z - x| = |(z - (x + h)) + h| := by congr 1; ring
        _ ≤ _ := abs_add_le _ _
    linarith [abs_nonneg h]
  obtain ⟨a, ⟨za, hza, ha⟩, b, ⟨zb, hzb, hb⟩, c, ⟨zc, hzc, hc⟩, hq⟩ := second_quotient hε hε' hh (V := B + δ)
    (by rintro a ⟨z, hz, ha⟩; exact abs_value ha (hB z (r2 z (p2 z hz))))
    (by rintro a ⟨z, hz, ha⟩; exact abs_value ha (hB z (r1 z (p1 z hz))))
    (by rintro a ⟨z, hz, ha⟩; obtain rfl : z = x := hz; exact abs_value ha (hB z hx)) hy
  obtain rfl : zc = x := hzc
  obtain ⟨g, hg, hgd⟩ := C101_second_forward_univariate (fun t => .ok (F t)) F D D2 D3 (fun _ => rfl) zc h hh M (fun t ht => h1 t (ht.trans hρ2))
    (fun t ht => h2 t (ht.trans hρ2)) (fun t ht => h3 t (ht.trans hρ2)) (fun t ht => hM t (ht.trans hρ2))
  obtain rfl : (F (zc + 2 * h) - 2 * F (zc + h) + F zc) / h ^ 2 = g := by simpa [FinDiff.secondForward1] using hg
  have l2 := (lipschitz h1 hL (r2 (zc + 2 * h) (by simpa using hη0)) (r2 za (p2 za hza))).trans (mul_le_mul_of_nonneg_left (p2 za hza) hL0)
  have l1 := (lipschitz h1 hL (r1 (zc + h) (by simpa using hη0)) (r1 zb (p1 zb hzb))).trans (mul_le_mul_of_nonneg_left (p1 zb hzb) hL0)
  have hp : (0 : ℝ) < h ^ 2 := by positivity
  have e1 : |(a - 2 * b + c) / h ^ 2 - (F (zc + 2 * h) - 2 * F (zc + h) + F zc) / h ^ 2| ≤ (4 * δ + 3 * (L * η)) / h ^ 2 := by
    rw [← sub_div, abs_div, abs_of_pos hp, div_le_div_iff_of_pos_right hp]
    rw [abs_le] at *
    constructor <;> linarith [ha.1, ha.2, hb.1, hb.2, hc.1, hc.2, l1.1, l1.2, l2.1, l2.2]
  rw [add_assoc, add_div]
  rw [abs_le] at *
  constructor <;> linarith [e1.1, e1.2, hq.1, hq.2, hgd.1, hgd.2]

/-- **C101** Second central differences of univariate functions with rounding; `M` bounds the fourth derivatives. -/
theorem C101_second_central_rounding (ε δ : ℝ) (hε : 0 ≤ ε) (hε' : ε ≤ 1 / 2) (hδ : 0 ≤ δ) (F D D2 D3 D4 : ℝ → ℝ) (x h B L M η ρ : ℝ) (hh : h ≠ 0)
    (hη : η = ε * (|x| + |h|)) (hρ : ρ = |h| + η) (hB : ∀ t, |t - x| ≤ ρ → |F t| ≤ B)
    (h1 : ∀ t, |t - x| ≤ ρ → HasDerivAt F (D t) t) (h2 : ∀ t, |t - x| ≤ ρ → HasDerivAt D (D2 t) t) (h3 : ∀ t, |t - x| ≤ ρ → HasDerivAt D2 (D3 t) t)
    (h4 : ∀ t, |t - x| ≤ ρ → HasDerivAt D3 (D4 t) t) (hL : ∀ t, |t - x| ≤ ρ → |D t| ≤ L) (hM : ∀ t, |t - x| ≤ ρ → |D4 t| ≤ M) :
    (FloatDifference.secondCentral1 ε δ F x h).Nonempty ∧ ∀ y ∈ FloatDifference.secondCentral1 ε δ F x h,
      |y - D2 x| ≤ (((1 + ε) ^ 6 - 1) * (4 * (B + δ)) + 4 * δ + 2 * (L * η)) / h ^ 2 + M / 12 * h ^ 2 := by
  have hη0 : 0 ≤ η := by rw [hη]; positivity
  have hρ2 : |h| ≤ ρ := by linarith
  have hx : |x - x| ≤ ρ := by rw [sub_self, abs_zero]; linarith [abs_nonneg h]
  have hL0 : 0 ≤ L := (abs_nonneg _).trans (hL x hx)
  refine ⟨⟨_, _, ⟨_, ⟨F (x + h), ⟨x + h, ⟨x, rfl, h, rfl, rounded_self hε⟩, by simpa using hδ⟩, 2 * F x,
    ⟨2, rfl, F x, ⟨x, rfl, by simpa using hδ⟩, rounded_self hε⟩, rounded_self hε⟩, F (x - h), ⟨x - h, ⟨x, rfl, h, rfl, rounded_self hε⟩, by simpa using hδ⟩,
    rounded_self hε⟩, h ^ 2, rounded_self hε, rounded_self hε⟩, fun y hy => ?_⟩
  have p1 : ∀ z ∈ FloatPoly.add ε {x} {h}, |z - (x + h)| ≤ η := by
    rintro z ⟨x', rfl, h', rfl, hz⟩
    rw [hη]
    exact le_trans hz (mul_le_mul_of_nonneg_left (abs_add_le _ _) hε)
  have p2 : ∀ z ∈ FloatPoly.sub ε {x} {h}, |z - (x - h)| ≤ η := by
    rintro z ⟨x', rfl, h', rfl, hz⟩
    rw [hη]
    exact le_trans hz (mul_le_mul_of_nonneg_left (abs_sub _ _) hε)
  have r1 : ∀ z, |z - (x + h)| ≤ η → |z - x| ≤ ρ := fun z hz => by
    have : |z - x| ≤ |z - (x + h)| + |h| := by
      calc |z - x| = |(z - (x + h)) + h| := by congr 1; ring
        _ ≤ _ := abs_add_le _ _
    linarith
  have r2 : ∀ z, |z - (x - h)| ≤ η → |z - x| ≤ ρ := fun z hz => by
    have : |z - x| ≤ |z - (x - h)| + |h| := by
      calc |z - x| = |(z - (x - h)) - h| := by congr 1; ring
        _ ≤ _ := abs_sub _ _
    linarith
  obtain ⟨a, ⟨za, hza, ha⟩, b, ⟨zb, hzb, hb⟩, c, ⟨zc, hzc, hc⟩, hq⟩ := second_quotient hε hε' hh (V := B + δ)
    (by rintro a ⟨z, hz, ha⟩; exact abs_value ha (hB z (r1 z (p1 z hz))))
    (by rintro a ⟨z, hz, ha⟩; obtain rfl : z = x := hz; exact abs_value ha (hB z hx))
    (by rintro a ⟨z, hz, ha⟩; exact abs_value ha (hB z (r2 z (p2 z hz)))) hy
  obtain rfl : zb = x := hzb
  obtain ⟨g, hg, hgd⟩ := C101_second_central_univariate (fun t => .ok (F t)) F D D2 D3 D4 (fun _ => rfl) zb h hh M (fun t ht => h1 t (ht.trans hρ2))
    (fun t ht => h2 t (ht.trans hρ2)) (fun t ht => h3 t (ht.trans hρ2)) (fun t ht => h4 t (ht.trans hρ2)) (fun t ht => hM t (ht.trans hρ2))
  obtain rfl : (F (zb + h) - 2 * F zb + F (zb - h)) / h ^ 2 = g := by simpa [FinDiff.secondCentral1] using hg
  have l1 := (lipschitz h1 hL (r1 (zb + h) (by simpa using hη0)) (r1 za (p1 za hza))).trans (mul_le_mul_of_nonneg_left (p1 za hza) hL0)
  have l2 := (lipschitz h1 hL (r2 (zb - h) (by simpa using hη0)) (r2 zc (p2 zc hzc))).trans (mul_le_mul_of_nonneg_left (p2 zc hzc) hL0)
  have hp : (0 : ℝ) < h ^ 2 := by positivity
  have e1 : |(a - 2 * b + c) / h ^ 2 - (F (zb + h) - 2 * F zb + F (zb - h)) / h ^ 2| ≤ (4 * δ + 2 * (L * η)) / h ^ 2 := by
    rw [← sub_div, abs_div, abs_of_pos hp, div_le_div_iff_of_pos_right hp]
    rw [abs_le] at *
    constructor <;> linarith [ha.1, ha.2, hb.1, hb.2, hc.1, hc.2, l1.1, l1.2, l2.1, l2.2]
  rw [add_assoc, add_div]
  rw [abs_le] at *
  constructor <;> linarith [e1.1, e1.2, hq.1, hq.2, hgd.1, hgd.2]

namespace C101aux

variable {n : Nat} {ε δ : ℝ}

/-- The entry `k` of the array `e_i`. -/
theorem e_apply (i k : Fin n) : (e i k : ℝ) = if k = i then 1 else 0 := by simp [e, Pi.single_apply]

theorem mem_unit {i k : Fin n} {u : ℝ} (h : u ∈ unit i k) : u = e i k := by rw [e_apply]; exact h

theorem unit_mem (i k : Fin n) : (e i k : ℝ) ∈ unit i k := by rw [e_apply]; rfl

theorem e_abs (i k : Fin n) : |(e i k : ℝ)| ≤ 1 := by rw [e_apply]; split_ifs <;> simp

/-- The errors of the values of a function of several variables. -/
theorem evalArray_near {F : (Fin n → ℝ) → ℝ} {x w : Fin n → ℝ} {A : Fin n → Set ℝ} {B L η ρ : ℝ} (hB : ∀ z : Fin n → ℝ, (∀ k, |z k - x k| ≤ ρ) → |F z| ≤ B)
    (hL : ∀ z w : Fin n → ℝ, (∀ k, |z k - x k| ≤ ρ) → (∀ k, |w k - x k| ≤ ρ) → ∀ d, (∀ k, |z k - w k| ≤ d) → |F z - F w| ≤ L * d)
    (hA : ∀ k, ∀ z ∈ A k, |z - w k| ≤ η) (hw : ∀ k, |w k - x k| + η ≤ ρ) (hη : 0 ≤ η) {c : ℝ} (hc : c ∈ evalArray δ F A) :
    |c| ≤ B + δ ∧ |c - F w| ≤ δ + L * η := by
  obtain ⟨z, hz, hc⟩ := hc
  have b1 : ∀ k, |z k - x k| ≤ ρ := fun k => by
    have : |z k - x k| ≤ |z k - w k| + |w k - x k| := abs_sub_le _ _ _
    linarith [hA k _ (hz k), hw k]
  have b2 := hL z w b1 (fun k => by linarith [hw k]) η (fun k => hA k _ (hz k))
  refine ⟨abs_value hc (hB z b1), ?_⟩
  have : |c - F w| ≤ |c - F z| + |F z - F w| := abs_sub_le _ _ _
  linarith

theorem evalArray_nonempty (hδ : 0 ≤ δ) {F : (Fin n → ℝ) → ℝ} {A : Fin n → Set ℝ} (h : ∀ k, (A k).Nonempty) : (evalArray δ F A).Nonempty := by
  choose z hz using h
  exact ⟨F z, z, hz, by simpa using hδ⟩

theorem combineFour_nonempty (hε : 0 ≤ ε) (h : ℝ) {A B C D : Set ℝ} (hA : A.Nonempty) (hB : B.Nonempty) (hC : C.Nonempty) (hD : D.Nonempty) :
    (combineFour ε h A B C D).Nonempty := by
  obtain ⟨a, ha⟩ := hA
  obtain ⟨b, hb⟩ := hB
  obtain ⟨c, hc⟩ := hC
  obtain ⟨d, hd⟩ := hD
  exact ⟨_, _, ⟨_, ⟨_, ⟨a, ha, b, hb, rounded_self hε⟩, c, hc, rounded_self hε⟩, d, hd, rounded_self hε⟩, _, ⟨1, rfl, h ^ 2, rounded_self hε, rounded_self hε⟩,
    rounded_self hε⟩

theorem add_nonempty (hε : 0 ≤ ε) {A B : Set ℝ} (hA : A.Nonempty) (hB : B.Nonempty) : (FloatPoly.add ε A B).Nonempty :=
  let ⟨a, ha⟩ := hA; let ⟨b, hb⟩ := hB; ⟨_, a, ha, b, hb, rounded_self hε⟩

theorem sub_nonempty (hε : 0 ≤ ε) {A B : Set ℝ} (hA : A.Nonempty) (hB : B.Nonempty) : (FloatPoly.sub ε A B).Nonempty :=
  let ⟨a, ha⟩ := hA; let ⟨b, hb⟩ := hB; ⟨_, a, ha, b, hb, rounded_self hε⟩

theorem mul_nonempty (hε : 0 ≤ ε) {A B : Set ℝ} (hA : A.Nonempty) (hB : B.Nonempty) : (FloatPoly.mul ε A B).Nonempty :=
  let ⟨a, ha⟩ := hA; let ⟨b, hb⟩ := hB; ⟨_, a, ha, b, hb, rounded_self hε⟩

theorem combine_exact (hε : 0 ≤ ε) (hε' : ε ≤ 1 / 2) {h V y a' b' c' d' η1 η2 η3 η4 : ℝ} (hh : h ≠ 0) {A B C D : Set ℝ}
    (hA : ∀ a ∈ A, |a| ≤ V ∧ |a - a'| ≤ η1) (hB : ∀ b ∈ B, |b| ≤ V ∧ |b - b'| ≤ η2) (hC : ∀ c ∈ C, |c| ≤ V ∧ |c - c'| ≤ η3)
    (hD : ∀ d ∈ D, |d| ≤ V ∧ |d - d'| ≤ η4) (hy : y ∈ combineFour ε h A B C D) :
    |y - (a' - b' - c' + d') / h ^ 2| ≤ (((1 + ε) ^ 7 - 1) * (4 * V) + (η1 + η2 + η3 + η4)) / h ^ 2 := by
  obtain ⟨a, ha, b, hb, c, hc, d, hd, h1⟩ := combineFour_near hε hε' hh (fun a ha => (hA a ha).1) (fun a ha => (hB a ha).1) (fun a ha => (hC a ha).1)
    (fun a ha => (hD a ha).1) hy
  have hp : (0 : ℝ) < h ^ 2 := by positivity
  have e1 : |(a - b - c + d) / h ^ 2 - (a' - b' - c' + d') / h ^ 2| ≤ (η1 + η2 + η3 + η4) / h ^ 2 := by
    rw [← sub_div, abs_div, abs_of_pos hp, div_le_div_iff_of_pos_right hp]
    have ha := (hA a ha).2
    have hb := (hB b hb).2
    have hc := (hC c hc).2
    have hd := (hD d hd).2
    rw [abs_le] at *
    constructor <;> linarith [ha.1, ha.2, hb.1, hb.2, hc.1, hc.2, hd.1, hd.2]
  rw [add_div (((1 + ε) ^ 7 - 1) * (4 * V))]
  exact (abs_sub_le _ _ _).trans (add_le_add h1 e1)

end C101aux

/-- **C101** The matrix of second forward differences with rounding. `R` bounds the coordinates, `η` the errors of the points, `ρ` their distances from `x`,
`B` the values of the function and `L` is a Lipschitz constant. -/
theorem C101_second_forward_matrix_rounding {n : Nat} (ε δ : ℝ) (hε : 0 ≤ ε) (hε' : ε ≤ 1 / 2) (hδ : 0 ≤ δ) (F : (Fin n → ℝ) → ℝ) (x : Fin n → ℝ)
    (h R B L η ρ : ℝ) (hh : h ≠ 0) (hR : ∀ k, |x k| ≤ R) (hη : η = ((1 + ε) ^ 3 - 1) * (R + 2 * |h|)) (hρ : ρ = 2 * |h| + η)
    (hB : ∀ z : Fin n → ℝ, (∀ k, |z k - x k| ≤ ρ) → |F z| ≤ B)
    (hL : ∀ z w : Fin n → ℝ, (∀ k, |z k - x k| ≤ ρ) → (∀ k, |w k - x k| ≤ ρ) → ∀ d, (∀ k, |z k - w k| ≤ d) → |F z - F w| ≤ L * d)
    (P1 P12 : Fin n → Fin n → ℝ → ℝ → ℝ)
    (h1 : ∀ i j, ∀ s ∈ uIcc 0 h, ∀ t ∈ uIcc 0 h, HasDerivAt (fun u => F (x + u • e i + t • e j)) (P1 i j s t) s)
    (h2 : ∀ i j, ∀ s ∈ uIcc 0 h, ∀ t ∈ uIcc 0 h, HasDerivAt (fun u => P1 i j s u) (P12 i j s t) t) (i j : Fin n) :
    (FloatDifference.secondForwardDifference ε δ F x h i j).Nonempty ∧ ∃ s ∈ uIcc 0 h, ∃ t ∈ uIcc 0 h,
      ∀ y ∈ FloatDifference.secondForwardDifference ε δ F x h i j,
        |y - P12 i j s t| ≤ (((1 + ε) ^ 7 - 1) * (4 * (B + δ)) + 4 * δ + 3 * (L * η)) / h ^ 2 := by
  have hb : 0 ≤ (1 + ε) ^ 3 - 1 := by have := one_le_base hε 3; linarith
  have hR0 : 0 ≤ R := (abs_nonneg _).trans (hR i)
  have hη0 : 0 ≤ η := by rw [hη]; positivity
  have entry : ∀ i j, (FloatDifference.forwardEntry ε δ F x h i j).Nonempty ∧ ∀ y ∈ FloatDifference.forwardEntry ε δ F x h i j,
      |y - (F (x + h • e i + h • e j) - F (x + h • e i) - F (x + h • e j) + F x) / h ^ 2| ≤
        (((1 + ε) ^ 7 - 1) * (4 * (B + δ)) + 4 * δ + 3 * (L * η)) / h ^ 2 := by
    intro i j
    have two : ∀ k, ∀ z ∈ FloatPoly.add ε {x k} (FloatPoly.mul ε {h} (FloatPoly.add ε (unit i k) (unit j k))), |z - (x + h • e i + h • e j : Fin n → ℝ) k| ≤ η := by
      rintro k z ⟨x', hx', g, ⟨h', hh', t, ⟨u, hu, v, hv, ht⟩, hg⟩, hz⟩
      rw [mem_unit hu, mem_unit hv] at ht
      obtain rfl : x' = x k := hx'
      obtain rfl : h' = h := hh'
      have n1 := ((near_le hε 0 (e_abs i k)).add (near_le hε 0 (e_abs j k))).round hε ht
      have n2 := ((near_le hε 0 (le_refl |h'|)).mul hε n1).round hε hg
      have n3 := ((near_le hε _ (hR k)).add n2).round hε hz
      have := n3.2
      rw [hη, show (x + h' • e i + h' • e j : Fin n → ℝ) k = x k + h' * (e i k + e j k) by simp only [Pi.add_apply, Pi.smul_apply, smul_eq_mul]; ring]
      refine this.trans (le_of_eq ?_)
      ring
    have one : ∀ (i : Fin n), ∀ k, ∀ z ∈ FloatPoly.add ε {x k} (FloatPoly.mul ε {h} (unit i k)), |z - (x + h • e i : Fin n → ℝ) k| ≤ η := by
      rintro i k z ⟨x', hx', g, ⟨h', hh', u, hu, hg⟩, hz⟩
      rw [mem_unit hu] at hg
      obtain rfl : x' = x k := hx'
      obtain rfl : h' = h := hh'
      have n2 := ((near_le hε 0 (le_refl |h'|)).mul hε (near_le hε 1 (e_abs i k))).round hε hg
      have n3 := ((near_le hε _ (hR k)).add n2).round hε hz
      have n4 := (near_enlarge hε (N := R + 2 * |h'|) n3 (by linarith [abs_nonneg h'])).2
      rw [hη, show (x + h' • e i : Fin n → ℝ) k = x k + h' * e i k by simp only [Pi.add_apply, Pi.smul_apply, smul_eq_mul]]
      exact n4
    have w1 : ∀ (i : Fin n), ∀ k, |(x + h • e i : Fin n → ℝ) k - x k| + η ≤ ρ := fun i k => by
      rw [hρ, show (x + h • e i : Fin n → ℝ) k - x k = h * e i k by simp only [Pi.add_apply, Pi.smul_apply, smul_eq_mul]; ring, abs_mul]
      have := mul_le_mul_of_nonneg_left (e_abs i k) (abs_nonneg h)
      linarith [abs_nonneg h]
    have w2 : ∀ k, |(x + h • e i + h • e j : Fin n → ℝ) k - x k| + η ≤ ρ := fun k => by
      rw [hρ, show (x + h • e i + h • e j : Fin n → ℝ) k - x k = h * (e i k + e j k) by simp only [Pi.add_apply, Pi.smul_apply, smul_eq_mul]; ring, abs_mul]
      have := mul_le_mul_of_nonneg_left ((abs_add_le (e i k) (e j k)).trans (add_le_add (e_abs i k) (e_abs j k))) (abs_nonneg h)
      linarith
    refine ⟨combineFour_nonempty hε h
      (evalArray_nonempty hδ fun k => add_nonempty hε ⟨_, rfl⟩ (mul_nonempty hε ⟨_, rfl⟩ (add_nonempty hε ⟨_, unit_mem i k⟩ ⟨_, unit_mem j k⟩)))
      (evalArray_nonempty hδ fun k => add_nonempty hε ⟨_, rfl⟩ (mul_nonempty hε ⟨_, rfl⟩ ⟨_, unit_mem i k⟩))
      (evalArray_nonempty hδ fun k => add_nonempty hε ⟨_, rfl⟩ (mul_nonempty hε ⟨_, rfl⟩ ⟨_, unit_mem j k⟩))
      (evalArray_nonempty hδ fun k => ⟨_, rfl⟩), fun y hy => ?_⟩
    refine (combine_exact hε hε' hh (fun _ ha => evalArray_near hB hL two w2 hη0 ha) (fun _ ha => evalArray_near hB hL (one i) (w1 i) hη0 ha)
      (fun _ ha => evalArray_near hB hL (one j) (w1 j) hη0 ha)
      (fun _ ha => evalArray_near (w := x) (η := 0) hB hL (by rintro k z rfl; simp) (fun k => by simp; rw [hρ]; positivity) le_rfl ha) hy).trans (le_of_eq ?_)
    ring
  obtain ⟨s, hs, t, ht, e1⟩ := mixed_mean_value (P := fun s t => F (x + s • e i + t • e j)) (h1 i j) (h2 i j)
  simp only [zero_smul, add_zero, sub_zero] at e1
  have e2 : P12 i j s t = (F (x + h • e i + h • e j) - F (x + h • e i) - F (x + h • e j) + F x) / h ^ 2 := by
    rw [e1, mul_div_cancel_right₀ _ (pow_ne_zero 2 hh)]
  have e3 : P12 i j s t = (F (x + h • e j + h • e i) - F (x + h • e j) - F (x + h • e i) + F x) / h ^ 2 := by
    rw [e2, add_right_comm x (h • e j) (h • e i)]
    congr 1
    ring
  unfold FloatDifference.secondForwardDifference
  split_ifs
  · exact ⟨(entry i j).1, s, hs, t, ht, fun y hy => by rw [e2]; exact (entry i j).2 y hy⟩
  · exact ⟨(entry j i).1, s, hs, t, ht, fun y hy => by rw [e3]; exact (entry j i).2 y hy⟩

/-- **C101** The matrix of second central differences with rounding. -/
theorem C101_second_central_matrix_rounding {n : Nat} (ε δ : ℝ) (hε : 0 ≤ ε) (hε' : ε ≤ 1 / 2) (hδ : 0 ≤ δ) (F : (Fin n → ℝ) → ℝ) (x : Fin n → ℝ)
    (h R B L η ρ : ℝ) (hh : h ≠ 0) (hR : ∀ k, |x k| ≤ R) (hη : η = ((1 + ε) ^ 4 - 1) * (R + |h|)) (hρ : ρ = |h| + η)
    (hB : ∀ z : Fin n → ℝ, (∀ k, |z k - x k| ≤ ρ) → |F z| ≤ B)
    (hL : ∀ z w : Fin n → ℝ, (∀ k, |z k - x k| ≤ ρ) → (∀ k, |w k - x k| ≤ ρ) → ∀ d, (∀ k, |z k - w k| ≤ d) → |F z - F w| ≤ L * d)
    (P1 P12 : Fin n → Fin n → ℝ → ℝ → ℝ)
    (h1 : ∀ i j, ∀ s ∈ uIcc (-(h / 2)) (h / 2), ∀ t ∈ uIcc (-(h / 2)) (h / 2), HasDerivAt (fun u => F (x + u • e i + t • e j)) (P1 i j s t) s)
    (h2 : ∀ i j, ∀ s ∈ uIcc (-(h / 2)) (h / 2), ∀ t ∈ uIcc (-(h / 2)) (h / 2), HasDerivAt (fun u => P1 i j s u) (P12 i j s t) t) (i j : Fin n) :
    (FloatDifference.secondCentralDifference ε δ F x h i j).Nonempty ∧ ∃ s ∈ uIcc (-(h / 2)) (h / 2), ∃ t ∈ uIcc (-(h / 2)) (h / 2),
      ∀ y ∈ FloatDifference.secondCentralDifference ε δ F x h i j,
        |y - P12 i j s t| ≤ (((1 + ε) ^ 7 - 1) * (4 * (B + δ)) + 4 * δ + 4 * (L * η)) / h ^ 2 := by
  have hb : 0 ≤ (1 + ε) ^ 4 - 1 := by have := one_le_base hε 4; linarith
  have hR0 : 0 ≤ R := (abs_nonneg _).trans (hR i)
  have hη0 : 0 ≤ η := by rw [hη]; positivity
  have half : ∀ q ∈ FloatPoly.mul ε {1 / 2} {h}, Near ε 1 (1 / 2 * h) (1 / 2 * |h|) q := by
    rintro q ⟨c, rfl, h', rfl, hq⟩
    exact (near_le hε 0 (by rw [abs_mul, abs_of_pos (by norm_num : (0 : ℝ) < 1 / 2)])).round hε hq
  have entry : ∀ i j, (FloatDifference.centralEntry ε δ F x h i j).Nonempty ∧ ∀ y ∈ FloatDifference.centralEntry ε δ F x h i j,
      |y - (F (x + (h / 2) • e i + (h / 2) • e j) - F (x + (h / 2) • e i + (-(h / 2)) • e j) - F (x + (-(h / 2)) • e i + (h / 2) • e j) +
        F (x + (-(h / 2)) • e i + (-(h / 2)) • e j)) / h ^ 2| ≤ (((1 + ε) ^ 7 - 1) * (4 * (B + δ)) + 4 * δ + 4 * (L * η)) / h ^ 2 := by
    intro i j
    have plus : ∀ k, ∀ g ∈ FloatPoly.mul ε (FloatPoly.mul ε {1 / 2} {h}) (FloatPoly.add ε (unit i k) (unit j k)),
        Near ε 3 (1 / 2 * h * (e i k + e j k)) |h| g := by
      rintro k g ⟨q, hq, t, ⟨u, hu, v, hv, ht⟩, hg⟩
      rw [mem_unit hu, mem_unit hv] at ht
      exact near_enlarge hε (((half q hq).mul hε (((near_le hε 0 (e_abs i k)).add (near_le hε 0 (e_abs j k))).round hε ht)).round hε hg) (by linarith)
    have minus : ∀ (i j : Fin n), ∀ k, ∀ g ∈ FloatPoly.mul ε (FloatPoly.mul ε {1 / 2} {h}) (FloatPoly.sub ε (unit i k) (unit j k)),
        Near ε 3 (1 / 2 * h * (e i k - e j k)) |h| g := by
      rintro i j k g ⟨q, hq, t, ⟨u, hu, v, hv, ht⟩, hg⟩
      rw [mem_unit hu, mem_unit hv] at ht
      exact near_enlarge hε (((half q hq).mul hε ((near_sub (near_le hε 0 (e_abs i k)) (near_le hε 0 (e_abs j k))).round hε ht)).round hε hg) (by linarith)
    have apply : ∀ (a b : ℝ) k, (x + a • e i + b • e j : Fin n → ℝ) k = x k + (a * e i k + b * e j k) := fun a b k => by
      simp only [Pi.add_apply, Pi.smul_apply, smul_eq_mul]; ring
    have z1 : ∀ k, ∀ z ∈ FloatPoly.add ε {x k} (FloatPoly.mul ε (FloatPoly.mul ε {1 / 2} {h}) (FloatPoly.add ε (unit i k) (unit j k))),
        |z - (x + (h / 2) • e i + (h / 2) • e j : Fin n → ℝ) k| ≤ η := by
      rintro k z ⟨x', rfl, g, hg, hz⟩
      rw [apply, hη, show h / 2 * e i k + h / 2 * e j k = 1 / 2 * h * (e i k + e j k) by ring]
      exact (((near_le hε 3 (hR k)).add (plus k g hg)).round hε hz).2
    have z2 : ∀ k, ∀ z ∈ FloatPoly.add ε {x k} (FloatPoly.mul ε (FloatPoly.mul ε {1 / 2} {h}) (FloatPoly.sub ε (unit i k) (unit j k))),
        |z - (x + (h / 2) • e i + (-(h / 2)) • e j : Fin n → ℝ) k| ≤ η := by
      rintro k z ⟨x', rfl, g, hg, hz⟩
      rw [apply, hη, show h / 2 * e i k + -(h / 2) * e j k = 1 / 2 * h * (e i k - e j k) by ring]
      exact (((near_le hε 3 (hR k)).add (minus i j k g hg)).round hε hz).2
    have z3 : ∀ k, ∀ z ∈ FloatPoly.add ε {x k} (FloatPoly.mul ε (FloatPoly.mul ε {1 / 2} {h}) (FloatPoly.sub ε (unit j k) (unit i k))),
        |z - (x + (-(h / 2)) • e i + (h / 2) • e j : Fin n → ℝ) k| ≤ η := by
      rintro k z ⟨x', rfl, g, hg, hz⟩
      rw [apply, hη, show -(h / 2) * e i k + h / 2 * e j k = 1 / 2 * h * (e j k - e i k) by ring]
      exact (((near_le hε 3 (hR k)).add (minus j i k g hg)).round hε hz).2
    have z4 : ∀ k, ∀ z ∈ FloatPoly.sub ε {x k} (FloatPoly.mul ε (FloatPoly.mul ε {1 / 2} {h}) (FloatPoly.add ε (unit i k) (unit j k))),
        |z - (x + (-(h / 2)) • e i + (-(h / 2)) • e j : Fin n → ℝ) k| ≤ η := by
      rintro k z ⟨x', rfl, g, hg, hz⟩
      rw [apply, hη, show x k + (-(h / 2) * e i k + -(h / 2) * e j k) = x k - 1 / 2 * h * (e i k + e j k) by ring]
      exact ((near_sub (near_le hε 3 (hR k)) (plus k g hg)).round hε hz).2
    have w : ∀ a b : ℝ, |a| ≤ |h| / 2 → |b| ≤ |h| / 2 → ∀ k, |(x + a • e i + b • e j : Fin n → ℝ) k - x k| + η ≤ ρ := fun a b ha hb k => by
      rw [apply, hρ, add_sub_cancel_left]
      have q1 : |a * e i k| ≤ |h| / 2 := by
        rw [abs_mul]; exact (mul_le_of_le_one_right (abs_nonneg _) (e_abs i k)).trans ha
      have q2 : |b * e j k| ≤ |h| / 2 := by
        rw [abs_mul]; exact (mul_le_of_le_one_right (abs_nonneg _) (e_abs j k)).trans hb
      have := abs_add_le (a * e i k) (b * e j k)
      linarith
    have c1 : |h / 2| ≤ |h| / 2 := by rw [abs_div, abs_of_pos (by norm_num : (0 : ℝ) < 2)]
    have c2 : |-(h / 2)| ≤ |h| / 2 := by rwa [abs_neg]
    have nh : (FloatPoly.mul ε {1 / 2} {h}).Nonempty := mul_nonempty hε ⟨_, rfl⟩ ⟨_, rfl⟩
    refine ⟨combineFour_nonempty hε h
      (evalArray_nonempty hδ fun k => add_nonempty hε ⟨_, rfl⟩ (mul_nonempty hε nh (add_nonempty hε ⟨_, unit_mem i k⟩ ⟨_, unit_mem j k⟩)))
      (evalArray_nonempty hδ fun k => add_nonempty hε ⟨_, rfl⟩ (mul_nonempty hε nh (sub_nonempty hε ⟨_, unit_mem i k⟩ ⟨_, unit_mem j k⟩)))
      (evalArray_nonempty hδ fun k => add_nonempty hε ⟨_, rfl⟩ (mul_nonempty hε nh (sub_nonempty hε ⟨_, unit_mem j k⟩ ⟨_, unit_mem i k⟩)))
      (evalArray_nonempty hδ fun k => sub_nonempty hε ⟨_, rfl⟩ (mul_nonempty hε nh (add_nonempty hε ⟨_, unit_mem i k⟩ ⟨_, unit_mem j k⟩))), fun y hy => ?_⟩
    refine (combine_exact hε hε' hh (fun _ ha => evalArray_near hB hL z1 (w _ _ c1 c1) hη0 ha) (fun _ ha => evalArray_near hB hL z2 (w _ _ c1 c2) hη0 ha)
      (fun _ ha => evalArray_near hB hL z3 (w _ _ c2 c1) hη0 ha) (fun _ ha => evalArray_near hB hL z4 (w _ _ c2 c2) hη0 ha) hy).trans (le_of_eq ?_)
    ring
  obtain ⟨s, hs, t, ht, e1⟩ := mixed_mean_value (P := fun s t => F (x + s • e i + t • e j)) (h1 i j) (h2 i j)
  rw [show h / 2 - -(h / 2) = h by ring] at e1
  have e2 := (eq_div_iff (pow_ne_zero 2 hh)).2 e1.symm
  have e3 : P12 i j s t = (F (x + (h / 2) • e j + (h / 2) • e i) - F (x + (h / 2) • e j + (-(h / 2)) • e i) - F (x + (-(h / 2)) • e j + (h / 2) • e i) +
      F (x + (-(h / 2)) • e j + (-(h / 2)) • e i)) / h ^ 2 := by
    rw [e2, add_right_comm x ((h / 2) • e j) ((h / 2) • e i), add_right_comm x ((h / 2) • e j) ((-(h / 2)) • e i),
      add_right_comm x ((-(h / 2)) • e j) ((h / 2) • e i), add_right_comm x ((-(h / 2)) • e j) ((-(h / 2)) • e i)]
    congr 1
    ring
  unfold FloatDifference.secondCentralDifference
  split_ifs
  · exact ⟨(entry i j).1, s, hs, t, ht, fun y hy => by rw [e2]; exact (entry i j).2 y hy⟩
  · exact ⟨(entry j i).1, s, hs, t, ht, fun y hy => by rw [e3]; exact (entry j i).2 y hy⟩

/-- The sine function with double precision and the default step meets the hypotheses. -/
example : ∀ y ∈ FloatDifference.secondCentral1 (2 ^ (-53 : ℤ)) (2 ^ (-52 : ℤ)) Real.sin 1 (1 / 50000), |y - -Real.sin 1| ≤ 1 / 10 ^ 4 := by
  intro y hy
  have hs := (C101_second_central_rounding (2 ^ (-53 : ℤ)) (2 ^ (-52 : ℤ)) (by positivity) (by norm_num) (by positivity) Real.sin Real.cos
    (fun t => -Real.sin t) (fun t => -Real.cos t) Real.sin 1 (1 / 50000) 1 1 1 _ _ (by norm_num) rfl rfl (fun t _ => Real.abs_sin_le_one t)
    (fun t _ => Real.hasDerivAt_sin t) (fun t _ => Real.hasDerivAt_cos t) (fun t _ => (Real.hasDerivAt_sin t).neg)
    (fun t _ => hda (Real.hasDerivAt_cos t).neg (fun _ => rfl) (neg_neg _).symm) (fun t _ => Real.abs_cos_le_one t) (fun t _ => Real.abs_sin_le_one t)).2 y hy
  refine hs.trans ?_
  have a1 : |(1 : ℝ) / 50000| = 1 / 50000 := abs_of_pos (by norm_num)
  rw [a1]
  norm_num

/-- The product of two variables meets the hypotheses of the theorem about the matrix of second differences. -/
example : ∀ y ∈ FloatDifference.secondForwardDifference (n := 2) (2 ^ (-53 : ℤ)) (2 ^ (-52 : ℤ)) (fun z => z 0 * z 1) (fun _ => 1) (1 / 10 ^ 5) 0 1,
    |y - 1| ≤ 1 / 10 ^ 3 := by
  intro y hy
  have near2 : ∀ z : Fin 2 → ℝ, (∀ k, |z k - 1| ≤ 2 * |(1 : ℝ) / 10 ^ 5| + ((1 + 2 ^ (-53 : ℤ)) ^ 3 - 1) * (1 + 2 * |(1 : ℝ) / 10 ^ 5|)) → ∀ k, |z k| ≤ 2 := by
    intro z hz k
    have a1 : |(1 : ℝ) / 10 ^ 5| = 1 / 10 ^ 5 := abs_of_pos (by norm_num)
    have a2 : 2 * ((1 : ℝ) / 10 ^ 5) + ((1 + 2 ^ (-53 : ℤ)) ^ 3 - 1) * (1 + 2 * ((1 : ℝ) / 10 ^ 5)) ≤ 1 := by norm_num
    have hk := hz k
    rw [a1] at hk
    have hk := abs_le.1 (hk.trans a2)
    exact abs_le.2 ⟨by linarith [hk.1], by linarith [hk.2]⟩
  obtain ⟨-, s, -, t, -, hs⟩ := C101_second_forward_matrix_rounding (n := 2) (2 ^ (-53 : ℤ)) (2 ^ (-52 : ℤ)) (by positivity) (by norm_num) (by positivity)
    (fun z => z 0 * z 1) (fun _ => 1) (1 / 10 ^ 5) 1 4 4 _ _ (by norm_num) (fun _ => by simp) rfl rfl
    (fun z hz => by
      have b0 := near2 z hz 0
      have b1 := near2 z hz 1
      rw [abs_mul]
      calc |z 0| * |z 1| ≤ 2 * 2 := mul_le_mul b0 b1 (abs_nonneg _) (by norm_num)
        _ = 4 := by norm_num)
    (fun z w hz hw d hd => by
      have b0 := near2 z hz 0
      have b1 := near2 w hw 1
      have hd0 : 0 ≤ d := (abs_nonneg _).trans (hd 0)
      calc |z 0 * z 1 - w 0 * w 1| = |z 0 * (z 1 - w 1) + w 1 * (z 0 - w 0)| := by congr 1; ring
        _ ≤ |z 0| * |z 1 - w 1| + |w 1| * |z 0 - w 0| := by rw [← abs_mul, ← abs_mul]; exact abs_add_le _ _
        _ ≤ 2 * d + 2 * d := add_le_add (mul_le_mul b0 (hd 1) (abs_nonneg _) (by norm_num)) (mul_le_mul b1 (hd 0) (abs_nonneg _) (by norm_num))
        _ = 4 * d := by ring)
    (fun i j s t => e i 0 * (1 + s * e i 1 + t * e j 1) + (1 + s * e i 0 + t * e j 0) * e i 1)
    (fun i j _ _ => e i 0 * e j 1 + e j 0 * e i 1)
    (fun i j s _ t _ => hda ((((hasDerivAt_id s).mul_const (e i 0)).const_add (1 + t * e j 0)).mul
      (((hasDerivAt_id s).mul_const (e i 1)).const_add (1 + t * e j 1))) (fun u => by simp; ring) (by simp; ring))
    (fun i j s _ t _ => hda (((((hasDerivAt_id t).mul_const (e j 1)).const_add (1 + s * e i 1)).const_mul (e i 0)).add
      ((((hasDerivAt_id t).mul_const (e j 0)).const_add (1 + s * e i 0)).mul_const (e i 1))) (fun u => by simp) (by simp)) 0 1
  have := hs y hy
  have e0 : (e (0 : Fin 2) 0 : ℝ) * e (1 : Fin 2) 1 + e (1 : Fin 2) 0 * e (0 : Fin 2) 1 = 1 := by simp [e]
  rw [e0] at this
  refine this.trans ?_
  have a1 : |(1 : ℝ) / 10 ^ 5| = 1 / 10 ^ 5 := abs_of_pos (by norm_num)
  rw [a1]
  norm_num

end Verif.Props
