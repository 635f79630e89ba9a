import Mathlib.Analysis.Calculus.MeanValue
import Mathlib.Analysis.Calculus.Deriv.Pow
import Mathlib.Analysis.Calculus.Deriv.Comp
import Mathlib.Analysis.Calculus.Deriv.Add
import Mathlib.Analysis.Calculus.Deriv.Mul
import Mathlib.Tactic.Linarith
import Mathlib.Tactic.Ring
import Mathlib.Tactic.Module
import Mathlib.Tactic.FieldSimp
/-!
# Remainder estimates for finite differences
-/

namespace Verif.FinDiff
open Set

variable {V : Type} [NormedAddCommGroup V] [NormedSpace ℝ V]

theorem hda {f g : ℝ → V} {d d' : V} {t : ℝ} (h : HasDerivAt g d t) (hg : ∀ s, f s = g s) (hd : d' = d) : HasDerivAt f d' t := by
  rw [hd, show f = g from funext hg]; exact h

theorem bound_step {g g' : ℝ → V} {B B' : ℝ → ℝ} {h : ℝ} (hg : ∀ t ∈ Icc 0 h, HasDerivAt g (g' t) t) (g0 : g 0 = 0) (B0 : B 0 = 0)
    (hB : ∀ t, HasDerivAt B (B' t) t) (b : ∀ t ∈ Icc 0 h, ‖g' t‖ ≤ B' t) : ∀ t ∈ Icc 0 h, ‖g t‖ ≤ B t := by
  intro t ht
  exact image_norm_le_of_norm_deriv_right_le_deriv_boundary (fun t ht => (hg t ht).continuousAt.continuousWithinAt)
    (fun t ht => (hg t (Ico_subset_Icc_self ht)).hasDerivWithinAt) (by rw [g0, B0, norm_zero]) hB (fun t ht => b t (Ico_subset_Icc_self ht)) ht

theorem power_step {g g' : ℝ → V} {C h : ℝ} (k : ℕ) (hg : ∀ t ∈ Icc 0 h, HasDerivAt g (g' t) t) (g0 : g 0 = 0)
    (b : ∀ t ∈ Icc 0 h, ‖g' t‖ ≤ C * t ^ k) : ∀ t ∈ Icc 0 h, ‖g t‖ ≤ C / (k + 1) * t ^ (k + 1) := by
  refine bound_step (B' := fun t => C * t ^ k) hg g0 (by simp) (fun t => ?_) b
  have := (hasDerivAt_pow (k + 1) t).const_mul (C / (k + 1 : ℝ))
  refine hda this (fun s => rfl) ?_
  have : (k : ℝ) + 1 ≠ 0 := by positivity
  push_cast
  field_simp

/-- Taylor's formula with two terms. -/
theorem taylor2_pos {φ φ1 φ2 : ℝ → V} {M h : ℝ} (hh : 0 ≤ h) (h1 : ∀ t ∈ Icc 0 h, HasDerivAt φ (φ1 t) t) (h2 : ∀ t ∈ Icc 0 h, HasDerivAt φ1 (φ2 t) t)
    (hM : ∀ t ∈ Icc 0 h, ‖φ2 t‖ ≤ M) : ‖φ h - φ 0 - h • φ1 0‖ ≤ M / 2 * h ^ 2 := by
  have s1 := power_step (g := fun t => φ1 t - φ1 0) (C := M) 0 (fun t ht => (h2 t ht).sub_const _) (by simp) (by simpa using hM)
  have s2 := power_step (g := fun t => φ t - φ 0 - t • φ1 0) (g' := fun t => φ1 t - φ1 0) (C := M) 1 (fun t ht => by
    have := ((h1 t ht).sub_const (φ 0)).sub ((hasDerivAt_id t).smul_const (φ1 0))
    exact hda this (fun s => rfl) (by simp)) (by simp) (by simpa using s1)
  have := s2 h ⟨hh, le_rfl⟩
  convert this using 2
  norm_num

/-- Taylor's formula with three terms. -/
theorem taylor3_pos {φ φ1 φ2 φ3 : ℝ → V} {M h : ℝ} (hh : 0 ≤ h) (h1 : ∀ t ∈ Icc 0 h, HasDerivAt φ (φ1 t) t) (h2 : ∀ t ∈ Icc 0 h, HasDerivAt φ1 (φ2 t) t)
    (h3 : ∀ t ∈ Icc 0 h, HasDerivAt φ2 (φ3 t) t) (hM : ∀ t ∈ Icc 0 h, ‖φ3 t‖ ≤ M) : ‖φ h - φ 0 - h • φ1 0 - (h ^ 2 / 2) • φ2 0‖ ≤ M / 6 * h ^ 3 := by
  have s1 := power_step (g := fun t => φ2 t - φ2 0) (C := M) 0 (fun t ht => (h3 t ht).sub_const _) (by simp) (by simpa using hM)
  have s2 := power_step (g := fun t => φ1 t - φ1 0 - t • φ2 0) (g' := fun t => φ2 t - φ2 0) (C := M) 1 (fun t ht => by
    have := ((h2 t ht).sub_const (φ1 0)).sub ((hasDerivAt_id t).smul_const (φ2 0))
    exact hda this (fun s => rfl) (by simp)) (by simp) (by simpa using s1)
  have s3 := power_step (g := fun t => φ t - φ 0 - t • φ1 0 - (t ^ 2 / 2) • φ2 0) (g' := fun t => φ1 t - φ1 0 - t • φ2 0) (C := M / 2) 2 (fun t ht => by
    have := (((h1 t ht).sub_const (φ 0)).sub ((hasDerivAt_id t).smul_const (φ1 0))).sub (((hasDerivAt_pow 2 t).div_const 2).smul_const (φ2 0))
    exact hda this (fun s => rfl) (by simp [mul_div_cancel_left₀])) (by simp) (fun t ht => by
      have := s2 t ht
      norm_num at this ⊢
      exact this)
  have := s3 h ⟨hh, le_rfl⟩
  convert this using 2
  norm_num
  ring

theorem hasDerivAt_neg_comp {φ : ℝ → V} {d : V} {t : ℝ} (h : HasDerivAt φ d (-t)) : HasDerivAt (fun s => φ (-s)) (-d) t := by
  exact hda (h.scomp t (hasDerivAt_neg t)) (fun s => rfl) (by simp)

theorem taylor2 {φ φ1 φ2 : ℝ → V} {M h : ℝ} (h1 : ∀ t ∈ uIcc 0 h, HasDerivAt φ (φ1 t) t) (h2 : ∀ t ∈ uIcc 0 h, HasDerivAt φ1 (φ2 t) t)
    (hM : ∀ t ∈ uIcc 0 h, ‖φ2 t‖ ≤ M) : ‖φ h - φ 0 - h • φ1 0‖ ≤ M / 2 * h ^ 2 := by
  rcases le_total 0 h with hh | hh
  · rw [uIcc_of_le hh] at *
    exact taylor2_pos hh h1 h2 hM
  · rw [uIcc_of_ge hh] at *
    have m : ∀ t ∈ Icc 0 (-h), -t ∈ Icc h 0 := fun t ht => ⟨by linarith [ht.2], by linarith [ht.1]⟩
    have := taylor2_pos (φ := fun t => φ (-t)) (φ1 := fun t => -φ1 (-t)) (φ2 := fun t => φ2 (-t)) (M := M) (neg_nonneg.2 hh)
      (fun t ht => hasDerivAt_neg_comp (h1 _ (m t ht))) (fun t ht => hda (hasDerivAt_neg_comp (h2 _ (m t ht))).neg (fun s => rfl) (by simp))
      (fun t ht => hM _ (m t ht))
    simpa using this

theorem taylor3 {φ φ1 φ2 φ3 : ℝ → V} {M h : ℝ} (h1 : ∀ t ∈ uIcc 0 h, HasDerivAt φ (φ1 t) t) (h2 : ∀ t ∈ uIcc 0 h, HasDerivAt φ1 (φ2 t) t)
    (h3 : ∀ t ∈ uIcc 0 h, HasDerivAt φ2 (φ3 t) t) (hM : ∀ t ∈ uIcc 0 h, ‖φ3 t‖ ≤ M) :
    ‖φ h - φ 0 - h • φ1 0 - (h ^ 2 / 2) • φ2 0‖ ≤ M / 6 * |h| ^ 3 := by
  rcases le_total 0 h with hh | hh
  · rw [uIcc_of_le hh] at *
    rw [abs_of_nonneg hh]
    exact taylor3_pos hh h1 h2 h3 hM
  · rw [uIcc_of_ge hh] at *
    have m : ∀ t ∈ Icc 0 (-h), -t ∈ Icc h 0 := fun t ht => ⟨by linarith [ht.2], by linarith [ht.1]⟩
    have := taylor3_pos (φ := fun t => φ (-t)) (φ1 := fun t => -φ1 (-t)) (φ2 := fun t => φ2 (-t)) (φ3 := fun t => -φ3 (-t)) (M := M) (neg_nonneg.2 hh)
      (fun t ht => hasDerivAt_neg_comp (h1 _ (m t ht))) (fun t ht => hda (hasDerivAt_neg_comp (h2 _ (m t ht))).neg (fun s => rfl) (by simp))
      (fun t ht => hasDerivAt_neg_comp (h3 _ (m t ht))) (fun t ht => by rw [norm_neg]; exact hM _ (m t ht))
    rw [abs_of_nonpos hh]
    simpa using this

/-- The remainder of a symmetric difference. -/
theorem symm_diff_pos {φ φ1 φ2 φ3 : ℝ → V} {M h : ℝ} (hh : 0 ≤ h) (h1 : ∀ t ∈ Icc (-h) h, HasDerivAt φ (φ1 t) t)
    (h2 : ∀ t ∈ Icc (-h) h, HasDerivAt φ1 (φ2 t) t) (h3 : ∀ t ∈ Icc (-h) h, HasDerivAt φ2 (φ3 t) t) (hM : ∀ t ∈ Icc (-h) h, ‖φ3 t‖ ≤ M) :
    ‖φ h - φ (-h) - (2 * h) • φ1 0‖ ≤ M / 3 * h ^ 3 := by
  have m : ∀ t ∈ Icc 0 h, t ∈ Icc (-h) h ∧ -t ∈ Icc (-h) h := fun t ht =>
    ⟨⟨by linarith [ht.1], ht.2⟩, ⟨by linarith [ht.2], by linarith [ht.1]⟩⟩
  have s1 := power_step (g := fun t => φ2 t - φ2 (-t)) (g' := fun t => φ3 t + φ3 (-t)) (C := 2 * M) 0 (fun t ht => by
    exact hda ((h3 t (m t ht).1).sub (hasDerivAt_neg_comp (h3 _ (m t ht).2))) (fun s => rfl) (by simp)) (by simp) (fun t ht => by
      have := norm_add_le (φ3 t) (φ3 (-t))
      have := hM _ (m t ht).1
      have := hM _ (m t ht).2
      simp only [pow_zero]
      linarith)
  have s2 := power_step (g := fun t => φ1 t + φ1 (-t) - (2 : ℝ) • φ1 0) (g' := fun t => φ2 t - φ2 (-t)) (C := 2 * M) 1 (fun t ht => by
    have := ((h2 t (m t ht).1).add (hasDerivAt_neg_comp (h2 _ (m t ht).2))).sub_const ((2 : ℝ) • φ1 0)
    exact hda this (fun s => rfl) (by simp [sub_eq_add_neg])) (by simp [two_smul]) (by simpa using s1)
  have s3 := power_step (g := fun t => φ t - φ (-t) - (2 * t) • φ1 0) (g' := fun t => φ1 t + φ1 (-t) - (2 : ℝ) • φ1 0) (C := M) 2 (fun t ht => by
    have := ((h1 t (m t ht).1).sub (hasDerivAt_neg_comp (h1 _ (m t ht).2))).sub (((hasDerivAt_id t).const_mul 2).smul_const (φ1 0))
    exact hda this (fun s => rfl) (by simp)) (by simp) (fun t ht => by
      have := s2 t ht
      norm_num at this ⊢
      exact this)
  have := s3 h ⟨hh, le_rfl⟩
  convert this using 2
  norm_num

/-- The remainder of a second symmetric difference. -/
theorem symm_second_pos {φ φ1 φ2 φ3 φ4 : ℝ → V} {M h : ℝ} (hh : 0 ≤ h) (h1 : ∀ t ∈ Icc (-h) h, HasDerivAt φ (φ1 t) t)
    (h2 : ∀ t ∈ Icc (-h) h, HasDerivAt φ1 (φ2 t) t) (h3 : ∀ t ∈ Icc (-h) h, HasDerivAt φ2 (φ3 t) t) (h4 : ∀ t ∈ Icc (-h) h, HasDerivAt φ3 (φ4 t) t)
    (hM : ∀ t ∈ Icc (-h) h, ‖φ4 t‖ ≤ M) :
    ‖φ h + φ (-h) - (2 : ℝ) • φ 0 - h ^ 2 • φ2 0‖ ≤ M / 12 * h ^ 4 := by
  have m : ∀ t ∈ Icc 0 h, t ∈ Icc (-h) h ∧ -t ∈ Icc (-h) h := fun t ht =>
    ⟨⟨by linarith [ht.1], ht.2⟩, ⟨by linarith [ht.2], by linarith [ht.1]⟩⟩
  have s1 : ∀ t ∈ Icc 0 h, ‖φ1 t - φ1 (-t) - (2 * t) • φ2 0‖ ≤ M / 3 * t ^ 3 := by
    intro t ht
    have sub : ∀ u ∈ Icc (-t) t, u ∈ Icc (-h) h := fun u hu => ⟨by linarith [hu.1, ht.2], hu.2.trans ht.2⟩
    exact symm_diff_pos ht.1 (fun u hu => h2 u (sub u hu)) (fun u hu => h3 u (sub u hu)) (fun u hu => h4 u (sub u hu)) (fun u hu => hM u (sub u hu))
  have s2 := power_step (g := fun t => φ t + φ (-t) - (2 : ℝ) • φ 0 - t ^ 2 • φ2 0) (g' := fun t => φ1 t - φ1 (-t) - (2 * t) • φ2 0) (C := M / 3) 3
    (fun t ht => by
      have := (((h1 t (m t ht).1).add (hasDerivAt_neg_comp (h1 _ (m t ht).2))).sub_const ((2 : ℝ) • φ 0)).sub ((hasDerivAt_pow 2 t).smul_const (φ2 0))
      exact hda this (fun s => rfl) (by simp [sub_eq_add_neg])) (by simp [two_smul]) s1
  have := s2 h ⟨hh, le_rfl⟩
  convert this using 2
  norm_num
  ring

/-- The remainder of a second forward difference. -/
theorem second_forward_pos {φ φ1 φ2 φ3 : ℝ → V} {M h : ℝ} (hh : 0 ≤ h) (h1 : ∀ t ∈ Icc 0 (2 * h), HasDerivAt φ (φ1 t) t)
    (h2 : ∀ t ∈ Icc 0 (2 * h), HasDerivAt φ1 (φ2 t) t) (h3 : ∀ t ∈ Icc 0 (2 * h), HasDerivAt φ2 (φ3 t) t) (hM : ∀ t ∈ Icc 0 (2 * h), ‖φ3 t‖ ≤ M) :
    ‖φ (2 * h) - (2 : ℝ) • φ h + φ 0 - h ^ 2 • φ2 0‖ ≤ M * h ^ 3 := by
  have s1 := power_step (g := fun t => φ2 t - φ2 0) (C := M) 0 (fun t ht => (h3 t ht).sub_const _) (by simp) (by simpa using hM)
  have s2 : ∀ t ∈ Icc 0 h, ‖φ1 (2 * t) - φ1 t - t • φ2 0‖ ≤ 3 / 2 * M * t ^ 2 := by
    intro t ht
    have := bound_step (h := t) (g := fun u => φ1 (t + u) - φ1 t - u • φ2 0) (g' := fun u => φ2 (t + u) - φ2 0) (B := fun u => M * (t * u + u ^ 2 / 2))
      (B' := fun u => M * (t + u)) (fun u hu => by
        have hs : HasDerivAt (fun v => φ1 (t + v)) (φ2 (t + u)) u :=
          hda ((h2 (t + u) ⟨by linarith [ht.1, hu.1], by linarith [ht.2, hu.2]⟩).scomp u ((hasDerivAt_id u).const_add t)) (fun s => rfl) (by simp)
        have := (hs.sub_const (φ1 t)).sub
          ((hasDerivAt_id u).smul_const (φ2 0))
        exact hda this (fun s => rfl) (by simp)) (by simp) (by simp) (fun u => by
        have := (((hasDerivAt_id u).const_mul t).add ((hasDerivAt_pow 2 u).div_const 2)).const_mul M
        exact hda this (fun s => rfl) (by simp [mul_div_cancel_left₀])) (fun u hu => by
        have := s1 (t + u) ⟨by linarith [ht.1, hu.1], by linarith [ht.2, hu.2]⟩
        simpa using this) t ⟨ht.1, le_rfl⟩
    simp only [← two_mul] at this
    refine this.trans (le_of_eq ?_)
    ring
  have s3 := power_step (h := h) (g := fun t => φ (2 * t) - (2 : ℝ) • φ t + φ 0 - t ^ 2 • φ2 0) (g' := fun t => (2 : ℝ) • (φ1 (2 * t) - φ1 t - t • φ2 0)) (C := 3 * M) 2
    (fun t ht => by
      have a : HasDerivAt (fun s => φ (2 * s)) ((2 : ℝ) • φ1 (2 * t)) t := by
        have h2t : 2 * t ∈ Icc 0 (2 * h) := ⟨by linarith [ht.1], by linarith [ht.2]⟩
        have := (h1 _ h2t).scomp t ((hasDerivAt_id t).const_mul (2 : ℝ))
        exact hda this (fun s => rfl) (by simp)
      have := ((a.sub ((h1 t ⟨ht.1, by linarith [ht.1, ht.2]⟩).const_smul (2 : ℝ))).add_const (φ 0)).sub ((hasDerivAt_pow 2 t).smul_const (φ2 0))
      exact hda this (fun s => rfl) (by simp [smul_sub, smul_smul])) (by simp [two_smul]) (fun t ht => by
      rw [norm_smul]
      have := s2 t ht
      norm_num
      linarith)
  have := s3 h ⟨hh, le_rfl⟩
  convert this using 2
  norm_num

end Verif.FinDiff
