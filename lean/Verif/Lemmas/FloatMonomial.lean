import Verif.Model.FloatMonomial
import Verif.Lemmas.FloatPolynomial
/-!
# Rounding errors of the arithmetic of polynomials in the monomial basis
-/

namespace Verif.FloatPoly
open Verif Verif.Poly Verif.PyExpr Verif.FloatIntegration Verif.MI Verif.Spec

variable {ε : ℝ}

theorem abs_convCoeff_le (m r s : Nat) (f g : List Nat → ℝ) (τ : List Nat) :
    |convCoeff m r s (fun ν μ => f ν * g μ) τ| ≤ convCoeff m r s (fun ν μ => |f ν| * |g μ|) τ := by
  unfold convCoeff
  refine (Finset.abs_sum_le_sum_abs _ _).trans (Finset.sum_le_sum fun ν _ => (Finset.abs_sum_le_sum_abs _ _).trans (Finset.sum_le_sum fun μ _ => ?_))
  split_ifs
  · rw [abs_mul]
  · simp

theorem convolve_near (hε : 0 ≤ ε) (r s : Nat) (f g : List Nat → ℝ) :
    ∃ Y, convolve ε (tab 1 r f) (tab 1 s g) = tab 1 (r + s) Y ∧ ∀ τ, AllNear ε (r + 1)
      (convCoeff 1 r s (fun ν μ => f ν * g μ) τ) (convCoeff 1 r s (fun ν μ => |f ν| * |g μ|) τ) (Y τ) := by
  refine ⟨fun τ => {c | |c - convCoeff 1 r s (fun ν μ => f ν * g μ) τ| ≤
    ((1 + ε) ^ min (r + 1) (s + 1) - 1) * convCoeff 1 r s (fun ν μ => |f ν| * |g μ|) τ}, ?_, fun τ => ?_⟩
  · unfold convolve
    rw [show (tab 1 r f).map (fun t => |t|) = tab 1 r (fun τ => |f τ|) by simp [tab, Function.comp_def],
      show (tab 1 s g).map (fun t => |t|) = tab 1 s (fun τ => |g τ|) by simp [tab, Function.comp_def], convolve_tab, convolve_tab, length_tab, length_tab,
      getDimension_one, getDimension_one]
    unfold tab
    rw [List.zipWith_map, List.zipWith_self]
  · have h0 := abs_convCoeff_le 1 r s f g τ
    have h1 : (0 : ℝ) ≤ (1 + ε) ^ min (r + 1) (s + 1) - 1 := sub_nonneg.2 (one_le_pow₀ (by linarith))
    refine ⟨⟨convCoeff 1 r s (fun ν μ => f ν * g μ) τ, ?_⟩, fun t ht => ?_⟩
    · simp only [Set.mem_ofPred_eq, sub_self, abs_zero]
      exact mul_nonneg h1 ((abs_nonneg _).trans h0)
    · exact Near.mono hε (k := min (r + 1) (s + 1)) ⟨h0, ht⟩ (min_le_left _ _)

theorem mulInner_near (hε : 0 ≤ ε) (m r : Nat) (mu : List Nat) (a : ℝ) (hmu : mu.length = m) : ∀ (l : List (List Nat × ℝ)) (Y : List Nat → Set ℝ)
    (v M : List Nat → ℝ) (n : List Nat → ℕ), (∀ τ, 1 ≤ n τ) → (∀ τ, AllNear ε (n τ) (v τ) (M τ) (Y τ)) →
    (∀ e ∈ l, e.1.length = m ∧ mu.sum + e.1.sum ≤ r) →
    ∃ Y', mulInner ε r mu a l (tab m r Y) = .ok (tab m r Y') ∧ ∀ τ, AllNear ε (n τ + (l.filter (fun e => List.zipWith (· + ·) mu e.1 = τ)).length)
      (v τ + (l.map (fun e => if List.zipWith (· + ·) mu e.1 = τ then a * e.2 else 0)).sum)
      (M τ + (l.map (fun e => if List.zipWith (· + ·) mu e.1 = τ then |a| * |e.2| else 0)).sum) (Y' τ) := by
  intro l
  induction l with
  | nil => intro Y v M n _ hY _; exact ⟨Y, by simp [mulInner], fun τ => by simpa using hY τ⟩
  | cons e l ih =>
    intro Y v M n hn hY h
    obtain ⟨nu, b⟩ := e
    obtain ⟨h1, h2⟩ := h (nu, b) (by simp)
    simp only at h1 h2
    have h' : ∀ e ∈ l, e.1.length = m ∧ mu.sum + e.1.sum ≤ r := fun e he => h e (by simp [he])
    simp only [mulInner]
    by_cases hb : b = 0
    · obtain ⟨Y', a1, a2⟩ := ih Y v M n hn hY h'
      refine ⟨Y', by rw [if_pos hb, a1], fun τ => ?_⟩
      have := (a2 τ).mono hε (Nat.add_le_add_left ((List.sublist_cons_self (nu, b) l).filter (fun e => decide (List.zipWith (· + ·) mu e.1 = τ))).length_le (n τ))
      simpa [hb] using this
    · rw [if_neg hb, add_natCast]
      simp only [Py.bind_ok]
      obtain ⟨k, hk1, -, hk2, hk3⟩ := index_tab (W := Set ℝ) (m := m) (r := r) (ν := List.zipWith (· + ·) mu nu)
        (by simp [hmu, h1]) (by rw [sum_zipWith_add _ _ (by omega)]; exact h2)
      rw [hk1]; simp only [Py.bind_ok]
      rw [hk2]; simp only [Py.bind_ok]
      rw [hk3]; simp only [Py.bind_ok]
      obtain ⟨Y', a1, a2⟩ := ih (fun τ => if τ = List.zipWith (· + ·) mu nu then FloatPoly.add ε (Y (List.zipWith (· + ·) mu nu)) (FloatPoly.mul ε {a} {b}) else Y τ)
        (fun τ => v τ + if List.zipWith (· + ·) mu nu = τ then a * b else 0) (fun τ => M τ + if List.zipWith (· + ·) mu nu = τ then |a| * |b| else 0)
        (fun τ => n τ + if List.zipWith (· + ·) mu nu = τ then 1 else 0) (fun τ => (hn τ).trans (Nat.le_add_right _ _)) (fun τ => by
          by_cases hτ : List.zipWith (· + ·) mu nu = τ
          · subst hτ
            simp only [if_true]
            exact (hY _).add hε ((((allNear_single hε a).mul hε (allNear_single hε b))).mono hε (hn _))
          · simp only [if_neg hτ, if_neg (Ne.symm hτ), add_zero]
            exact hY τ) h'
      refine ⟨Y', a1, fun τ => ?_⟩
      have := a2 τ
      rw [add_assoc (v τ), add_assoc (M τ), add_assoc (n τ)] at this
      rw [List.map_cons, List.sum_cons, List.map_cons, List.sum_cons, List.filter_cons]
      by_cases hτ : List.zipWith (· + ·) mu nu = τ
      · simpa [hτ, add_comm] using this
      · simpa [hτ] using this

theorem mulOuter_near (hε : 0 ≤ ε) (m r : Nat) (q : List (List Nat × ℝ)) : ∀ (l : List (List Nat × ℝ)) (Y : List Nat → Set ℝ)
    (v M : List Nat → ℝ) (n : List Nat → ℕ), (∀ τ, 1 ≤ n τ) → (∀ τ, AllNear ε (n τ) (v τ) (M τ) (Y τ)) →
    (∀ d ∈ l, d.1.length = m ∧ ∀ e ∈ q, e.1.length = m ∧ d.1.sum + e.1.sum ≤ r) →
    ∃ Y', mulOuter ε r q l (tab m r Y) = .ok (tab m r Y') ∧ ∀ τ,
      AllNear ε (n τ + (l.map (fun d => (q.filter (fun e => List.zipWith (· + ·) d.1 e.1 = τ)).length)).sum)
      (v τ + (l.map (fun d => (q.map (fun e => if List.zipWith (· + ·) d.1 e.1 = τ then d.2 * e.2 else 0)).sum)).sum)
      (M τ + (l.map (fun d => (q.map (fun e => if List.zipWith (· + ·) d.1 e.1 = τ then |d.2| * |e.2| else 0)).sum)).sum) (Y' τ) := by
  intro l
  induction l with
  | nil => intro Y v M n _ hY _; exact ⟨Y, by simp [mulOuter], fun τ => by simpa using hY τ⟩
  | cons d l ih =>
    intro Y v M n hn hY h
    obtain ⟨mu, a⟩ := d
    obtain ⟨h1, h2⟩ := h (mu, a) (by simp)
    simp only at h1 h2
    have h' : ∀ d ∈ l, d.1.length = m ∧ ∀ e ∈ q, e.1.length = m ∧ d.1.sum + e.1.sum ≤ r := fun e he => h e (by simp [he])
    simp only [mulOuter]
    by_cases ha : a = 0
    · obtain ⟨Y', a1, a2⟩ := ih Y v M n hn hY h'
      refine ⟨Y', by rw [if_pos ha, a1], fun τ => ?_⟩
      have := (a2 τ).mono hε (Nat.add_le_add_left (Nat.le_add_left _ (q.filter (fun e => decide (List.zipWith (· + ·) mu e.1 = τ))).length) (n τ))
      simpa [ha] using this
    · rw [if_neg ha]
      obtain ⟨Y1, b1, b2⟩ := mulInner_near hε m r mu a h1 q Y v M n hn hY h2
      rw [b1]
      simp only [Py.bind_ok]
      obtain ⟨Y', a1, a2⟩ := ih Y1 _ _ _ (fun τ => (hn τ).trans (Nat.le_add_right _ _)) b2 h'
      refine ⟨Y', a1, fun τ => ?_⟩
      have := a2 τ
      rw [add_assoc (v τ), add_assoc (M τ), add_assoc (n τ)] at this
      simpa only [List.map_cons, List.sum_cons] using this

/-- The number of products that contribute to one coefficient. -/
theorem pairs_le (m r s : Nat) (τ : List Nat) :
    ((mis m r).map (fun ν => ((mis m s).filter (fun μ => List.zipWith (· + ·) ν μ = τ)).length)).sum ≤ getDimension r m := by
  rw [← length_mis_eq]
  refine (List.sum_le_card_nsmul _ 1 ?_).trans (by simp)
  intro k hk
  obtain ⟨ν, hν, rfl⟩ := List.mem_map.1 hk
  have hn : ((mis m s).filter (fun μ => decide (List.zipWith (· + ·) ν μ = τ))).Nodup := (nodup_mis m s).filter _
  by_contra hlt
  push Not at hlt
  have e0 := List.getElem_mem (l := (mis m s).filter (fun μ => decide (List.zipWith (· + ·) ν μ = τ))) (n := 0) (by omega)
  have e1 := List.getElem_mem (l := (mis m s).filter (fun μ => decide (List.zipWith (· + ·) ν μ = τ))) (n := 1) (by omega)
  rw [List.mem_filter] at e0 e1
  have hl := (mem_mis.1 hν).1
  have h0 := (mem_mis.1 e0.1).1
  have h1 := (mem_mis.1 e1.1).1
  have he := (of_decide_eq_true e0.2).trans (of_decide_eq_true e1.2).symm
  have : ((mis m s).filter (fun μ => decide (List.zipWith (· + ·) ν μ = τ)))[0]'(by omega) = ((mis m s).filter (fun μ => decide (List.zipWith (· + ·) ν μ = τ)))[1]'(by omega) := by
    refine List.ext_getElem (h0.trans h1.symm) fun i hi hi' => ?_
    have := congrArg (fun l => l[i]?) he
    simp only [List.getElem?_zipWith] at this
    rw [List.getElem?_eq_getElem (by omega : i < ν.length), List.getElem?_eq_getElem hi, List.getElem?_eq_getElem hi'] at this
    simpa using this
  have := (hn.getElem_inj_iff).1 this
  omega

/-- Product of two polynomials in the monomial basis. -/
theorem mulMonomial_near (hε : 0 ≤ ε) (p q : Obj ℝ) (f g : List Nat → ℝ) (hb : q.basis = .monomial) (hm : p.m = q.m)
    (hp : p.coeff = tab p.m p.r f) (hq : q.coeff = tab q.m q.r g) :
    ∃ Y, mulMonomial ε p q = Obj.new .monomial (tab p.m (p.r + q.r) Y) (some (p.r + q.r)) p.m ∧
      ∀ τ, AllNear ε (getDimension p.r p.m + 1) (convCoeff p.m p.r q.r (fun ν μ => f ν * g μ) τ)
        (convCoeff p.m p.r q.r (fun ν μ => |f ν| * |g μ|) τ) (Y τ) := by
  unfold mulMonomial
  simp only [hm, hb, decide_true, pyAssert_true, Py.bind_ok]
  rw [hm] at hp
  by_cases h1 : q.m = 1
  · obtain ⟨Y, a1, a2⟩ := convolve_near hε p.r q.r f g
    refine ⟨Y, by rw [if_pos h1, hp, hq, h1, a1], fun τ => ?_⟩
    rw [h1, getDimension_one]
    exact (a2 τ).mono hε (Nat.le_succ _)
  · have h0 : (List.replicate (getDimension (p.r + q.r) q.m) {0} : List (Set ℝ)) = tab q.m (p.r + q.r) (fun _ => {0}) := by
      rw [tab, List.map_const', length_mis_eq]
    obtain ⟨Y, a1, a2⟩ := mulOuter_near hε q.m (p.r + q.r) ((mis q.m q.r).map (fun ν => (ν, g ν))) ((mis q.m p.r).map (fun ν => (ν, f ν)))
      (fun _ => {0}) (fun _ => 0) (fun _ => |0|) (fun _ => 1) (fun _ => le_rfl) (fun _ => (allNear_single hε 0).mono hε (Nat.zero_le _)) (by
        intro d hd
        obtain ⟨ν, hν, rfl⟩ := List.mem_map.1 hd
        refine ⟨(mem_mis.1 hν).1, fun e he => ?_⟩
        obtain ⟨μ, hμ, rfl⟩ := List.mem_map.1 he
        have := (mem_mis.1 hν).2
        have := (mem_mis.1 hμ).2
        exact ⟨(mem_mis.1 hμ).1, by simp only; omega⟩)
    refine ⟨Y, by rw [if_neg h1, h0, generateAll_eq_mis, generateAll_eq_mis, hp, hq, zip_tab, zip_tab, a1]; rfl, fun τ => ?_⟩
    have := a2 τ
    rw [abs_zero, zero_add, zero_add, List.map_map, List.map_map, List.map_map] at this
    simp only [Function.comp_def, List.map_map, List.filter_map, List.length_map] at this
    rw [convCoeff_list, convCoeff_list]
    refine this.mono hε ?_
    have := pairs_le q.m p.r q.r τ
    omega

theorem partialDerivativeMonomial_near (hε : 0 ≤ ε) (p : Obj ℝ) (f : List Nat → ℝ) (i : Nat) (hp : p.coeff = tab p.m p.r f) (hi : i < p.m) (hr : p.r ≠ 0) :
    ∃ Y : List Nat → Set ℝ, partialDerivativeMonomial ε p i = Obj.new .monomial (tab p.m (p.r - 1) Y) (some (p.r - 1)) p.m ∧
      ∀ τ, AllNear ε 1 ((τ.getD i 0 + 1) • f (incAt τ i)) ((τ.getD i 0 + 1) • |f (incAt τ i)|) (Y τ) := by
  refine ⟨fun τ => FloatPoly.mul ε {((τ.getD i 0 + 1 : Nat) : ℝ)} {f (incAt τ i)}, ?_, fun τ => ?_⟩
  · unfold partialDerivativeMonomial
    simp only [hi, decide_true, pyAssert_true, Py.bind_ok, hr, ↓reduceIte]
    rw [fillLoop_sets_tab p.m (p.r - 1) _ (fun τ => FloatPoly.mul ε {((τ.getD i 0 + 1 : Nat) : ℝ)} {f (incAt τ i)})]
    · simp only [Py.bind_ok]
    · intro τ h1 h2
      rw [unit_ok p.m i hi]; simp only [Py.bind_ok]
      rw [add_natCast]; simp only [Py.bind_ok]
      rw [← h1, zipWith_unit τ i (by omega)]
      rw [getE_ok (by omega : i < τ.length)]
      simp only [Py.bind_ok]
      obtain ⟨k, hk1, -, hk2, -⟩ := index_tab (W := ℝ) (m := p.m) (r := p.r) (ν := incAt τ i)
        (by simp [incAt, h1]) (by rw [sum_incAt _ _ (by omega)]; omega)
      rw [hk1]; simp only [Py.bind_ok]
      rw [hp, hk2]
      simp [List.getD_eq_getElem?_getD, h1, hi]
  · have := (allNear_single hε ((τ.getD i 0 + 1 : Nat) : ℝ)).mul hε (allNear_single hε (f (incAt τ i)))
    rw [Nat.abs_cast] at this
    rw [nsmul_eq_mul, nsmul_eq_mul]
    exact this

/-- From the coefficients to the values. -/
theorem value_near_monomial {k m r : Nat} {c v M : List Nat → ℝ} (h : ∀ τ ∈ mis m r, Near ε k (v τ) (M τ) (c τ)) (x : Fin m → ℝ) :
    |val .monomial m r c x - val .monomial m r v x| ≤ ((1 + ε) ^ k - 1) * val .monomial m r M (fun i => |x i|) := by
  unfold val
  rw [← Finset.sum_sub_distrib, Finset.mul_sum]
  refine (Finset.abs_sum_le_sum_abs _ _).trans (Finset.sum_le_sum fun ν hν => ?_)
  have := (h (List.ofFn ν) (mem_mis.2 ⟨by simp, by rw [List.sum_ofFn]; exact mem_S.1 hν⟩)).2
  simp only [basisFn, monomial_ofFn]
  rw [← smul_sub, smul_eq_mul, smul_eq_mul, abs_mul, Finset.abs_prod]
  simp only [abs_pow]
  have h0 : 0 ≤ ∏ i, |x i| ^ ν i := Finset.prod_nonneg fun i _ => by positivity
  calc _ ≤ (∏ i, |x i| ^ ν i) * (((1 + ε) ^ k - 1) * M (List.ofFn ν)) := mul_le_mul_of_nonneg_left this h0
    _ = _ := by ring

end Verif.FloatPoly
