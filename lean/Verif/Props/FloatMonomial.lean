import Verif.Lemmas.FloatMonomial
import Verif.Props.FloatPolynomial
/-!
# C100: arithmetic of polynomials in the monomial basis in floating point arithmetic
-/

namespace Verif.Props
open Verif Verif.Poly Verif.FloatPoly Verif.Spec Verif.MI Verif.FloatIntegration C99aux

namespace C100aux

theorem value_tab {m : Nat} (r : Nat) (c : List Nat → ℝ) (x : Fin m → ℝ) : monomialValue r (tab m r c) x = val .monomial m r c x := by
  unfold monomialValue
  rw [generateAll_eq_mis, linComb_tab]
  rfl

theorem size_tab {m : Nat} (r : Nat) (c : List Nat → ℝ) (x : Fin m → ℝ) :
    monomialSize r (tab m r c) x = val .monomial m r (fun τ => |c τ|) (fun i => |x i|) := by
  unfold monomialSize
  rw [show (tab m r c).map (fun a => |a|) = tab m r (fun τ => |c τ|) by simp [tab], value_tab]

/-- From the coefficients to the values. -/
theorem result {ε : ℝ} {k m r : Nat} {Y : List Nat → Set ℝ} {v M : List Nat → ℝ} {op : Py (Obj (Set ℝ))}
    (hop : op = Obj.new .monomial (tab m r Y) (some r) m) (hf : Fits r m) (h : ∀ τ, AllNear ε k (v τ) (M τ) (Y τ)) :
    ∃ s, op = .ok s ∧ s.basis = .monomial ∧ s.r = r ∧ s.m = m ∧ (∃ c, Possible s.coeff c) ∧ ∀ c, Possible s.coeff c → ∀ x : Fin m → ℝ,
      |monomialValue r c x - val .monomial m r v x| ≤ ((1 + ε) ^ k - 1) * val .monomial m r M (fun i => |x i|) := by
  refine ⟨⟨.monomial, tab m r Y, r, m⟩, by rw [hop, new_sets .monomial m r Y hf], rfl, rfl, rfl, exists_possible fun τ _ => (h τ).1, ?_⟩
  intro c hc x
  obtain ⟨d, rfl, hd⟩ := possible_tab hc
  rw [value_tab]
  exact value_near_monomial (fun τ hτ => (h τ).2 _ (hd τ hτ)) x

/-- The coefficients after the degree elevation, which is exact. -/
theorem elevated {m : ℕ} (p : Obj ℝ) (f : List Nat → ℝ) (hpf : p.coeff = tab m p.r f) (hpm : p.m = m) (s : ℕ) (hs : p.r ≤ s) (hf : Fits s m) :
    ∃ g, degreeElevateMonomial p s = .ok ⟨.monomial, tab m s g, s, m⟩ ∧
      ∀ x : Fin m → ℝ, monomialValue s (tab m s g) x = monomialValue p.r p.coeff x ∧ monomialSize s (tab m s g) x = monomialSize p.r p.coeff x := by
  subst hpm
  refine ⟨fun ν => if ν.sum ≤ p.r then f ν else 0, ?_, fun x => ?_⟩
  · rw [degreeElevateMonomial_tab p f s hpf hs, new_ok _ _ _ _ (length_tab _ _ _) hf]
  · rw [hpf, value_tab, size_tab, value_tab, size_tab]
    refine ⟨?_, ?_⟩
    · simp only [val, basisFn]
      exact sum_elevate (K := ℝ) p.m p.r s hs f _
    · simp only [val, basisFn]
      rw [← sum_elevate (K := ℝ) p.m p.r s hs (fun τ => |f τ|) _]
      refine Finset.sum_congr rfl fun ν _ => ?_
      congr 1
      split_ifs <;> simp

theorem val_add' {m r : Nat} (v w : List Nat → ℝ) (x : Fin m → ℝ) :
    val .monomial m r (fun τ => v τ + w τ) x = val .monomial m r v x + val .monomial m r w x := by
  simp only [val, smul_add, Finset.sum_add_distrib]

theorem val_sub' {m r : Nat} (v w : List Nat → ℝ) (x : Fin m → ℝ) :
    val .monomial m r (fun τ => v τ - w τ) x = val .monomial m r v x - val .monomial m r w x := by
  simp only [val, smul_sub, Finset.sum_sub_distrib]

/-- Addition and subtraction of polynomials of the same degree. -/
theorem same_near {ε : ℝ} (hε : 0 ≤ ε) (op : Set ℝ → Set ℝ → Set ℝ) (op' : ℝ → ℝ → ℝ)
    (hop : ∀ {k : Nat} {v w M N : ℝ} {A B : Set ℝ}, AllNear ε k v M A → AllNear ε k w N B → AllNear ε (k + 1) (op' v w) (M + N) (op A B))
    (hval : ∀ {m r : Nat} (v w : List Nat → ℝ) (x : Fin m → ℝ), val .monomial m r (fun τ => op' (v τ) (w τ)) x =
      op' (val .monomial m r v x) (val .monomial m r w x)) {m r : ℕ} (f g : List Nat → ℝ) (hf : Fits r m) :
    ∃ s, FloatPoly.combineSame op (exactly ⟨.monomial, tab m r f, r, m⟩) (exactly ⟨.monomial, tab m r g, r, m⟩) = .ok s ∧
      s.basis = .monomial ∧ s.r = r ∧ s.m = m ∧ (∃ c, Possible s.coeff c) ∧ ∀ c, Possible s.coeff c → ∀ x : Fin m → ℝ,
        |monomialValue r c x - op' (monomialValue r (tab m r f) x) (monomialValue r (tab m r g) x)| ≤
          ε * (monomialSize r (tab m r f) x + monomialSize r (tab m r g) x) := by
  have hc : FloatPoly.combineSame op (exactly ⟨.monomial, tab m r f, r, m⟩) (exactly ⟨.monomial, tab m r g, r, m⟩) =
      Obj.new .monomial (tab m r (fun τ => op {f τ} {g τ})) (some r) m := by
    unfold FloatPoly.combineSame
    rw [exactly_coeff _ f rfl, exactly_coeff _ g rfl]
    simp [exactly, zipWith_tab]
  obtain ⟨s, a1, a2, a3, a4, a5, a6⟩ := result hc hf (fun τ => hop (allNear_single hε (f τ)) (allNear_single hε (g τ)))
  refine ⟨s, a1, a2, a3, a4, a5, fun c hc x => ?_⟩
  have := a6 c hc x
  rw [hval, val_add', ← value_tab, ← value_tab, ← size_tab, ← size_tab] at this
  simpa using this

/-- Addition and subtraction at once: `op'` is the operation on numbers. -/
theorem combine_near {ε : ℝ} (hε : 0 ≤ ε) (op : Set ℝ → Set ℝ → Set ℝ) (op' : ℝ → ℝ → ℝ)
    (hop : ∀ {k : Nat} {v w M N : ℝ} {A B : Set ℝ}, AllNear ε k v M A → AllNear ε k w N B → AllNear ε (k + 1) (op' v w) (M + N) (op A B))
    (hval : ∀ {m r : Nat} (v w : List Nat → ℝ) (x : Fin m → ℝ), val .monomial m r (fun τ => op' (v τ) (w τ)) x =
      op' (val .monomial m r v x) (val .monomial m r w x))
    {m : ℕ} (p q : Obj ℝ) (hp : p.Valid) (hq : q.Valid) (hpb : p.basis = .monomial) (hqb : q.basis = .monomial) (hpm : p.m = m) (hqm : q.m = m) :
    ∃ s, combineMonomial op p q = .ok s ∧ s.basis = .monomial ∧ s.r = max p.r q.r ∧ s.m = m ∧ (∃ c, Possible s.coeff c) ∧
      ∀ c, Possible s.coeff c → ∀ x : Fin m → ℝ,
        |monomialValue (max p.r q.r) c x - op' (monomialValue p.r p.coeff x) (monomialValue q.r q.coeff x)| ≤
          ε * (monomialSize p.r p.coeff x + monomialSize q.r q.coeff x) := by
  obtain ⟨f, hpf⟩ := hp.exists_tab
  obtain ⟨g, hqg⟩ := hq.exists_tab
  have hfp : Fits p.r m := hpm ▸ hp.fits
  have hfq : Fits q.r m := hqm ▸ hq.fits
  rw [hpm] at hpf
  rw [hqm] at hqg
  have ep : p = ⟨.monomial, tab m p.r f, p.r, m⟩ := by rw [← hpf, ← hpm, ← hpb]
  have eq : q = ⟨.monomial, tab m q.r g, q.r, m⟩ := by rw [← hqg, ← hqm, ← hqb]
  have hred : combineMonomial op p q = if p.r = q.r then FloatPoly.combineSame op (exactly p) (exactly q)
      else if p.r > q.r then (do let q' ← degreeElevateMonomial q p.r; FloatPoly.combineSame op (exactly p) (exactly q'))
      else (do let p' ← degreeElevateMonomial p q.r; FloatPoly.combineSame op (exactly p') (exactly q)) := by
    unfold combineMonomial
    simp only [hpm, hqm, hpb, hqb, decide_true, pyAssert_true, Py.bind_ok]
  rw [hred]
  rcases Nat.lt_trichotomy p.r q.r with hr | hr | hr
  · obtain ⟨f', h1, h2⟩ := elevated p f hpf hpm q.r hr.le hfq
    rw [if_neg (by omega), if_neg (by omega), h1, Py.bind_ok, max_eq_right hr.le]
    obtain ⟨s, a1, a2, a3, a4, a5, a6⟩ := same_near hε op op' hop hval f' g hfq
    rw [← eq] at a1
    refine ⟨s, a1, a2, a3, a4, a5, fun c hc x => ?_⟩
    have := a6 c hc x
    rw [(h2 x).1, (h2 x).2, ← hqg] at this
    exact this
  · rw [if_pos hr, hr, max_self]
    obtain ⟨s, a1, a2, a3, a4, a5, a6⟩ := same_near hε op op' hop hval f g hfq
    rw [hr] at ep hpf
    rw [← eq, ← ep] at a1
    refine ⟨s, a1, a2, a3, a4, a5, fun c hc x => ?_⟩
    have := a6 c hc x
    rw [← hqg, ← hpf] at this
    exact this
  · obtain ⟨g', h1, h2⟩ := elevated q g hqg hqm p.r hr.le hfp
    rw [if_neg (by omega), if_pos (by omega), h1, Py.bind_ok, max_eq_left hr.le]
    obtain ⟨s, a1, a2, a3, a4, a5, a6⟩ := same_near hε op op' hop hval f g' hfp
    rw [← ep] at a1
    refine ⟨s, a1, a2, a3, a4, a5, fun c hc x => ?_⟩
    have := a6 c hc x
    rw [(h2 x).1, (h2 x).2, ← hpf] at this
    exact this

end C100aux
open C100aux

/-- **C100** Product of two polynomials in the monomial basis: whatever the rounding errors, the computed polynomial is near to the product at every
point. -/
theorem C100_mul (ε : ℝ) (hε : 0 ≤ ε) {m : ℕ} (p q : Obj ℝ) (hp : p.Valid) (hq : q.Valid) (hb : q.basis = .monomial)
    (hpm : p.m = m) (hqm : q.m = m) (hf : Fits (p.r + q.r) m) :
    ∃ s, FloatPoly.mulMonomial ε p q = .ok s ∧ s.basis = .monomial ∧ s.r = p.r + q.r ∧ s.m = m ∧ (∃ c, Possible s.coeff c) ∧
      ∀ c, Possible s.coeff c → ∀ x : Fin m → ℝ,
        |monomialValue (p.r + q.r) c x - monomialValue p.r p.coeff x * monomialValue q.r q.coeff x| ≤
          ((1 + ε) ^ (getDimension p.r m + 1) - 1) * (monomialSize p.r p.coeff x * monomialSize q.r q.coeff x) := by
  obtain ⟨f, hpf⟩ := hp.exists_tab
  obtain ⟨g, hqg⟩ := hq.exists_tab
  obtain ⟨Y, h1, h2⟩ := mulMonomial_near hε p q f g hb (hpm.trans hqm.symm) hpf hqg
  rw [hpm] at h1 h2
  obtain ⟨s, a1, a2, a3, a4, a5, a6⟩ := C100aux.result h1 hf h2
  refine ⟨s, a1, a2, a3, a4, a5, fun c hc x => ?_⟩
  have := a6 c hc x
  have e1 := mul_monomial_val m p.r q.r f g x
  have e2 := mul_monomial_val m p.r q.r (fun ν => |f ν|) (fun ν => |g ν|) (fun i => |x i|)
  rw [hpf, hqg, hpm, hqm, C100aux.value_tab, C100aux.value_tab, C100aux.size_tab, C100aux.size_tab, ← e1, ← e2]
  exact this

/-- **C100** Sum of two polynomials in the monomial basis, also of different degrees: a single rounding. -/
theorem C100_add (ε : ℝ) (hε : 0 ≤ ε) {m : ℕ} (p q : Obj ℝ) (hp : p.Valid) (hq : q.Valid) (hpb : p.basis = .monomial)
    (hqb : q.basis = .monomial) (hpm : p.m = m) (hqm : q.m = m) :
    ∃ s, combineMonomial (FloatPoly.add ε) p q = .ok s ∧ s.basis = .monomial ∧ s.r = max p.r q.r ∧ s.m = m ∧ (∃ c, Possible s.coeff c) ∧
      ∀ c, Possible s.coeff c → ∀ x : Fin m → ℝ,
        |monomialValue (max p.r q.r) c x - (monomialValue p.r p.coeff x + monomialValue q.r q.coeff x)| ≤
          ε * (monomialSize p.r p.coeff x + monomialSize q.r q.coeff x) :=
  C100aux.combine_near hε (FloatPoly.add ε) (· + ·) (fun h h' => h.add hε h') C100aux.val_add' p q hp hq hpb hqb hpm hqm

/-- **C100** Difference of two polynomials in the monomial basis, also of different degrees: a single rounding. -/
theorem C100_sub (ε : ℝ) (hε : 0 ≤ ε) {m : ℕ} (p q : Obj ℝ) (hp : p.Valid) (hq : q.Valid) (hpb : p.basis = .monomial)
    (hqb : q.basis = .monomial) (hpm : p.m = m) (hqm : q.m = m) :
    ∃ s, combineMonomial (FloatPoly.sub ε) p q = .ok s ∧ s.basis = .monomial ∧ s.r = max p.r q.r ∧ s.m = m ∧ (∃ c, Possible s.coeff c) ∧
      ∀ c, Possible s.coeff c → ∀ x : Fin m → ℝ,
        |monomialValue (max p.r q.r) c x - (monomialValue p.r p.coeff x - monomialValue q.r q.coeff x)| ≤
          ε * (monomialSize p.r p.coeff x + monomialSize q.r q.coeff x) :=
  C100aux.combine_near hε (FloatPoly.sub ε) (· - ·) (fun h h' => h.sub hε h') C100aux.val_sub' p q hp hq hpb hqb hpm hqm

/-- **C100** Multiplication with a number. -/
theorem C100_smul (ε : ℝ) (hε : 0 ≤ ε) {m : ℕ} (p : Obj ℝ) (hp : p.Valid) (hpb : p.basis = .monomial) (hpm : p.m = m) (a : ℝ) :
    ∃ s, FloatPoly.smul ε a p = .ok s ∧ s.basis = .monomial ∧ s.r = p.r ∧ s.m = m ∧ (∃ c, Possible s.coeff c) ∧
      ∀ c, Possible s.coeff c → ∀ x : Fin m → ℝ,
        |monomialValue p.r c x - a * monomialValue p.r p.coeff x| ≤ ε * (|a| * monomialSize p.r p.coeff x) := by
  obtain ⟨f, hpf⟩ := hp.exists_tab
  have hfp : Fits p.r m := hpm ▸ hp.fits
  rw [hpm] at hpf
  have hc : FloatPoly.smul ε a p = Obj.new .monomial (tab m p.r (fun τ => FloatPoly.mul ε {f τ} {a})) (some p.r) m := by
    unfold FloatPoly.smul
    rw [hpb, hpf, hpm]
    simp [tab, Function.comp_def]
  obtain ⟨s, a1, a2, a3, a4, a5, a6⟩ := C100aux.result hc hfp (fun τ => (allNear_single hε (f τ)).mul hε (allNear_single hε a))
  refine ⟨s, a1, a2, a3, a4, a5, fun c hc x => ?_⟩
  have := a6 c hc x
  have e : ∀ (h : List Nat → ℝ) (b : ℝ) (y : Fin m → ℝ), val .monomial m p.r (fun τ => h τ * b) y = b * val .monomial m p.r h y := by
    intro h b y
    simp only [val, smul_eq_mul, Finset.mul_sum]
    exact Finset.sum_congr rfl fun ν _ => by ring
  rw [e, e, ← C100aux.value_tab p.r f, ← C100aux.size_tab p.r f, ← hpf] at this
  simpa using this

/-- **C100** Partial derivatives: the computed polynomial is near to the derivative `d`, relative to the derivative `D` of the polynomial whose
coefficients are the absolute values. -/
theorem C100_derivative (ε : ℝ) (hε : 0 ≤ ε) {m : ℕ} (p : Obj ℝ) (hp : p.Valid) (hpm : p.m = m) (i : Fin m) :
    ∃ s, FloatPoly.partialDerivativeMonomial ε p i = .ok s ∧ s.basis = .monomial ∧ s.r = p.r - 1 ∧ s.m = m ∧ (∃ c, Possible s.coeff c) ∧
      ∀ c, Possible s.coeff c → ∀ x : Fin m → ℝ, ∃ d D, HasDerivAt (fun t => monomialValue p.r p.coeff (Function.update x i t)) d (x i) ∧
        HasDerivAt (fun t => monomialValue p.r (p.coeff.map (fun a => |a|)) (Function.update (fun j => |x j|) i t)) D |x i| ∧
        |monomialValue (p.r - 1) c x - d| ≤ ε * D := by
  obtain ⟨f, hpf⟩ := hp.exists_tab
  have hfp : Fits p.r m := hpm ▸ hp.fits
  have hi : (i : ℕ) < p.m := by rw [hpm]; exact i.2
  have habs : p.coeff.map (fun a => |a|) = tab m p.r (fun τ => |f τ|) := by rw [hpf, hpm]; simp [tab, Function.comp_def]
  rw [habs]
  by_cases hr : p.r = 0
  · have hc : FloatPoly.partialDerivativeMonomial ε p i = Obj.new .monomial (tab m 0 (fun _ => {0})) (some 0) m := by
      unfold FloatPoly.partialDerivativeMonomial
      simp only [hi, decide_true, pyAssert_true, Py.bind_ok, hr, if_true]
      rw [hpm, tab, List.map_const', length_mis_eq]
    obtain ⟨s, a1, a2, a3, a4, a5, a6⟩ := C100aux.result hc (hfp.mono (Nat.zero_le _)) (fun τ => (allNear_single hε (0 : ℝ)))
    have hconst : ∀ (h : List Nat → ℝ) (y : Fin m → ℝ) (t : ℝ), HasDerivAt (fun t => monomialValue 0 (tab m 0 h) (Function.update y i t)) 0 t := by
      intro h y t
      have : (fun t => monomialValue 0 (tab m 0 h) (Function.update y i t)) = fun _ => monomialValue 0 (tab m 0 h) y := by
        funext t
        simp only [C100aux.value_tab, val, basisFn, monomial_ofFn]
        refine Finset.sum_congr rfl fun ν hν => ?_
        have h0 : ν = 0 := by
          have := mem_S.1 hν
          funext j
          have := Finset.single_le_sum (f := ν) (fun k _ => Nat.zero_le _) (Finset.mem_univ j)
          simp only [Pi.zero_apply]; omega
        subst h0
        simp
      rw [this]
      exact hasDerivAt_const _ _
    rw [hpm, hr] at hpf
    rw [hpf, hr]
    refine ⟨s, a1, a2, a3, a4, a5, fun c hc x => ⟨0, 0, hconst _ _ _, hconst _ _ _, ?_⟩⟩
    have := a6 c hc x
    simp only [val, smul_zero, Finset.sum_const_zero, abs_zero, pow_zero, sub_self, zero_mul] at this
    simpa using this
  · obtain ⟨Y, h1, h2⟩ := partialDerivativeMonomial_near hε p f i hpf hi hr
    rw [hpm] at h1
    obtain ⟨s, a1, a2, a3, a4, a5, a6⟩ := C100aux.result h1 (hfp.mono (Nat.sub_le _ _)) h2
    refine ⟨s, a1, a2, a3, a4, a5, fun c hc x => ⟨val .monomial m (p.r - 1) (fun τ => (τ.getD i 0 + 1) • f (incAt τ i)) x,
      val .monomial m (p.r - 1) (fun τ => (τ.getD i 0 + 1) • |f (incAt τ i)|) (fun j => |x j|), ?_, ?_, ?_⟩⟩
    · rw [hpf, hpm]
      simp only [C100aux.value_tab]
      exact hasDerivAt_val_monomial m p.r hr f x i
    · simp only [C100aux.value_tab]
      exact hasDerivAt_val_monomial m p.r hr (fun τ => |f τ|) (fun j => |x j|) i
    · have := a6 c hc x
      rwa [pow_one, add_sub_cancel_left] at this

/-- **C100** What the methods reject, they reject whatever the precision. -/
theorem C100_rejected (ε : ℝ) (p q : Obj ℝ) :
    (p.m ≠ q.m ∨ q.basis ≠ .monomial → FloatPoly.mulMonomial ε p q = .error .assertion) ∧
    (p.m ≠ q.m ∨ p.basis ≠ q.basis → combineMonomial (FloatPoly.add ε) p q = .error .assertion ∧ combineMonomial (FloatPoly.sub ε) p q = .error .assertion) ∧
    (∀ i, p.m ≤ i → FloatPoly.partialDerivativeMonomial ε p i = .error .assertion) := by
  refine ⟨fun h => ?_, fun h => ?_, fun i hi => ?_⟩
  · unfold FloatPoly.mulMonomial
    by_cases h1 : p.m = q.m
    · have h2 : ¬ q.basis = .monomial := h.resolve_left (not_not.2 h1)
      simp only [h1, h2, decide_true, decide_false, pyAssert_true, Py.bind_ok]
      rfl
    · simp only [h1, decide_false]
      rfl
  · unfold combineMonomial
    by_cases h1 : p.m = q.m
    · have h2 : ¬ p.basis = q.basis := h.resolve_left (not_not.2 h1)
      simp only [h1, h2, decide_true, decide_false, pyAssert_true, Py.bind_ok]
      exact ⟨rfl, rfl⟩
    · simp only [h1, decide_false]
      exact ⟨rfl, rfl⟩
  · unfold FloatPoly.partialDerivativeMonomial
    simp only [show ¬ i < p.m by omega, decide_false]
    rfl

/-- Polynomials in two variables meet the hypotheses, with double precision. -/
example : ∃ s, FloatPoly.mulMonomial (2 ^ (-53 : ℤ)) ⟨.monomial, [1, -2, 3, 4, -5, 6], 2, 2⟩ ⟨.monomial, [1, 0, 3], 1, 2⟩ = .ok s ∧ s.r = 3 := by
  obtain ⟨s, h1, -, h2, -⟩ := C100_mul (m := 2) (2 ^ (-53 : ℤ)) (by positivity) ⟨.monomial, [1, -2, 3, 4, -5, 6], 2, 2⟩ ⟨.monomial, [1, 0, 3], 1, 2⟩
    (new_ok_valid rfl (Or.inr (by norm_num))) (new_ok_valid rfl (Or.inr (by norm_num))) rfl rfl rfl (Or.inr (by norm_num))
  exact ⟨s, h1, h2⟩

example : ∃ s, combineMonomial (FloatPoly.sub (2 ^ (-53 : ℤ))) ⟨.monomial, [1, -2, 3], 1, 2⟩ ⟨.monomial, [1, -2, 3, 4, -5, 6], 2, 2⟩ = .ok s ∧ s.r = 2 := by
  obtain ⟨s, h1, -, h2, -⟩ := C100_sub (m := 2) (2 ^ (-53 : ℤ)) (by positivity) ⟨.monomial, [1, -2, 3], 1, 2⟩ ⟨.monomial, [1, -2, 3, 4, -5, 6], 2, 2⟩
    (new_ok_valid rfl (Or.inr (by norm_num))) (new_ok_valid rfl (Or.inr (by norm_num))) rfl rfl rfl rfl
  exact ⟨s, h1, h2⟩

example : ∃ s, FloatPoly.partialDerivativeMonomial (2 ^ (-53 : ℤ)) ⟨.monomial, [1, -2, 3, 4, -5, 6], 2, 2⟩ 1 = .ok s ∧ s.r = 1 := by
  obtain ⟨s, h1, -, h2, -⟩ := C100_derivative (m := 2) (2 ^ (-53 : ℤ)) (by positivity) ⟨.monomial, [1, -2, 3, 4, -5, 6], 2, 2⟩
    (new_ok_valid rfl (Or.inr (by norm_num))) rfl 1
  exact ⟨s, h1, h2⟩

end Verif.Props
