import Verif.Spec.FloatPolynomial
import Verif.Lemmas.FloatPolynomial
/-!
# C99: arithmetic of Bernstein polynomials in floating point arithmetic
-/

namespace Verif.Props
open Verif Verif.Poly Verif.FloatPoly Verif.Spec Verif.MI Verif.FloatIntegration

namespace C99aux

theorem new_sets (b : Basis) (m r : Nat) (Y : List Nat → Set ℝ) (h : Fits r m) :
    Obj.new b (tab m r Y) (some r) m = .ok ⟨b, tab m r Y, r, m⟩ := by
  have h1 := new_ok b (tab m r (fun _ => (0 : ℝ))) r m (length_tab _ _ _) h
  unfold Obj.new at h1 ⊢
  rw [length_tab] at h1 ⊢
  by_cases h0 : getDimension r m > 0
  · simp only [h0, decide_true, pyAssert_true, Py.bind_ok] at h1 ⊢
    by_cases hm : m > 0
    · simp only [hm, if_true] at h1 ⊢
      rcases hd : getDegreeFromDimension (getDimension r m) m with e | d
      · rw [hd] at h1; cases h1
      · rw [hd, Py.bind_ok] at h1
        rw [Py.bind_ok]
        by_cases hr : r = d
        · simp [hr]
        · simp [hr] at h1
    · simp only [hm, if_false] at h1 ⊢
      by_cases hd : getDimension r m = 1
      · simp [hd]
      · simp [hd] at h1
  · exact absurd (getDimension_pos r m) h0

theorem possible_tab {m r : Nat} {Y : List Nat → Set ℝ} {c : List ℝ} (h : Possible (tab m r Y) c) : ∃ d, c = tab m r d ∧ ∀ τ ∈ mis m r, d τ ∈ Y τ := by
  obtain ⟨d, rfl⟩ := exists_tab m r c (by rw [List.Forall₂.length_eq h, length_tab])
  refine ⟨d, rfl, ?_⟩
  unfold Possible tab at h
  rw [List.forall₂_map_left_iff, List.forall₂_map_right_iff, List.forall₂_same] at h
  exact h

theorem exists_possible {m r : Nat} {Y : List Nat → Set ℝ} (h : ∀ τ ∈ mis m r, (Y τ).Nonempty) : ∃ c, Possible (tab m r Y) c := by
  choose! d hd using h
  refine ⟨tab m r d, ?_⟩
  unfold Possible tab
  rw [List.forall₂_map_left_iff, List.forall₂_map_right_iff, List.forall₂_same]
  exact hd

theorem value_tab {m : Nat} (r : Nat) (c : List Nat → ℝ) (x : Fin m → ℝ) : bernsteinValue r (tab m r c) x = val .bernstein m r c x := by
  unfold bernsteinValue
  rw [generateAll_eq_mis, linComb_tab]
  rfl

theorem size_tab {m : Nat} (r : Nat) (c : List Nat → ℝ) (x : Fin m → ℝ) : bernsteinSize r (tab m r c) x = val .bernstein m r (fun τ => |c τ|) x := by
  unfold bernsteinSize
  rw [show (tab m r c).map (fun a => |a|) = tab m r (fun τ => |c τ|) by simp [tab], value_tab]

/-- From the coefficients to the values. -/
theorem result {ε : ℝ} {k m r : Nat} {Y : List Nat → Set ℝ} {v M : List Nat → ℝ} {op : Py (Obj (Set ℝ))}
    (hop : op = Obj.new .bernstein (tab m r Y) (some r) m) (hf : Fits r m) (h : ∀ τ ∈ mis m r, AllNear ε k (v τ) (M τ) (Y τ)) :
    ∃ s, op = .ok s ∧ s.basis = .bernstein ∧ s.r = r ∧ s.m = m ∧ (∃ c, Possible s.coeff c) ∧ ∀ c, Possible s.coeff c → ∀ x ∈ unitSimplex m,
      |bernsteinValue r c x - val .bernstein m r v x| ≤ ((1 + ε) ^ k - 1) * val .bernstein m r M x := by
  refine ⟨⟨.bernstein, tab m r Y, r, m⟩, by rw [hop, new_sets .bernstein m r Y hf], rfl, rfl, rfl, exists_possible fun τ hτ => (h τ hτ).1, ?_⟩
  intro c hc x hx
  obtain ⟨d, rfl, hd⟩ := possible_tab hc
  rw [value_tab]
  exact value_near (fun τ hτ => (h τ hτ).2 _ (hd τ hτ)) hx

theorem size_le {m : Nat} (r : Nat) (c : List ℝ) (hl : c.length = getDimension r m) (C : ℝ) (hC : ∀ a ∈ c, |a| ≤ C) {x : Fin m → ℝ} (hx : x ∈ unitSimplex m) :
    0 ≤ bernsteinSize r c x ∧ bernsteinSize r c x ≤ C := by
  obtain ⟨f, rfl⟩ := exists_tab m r c hl
  rw [size_tab]
  unfold val
  have h1 := val_bernstein_one (K := ℝ) m r x
  unfold val at h1
  have hb : ∀ ν : Fin m → ℕ, 0 ≤ basisFn .bernstein r (List.ofFn x) (List.ofFn ν) := fun ν => Verif.Props.bernstein_nonneg r x ν hx.1 hx.2
  refine ⟨Finset.sum_nonneg fun ν _ => mul_nonneg (hb ν) (abs_nonneg _), ?_⟩
  calc ∑ ν ∈ S m r, basisFn .bernstein r (List.ofFn x) (List.ofFn ν) • |f (List.ofFn ν)|
      ≤ ∑ ν ∈ S m r, basisFn .bernstein r (List.ofFn x) (List.ofFn ν) • C := Finset.sum_le_sum fun ν hν =>
        mul_le_mul_of_nonneg_left (hC _ (List.mem_map.2 ⟨_, mem_mis.2 ⟨by simp, by rw [List.sum_ofFn]; exact mem_S.1 hν⟩, rfl⟩)) (hb ν)
    _ = C := by
      simp only [smul_eq_mul, mul_one] at h1 ⊢
      rw [← Finset.sum_mul, h1, one_mul]

end C99aux
open C99aux

/-- **C99** Product of two Bernstein polynomials: whatever the rounding errors, the computed polynomial is near to the product at every point of the
unit simplex. -/
theorem C99_mul (ε : ℝ) (hε : 0 ≤ ε) (hε' : ε ≤ 1 / 2) {m : ℕ} (p q : Obj ℝ) (hp : p.Valid) (hq : q.Valid) (hb : q.basis = .bernstein)
    (hpm : p.m = m) (hqm : q.m = m) (hf : Fits (p.r + q.r) m) :
    ∃ s, FloatPoly.mulBernstein ε p q = .ok s ∧ s.basis = .bernstein ∧ s.r = p.r + q.r ∧ s.m = m ∧ (∃ c, Possible s.coeff c) ∧
      ∀ c, Possible s.coeff c → ∀ x ∈ unitSimplex m,
        |bernsteinValue (p.r + q.r) c x - bernsteinValue p.r p.coeff x * bernsteinValue q.r q.coeff x| ≤
          ((1 + ε) ^ (getDimension p.r m + 8) - 1) * (bernsteinSize p.r p.coeff x * bernsteinSize q.r q.coeff x) := by
  obtain ⟨f, hpf⟩ := hp.exists_tab
  obtain ⟨g, hqg⟩ := hq.exists_tab
  obtain ⟨Y, h1, h2⟩ := mulBernstein_near hε hε' p q f g hb (hpm.trans hqm.symm) hpf hqg
  rw [hpm] at h1 h2
  obtain ⟨s, a1, a2, a3, a4, a5, a6⟩ := result h1 hf h2
  refine ⟨s, a1, a2, a3, a4, a5, fun c hc x hx => ?_⟩
  have := a6 c hc x hx
  rw [mul_bernstein_val, mul_bernstein_val m p.r q.r (fun ν => |f ν|) (fun ν => |g ν|)] at this
  rw [hpf, hqg, hpm, hqm, value_tab, value_tab, size_tab, size_tab]
  exact this

/-- **C99** The same with a bound that does not depend on the point. -/
theorem C99_mul_uniform (ε : ℝ) (hε : 0 ≤ ε) (hε' : ε ≤ 1 / 2) {m : ℕ} (p q : Obj ℝ) (hp : p.Valid) (hq : q.Valid) (hb : q.basis = .bernstein)
    (hpm : p.m = m) (hqm : q.m = m) (hf : Fits (p.r + q.r) m) (A B : ℝ) (hA : ∀ a ∈ p.coeff, |a| ≤ A) (hB : ∀ b ∈ q.coeff, |b| ≤ B) :
    ∃ s, FloatPoly.mulBernstein ε p q = .ok s ∧ ∀ c, Possible s.coeff c → ∀ x ∈ unitSimplex m,
        |bernsteinValue (p.r + q.r) c x - bernsteinValue p.r p.coeff x * bernsteinValue q.r q.coeff x| ≤
          ((1 + ε) ^ (getDimension p.r m + 8) - 1) * (A * B) := by
  obtain ⟨s, a1, -, -, -, -, a6⟩ := C99_mul ε hε hε' p q hp hq hb hpm hqm hf
  refine ⟨s, a1, fun c hc x hx => (a6 c hc x hx).trans (mul_le_mul_of_nonneg_left ?_ (sub_nonneg.2 (one_le_pow₀ (by linarith))))⟩
  have h1 := size_le p.r p.coeff (by rw [((valid_iff p).1 hp).1, hpm]) A hA hx
  have h2 := size_le q.r q.coeff (by rw [((valid_iff q).1 hq).1, hqm]) B hB hx
  exact mul_le_mul h1.2 h2.2 h2.1 (h1.1.trans h1.2)

/-- **C99** Degree elevation: the computed polynomial is near to the given one. -/
theorem C99_degree_elevate (ε : ℝ) (hε : 0 ≤ ε) (hε' : ε ≤ 1 / 2) {m : ℕ} (p : Obj ℝ) (hp : p.Valid) (hpm : p.m = m) (s : ℕ) (hs : p.r ≤ s) (hf : Fits s m) :
    ∃ q, FloatPoly.degreeElevateBernstein ε p s = .ok q ∧ q.basis = .bernstein ∧ q.r = s ∧ q.m = m ∧ (∃ c, Possible q.coeff c) ∧
      ∀ c, Possible q.coeff c → ∀ x ∈ unitSimplex m,
        |bernsteinValue s c x - bernsteinValue p.r p.coeff x| ≤ ((1 + ε) ^ (getDimension p.r m + 10) - 1) * bernsteinSize p.r p.coeff x := by
  obtain ⟨f, hpf⟩ := hp.exists_tab
  rcases hs.eq_or_lt with rfl | hs
  · have h1 : FloatPoly.degreeElevateBernstein ε p p.r = Obj.new .bernstein (tab m p.r (fun τ => {f τ})) (some p.r) m := by
      unfold FloatPoly.degreeElevateBernstein
      simp only [ge_iff_le, le_refl, decide_true, pyAssert_true, Py.bind_ok, if_true, exactly, hpf, hpm]
      simp [tab, Function.comp_def]
    obtain ⟨q, a1, a2, a3, a4, a5, a6⟩ := result h1 hf (fun τ _ => (allNear_single hε (f τ)).mono hε (Nat.zero_le (getDimension p.r m + 10)))
    refine ⟨q, a1, a2, a3, a4, a5, fun c hc x hx => ?_⟩
    rw [hpf, hpm, value_tab, size_tab]
    exact a6 c hc x hx
  · obtain ⟨Y, h1, h2⟩ := degreeElevateBernstein_near hε hε' p f s hpf hs
    rw [hpm] at h1 h2
    obtain ⟨q, a1, a2, a3, a4, a5, a6⟩ := result h1 hf h2
    refine ⟨q, a1, a2, a3, a4, a5, fun c hc x hx => ?_⟩
    have := a6 c hc x hx
    have e1 := elevate_bernstein_val (K := ℝ) m p.r s hs.le f x
    have e2 := elevate_bernstein_val (K := ℝ) m p.r s hs.le (fun τ => |f τ|) x
    simp only [smul_eq_mul] at e1 e2
    rw [e1, e2] at this
    rw [hpf, hpm, value_tab, size_tab]
    exact this

namespace C99aux

theorem exactly_coeff (p : Obj ℝ) (f : List Nat → ℝ) (h : p.coeff = tab p.m p.r f) : (exactly p).coeff = tab p.m p.r (fun τ => {f τ}) := by
  simp [exactly, h, tab, Function.comp_def]

/-- The coefficients of one of the operands after the degree elevation. -/
theorem operand {ε : ℝ} (hε : 0 ≤ ε) (hε' : ε ≤ 1 / 2) {m : ℕ} (p : Obj ℝ) (hp : p.Valid) (hpm : p.m = m) (s : ℕ) (hs : p.r < s) (hf : Fits s m) :
    ∃ Y v M, FloatPoly.degreeElevateBernstein ε p s = .ok ⟨.bernstein, tab m s Y, s, m⟩ ∧
      (∀ τ ∈ mis m s, AllNear ε (getDimension p.r m + 10) (v τ) (M τ) (Y τ)) ∧
      ∀ x : Fin m → ℝ, val .bernstein m s v x = bernsteinValue p.r p.coeff x ∧ val .bernstein m s M x = bernsteinSize p.r p.coeff x := by
  obtain ⟨f, hpf⟩ := hp.exists_tab
  obtain ⟨Y, h1, h2⟩ := degreeElevateBernstein_near hε hε' p f s hpf hs
  rw [hpm] at h1 h2
  refine ⟨Y, _, _, by rw [h1, new_sets .bernstein m s Y hf], h2, fun x => ?_⟩
  have e1 := elevate_bernstein_val (K := ℝ) m p.r s hs.le f x
  have e2 := elevate_bernstein_val (K := ℝ) m p.r s hs.le (fun τ => |f τ|) x
  simp only [smul_eq_mul] at e1 e2
  rw [hpf, hpm, value_tab, size_tab]
  exact ⟨e1, e2⟩

theorem zipWith_tab (op : Set ℝ → Set ℝ → Set ℝ) (m r : Nat) (Y Z : List Nat → Set ℝ) :
    List.zipWith op (tab m r Y) (tab m r Z) = tab m r (fun τ => op (Y τ) (Z τ)) := by
  unfold tab
  rw [List.zipWith_map, List.zipWith_self]

theorem val_add' {m r : Nat} (v w : List Nat → ℝ) (x : Fin m → ℝ) :
    val .bernstein m r (fun τ => v τ + w τ) x = val .bernstein m r v x + val .bernstein m r w x := by
  simp only [val, smul_add, Finset.sum_add_distrib]

theorem val_sub' {m r : Nat} (v w : List Nat → ℝ) (x : Fin m → ℝ) :
    val .bernstein m r (fun τ => v τ - w τ) x = val .bernstein m r v x - val .bernstein m r w x := by
  simp only [val, smul_sub, Finset.sum_sub_distrib]

/-- Addition and subtraction at once: `op'` is the operation on numbers. -/
theorem combine_near {ε : ℝ} (hε : 0 ≤ ε) (hε' : ε ≤ 1 / 2) (op : Set ℝ → Set ℝ → Set ℝ) (op' : ℝ → ℝ → ℝ)
    (hop : ∀ {k : Nat} {v w M N : ℝ} {A B : Set ℝ}, AllNear ε k v M A → AllNear ε k w N B → AllNear ε (k + 1) (op' v w) (M + N) (op A B))
    (hval : ∀ {m r : Nat} (v w : List Nat → ℝ) (x : Fin m → ℝ), val .bernstein m r (fun τ => op' (v τ) (w τ)) x =
      op' (val .bernstein m r v x) (val .bernstein m r w x))
    {m : ℕ} (p q : Obj ℝ) (hp : p.Valid) (hq : q.Valid) (hpb : p.basis = .bernstein) (hqb : q.basis = .bernstein) (hpm : p.m = m) (hqm : q.m = m) :
    ∃ s, FloatPoly.combine ε op p q = .ok s ∧ s.basis = .bernstein ∧ s.r = max p.r q.r ∧ s.m = m ∧ (∃ c, Possible s.coeff c) ∧
      ∀ c, Possible s.coeff c → ∀ x ∈ unitSimplex m,
        |bernsteinValue (max p.r q.r) c x - op' (bernsteinValue p.r p.coeff x) (bernsteinValue q.r q.coeff x)| ≤
          ((1 + ε) ^ (if p.r = q.r then 1 else getDimension (min p.r q.r) m + 11) - 1) * (bernsteinSize p.r p.coeff x + bernsteinSize q.r q.coeff x) := by
  obtain ⟨f, hpf⟩ := hp.exists_tab
  obtain ⟨g, hqg⟩ := hq.exists_tab
  have hfp : Fits p.r m := hpm ▸ hp.fits
  have hfq : Fits q.r m := hqm ▸ hq.fits
  have hpf' := exactly_coeff p f hpf
  have hqg' := exactly_coeff q g hqg
  rw [hpm] at hpf hpf'
  rw [hqm] at hqg hqg'
  rcases Nat.lt_trichotomy p.r q.r with hr | hr | hr
  · obtain ⟨Y, v, M, h1, h2, h3⟩ := operand hε hε' p hp hpm q.r hr hfq
    have hc : FloatPoly.combine ε op p q = Obj.new .bernstein (tab m q.r (fun τ => op (Y τ) {g τ})) (some q.r) m := by
      unfold FloatPoly.combine
      rw [if_neg (by omega), if_neg (by omega), h1, Py.bind_ok]
      simp only [hpm, hqm, hpb, hqb, decide_true, pyAssert_true, Py.bind_ok, FloatPoly.combineSame, hqg', zipWith_tab]
      simp [exactly, hqm, hqb]
    obtain ⟨s, a1, a2, a3, a4, a5, a6⟩ := result hc hfq (fun τ hτ => hop (h2 τ hτ) ((allNear_single hε (g τ)).mono hε (Nat.zero_le _)))
    rw [max_eq_right hr.le, min_eq_left hr.le, if_neg hr.ne]
    refine ⟨s, a1, a2, a3, a4, a5, fun c hc x hx => ?_⟩
    have := a6 c hc x hx
    rw [hval, val_add', (h3 x).1, (h3 x).2, ← value_tab q.r g, ← size_tab q.r g, ← hqg] at this
    exact this
  · have hc : FloatPoly.combine ε op p q = Obj.new .bernstein (tab m q.r (fun τ => op {f τ} {g τ})) (some q.r) m := by
      unfold FloatPoly.combine
      rw [if_pos hr]
      rw [hr] at hpf'
      simp only [hpm, hqm, hpb, hqb, decide_true, pyAssert_true, Py.bind_ok, FloatPoly.combineSame, hqg', hpf', zipWith_tab]
      simp [exactly, hqm, hqb, hpm, hpb, hr]
    obtain ⟨s, a1, a2, a3, a4, a5, a6⟩ := result hc hfq (fun τ _ => hop (allNear_single hε (f τ)) (allNear_single hε (g τ)))
    rw [hr] at hpf
    rw [if_pos hr, hr, max_self]
    refine ⟨s, a1, a2, a3, a4, a5, fun c hc x hx => ?_⟩
    have := a6 c hc x hx
    rw [hval, val_add', ← value_tab q.r g, ← size_tab q.r g, ← value_tab q.r f, ← size_tab q.r f, ← hqg, ← hpf] at this
    exact this
  · obtain ⟨Y, v, M, h1, h2, h3⟩ := operand hε hε' q hq hqm p.r hr hfp
    have hc : FloatPoly.combine ε op p q = Obj.new .bernstein (tab m p.r (fun τ => op {f τ} (Y τ))) (some p.r) m := by
      unfold FloatPoly.combine
      rw [if_neg (by omega), if_pos (by omega), h1, Py.bind_ok]
      simp only [hpm, hqm, hpb, hqb, decide_true, pyAssert_true, Py.bind_ok, FloatPoly.combineSame, hpf', zipWith_tab]
      simp [exactly, hpm, hpb]
    obtain ⟨s, a1, a2, a3, a4, a5, a6⟩ := result hc hfp (fun τ hτ => hop ((allNear_single hε (f τ)).mono hε (Nat.zero_le _)) (h2 τ hτ))
    rw [max_eq_left hr.le, min_eq_right hr.le, if_neg hr.ne']
    refine ⟨s, a1, a2, a3, a4, a5, fun c hc x hx => ?_⟩
    have := a6 c hc x hx
    rw [hval, val_add', (h3 x).1, (h3 x).2, ← value_tab p.r f, ← size_tab p.r f, ← hpf] at this
    exact this

end C99aux

/-- **C99** Sum of two Bernstein polynomials, also of different degrees. -/
theorem C99_add (ε : ℝ) (hε : 0 ≤ ε) (hε' : ε ≤ 1 / 2) {m : ℕ} (p q : Obj ℝ) (hp : p.Valid) (hq : q.Valid) (hpb : p.basis = .bernstein)
    (hqb : q.basis = .bernstein) (hpm : p.m = m) (hqm : q.m = m) :
    ∃ s, FloatPoly.combine ε (FloatPoly.add ε) p q = .ok s ∧ s.basis = .bernstein ∧ s.r = max p.r q.r ∧ s.m = m ∧ (∃ c, Possible s.coeff c) ∧
      ∀ c, Possible s.coeff c → ∀ x ∈ unitSimplex m,
        |bernsteinValue (max p.r q.r) c x - (bernsteinValue p.r p.coeff x + bernsteinValue q.r q.coeff x)| ≤
          ((1 + ε) ^ (if p.r = q.r then 1 else getDimension (min p.r q.r) m + 11) - 1) * (bernsteinSize p.r p.coeff x + bernsteinSize q.r q.coeff x) :=
  combine_near hε hε' (FloatPoly.add ε) (· + ·) (fun h h' => h.add hε h') val_add' p q hp hq hpb hqb hpm hqm

/-- **C99** Difference of two Bernstein polynomials, also of different degrees. -/
theorem C99_sub (ε : ℝ) (hε : 0 ≤ ε) (hε' : ε ≤ 1 / 2) {m : ℕ} (p q : Obj ℝ) (hp : p.Valid) (hq : q.Valid) (hpb : p.basis = .bernstein)
    (hqb : q.basis = .bernstein) (hpm : p.m = m) (hqm : q.m = m) :
    ∃ s, FloatPoly.combine ε (FloatPoly.sub ε) p q = .ok s ∧ s.basis = .bernstein ∧ s.r = max p.r q.r ∧ s.m = m ∧ (∃ c, Possible s.coeff c) ∧
      ∀ c, Possible s.coeff c → ∀ x ∈ unitSimplex m,
        |bernsteinValue (max p.r q.r) c x - (bernsteinValue p.r p.coeff x - bernsteinValue q.r q.coeff x)| ≤
          ((1 + ε) ^ (if p.r = q.r then 1 else getDimension (min p.r q.r) m + 11) - 1) * (bernsteinSize p.r p.coeff x + bernsteinSize q.r q.coeff x) :=
  combine_near hε hε' (FloatPoly.sub ε) (· - ·) (fun h h' => h.sub hε h') val_sub' p q hp hq hpb hqb hpm hqm

/-- **C99** Multiplication with a number. -/
theorem C99_smul (ε : ℝ) (hε : 0 ≤ ε) {m : ℕ} (p : Obj ℝ) (hp : p.Valid) (hpb : p.basis = .bernstein) (hpm : p.m = m) (a : ℝ) :
    ∃ s, FloatPoly.smul ε a p = .ok s ∧ s.basis = .bernstein ∧ s.r = p.r ∧ s.m = m ∧ (∃ c, Possible s.coeff c) ∧
      ∀ c, Possible s.coeff c → ∀ x ∈ unitSimplex m,
        |bernsteinValue p.r c x - a * bernsteinValue p.r p.coeff x| ≤ ε * (|a| * bernsteinSize p.r p.coeff x) := by
  obtain ⟨f, hpf⟩ := hp.exists_tab
  have hfp : Fits p.r m := hpm ▸ hp.fits
  rw [hpm] at hpf
  have hc : FloatPoly.smul ε a p = Obj.new .bernstein (tab m p.r (fun τ => FloatPoly.mul ε {f τ} {a})) (some p.r) m := by
    unfold FloatPoly.smul
    rw [hpb, hpf, hpm]
    simp [tab, Function.comp_def]
  obtain ⟨s, a1, a2, a3, a4, a5, a6⟩ := result hc hfp (fun τ _ => (allNear_single hε (f τ)).mul hε (allNear_single hε a))
  refine ⟨s, a1, a2, a3, a4, a5, fun c hc x hx => ?_⟩
  have := a6 c hc x hx
  have e : ∀ (h : List Nat → ℝ) (b : ℝ), val .bernstein m p.r (fun τ => h τ * b) x = b * val .bernstein m p.r h x := by
    intro h b
    simp only [val, smul_eq_mul, Finset.mul_sum]
    exact Finset.sum_congr rfl fun ν _ => by ring
  rw [e, e, ← value_tab p.r f, ← size_tab p.r f, ← hpf] at this
  simpa using this

/-- **C99** Partial derivatives: the computed polynomial is near to the derivative, relative to the degree and the largest coefficient. -/
theorem C99_derivative (ε : ℝ) (hε : 0 ≤ ε) {m : ℕ} (p : Obj ℝ) (hp : p.Valid) (hpm : p.m = m) (i : Fin m) (C : ℝ) (hC : ∀ a ∈ p.coeff, |a| ≤ C) :
    ∃ s, FloatPoly.partialDerivativeBernstein ε p i = .ok s ∧ s.basis = .bernstein ∧ s.r = p.r - 1 ∧ s.m = m ∧ (∃ c, Possible s.coeff c) ∧
      ∀ c, Possible s.coeff c → ∀ x ∈ unitSimplex m, ∃ d, HasDerivAt (fun t => bernsteinValue p.r p.coeff (Function.update x i t)) d (x i) ∧
        |bernsteinValue (p.r - 1) c x - d| ≤ ((1 + ε) ^ 2 - 1) * (2 * p.r * C) := by
  obtain ⟨f, hpf⟩ := hp.exists_tab
  have hfp : Fits p.r m := hpm ▸ hp.fits
  have hi : (i : ℕ) < p.m := by rw [hpm]; exact i.2
  by_cases hr : p.r = 0
  · have hc : FloatPoly.partialDerivativeBernstein ε p i = Obj.new .bernstein (tab m 0 (fun _ => {0})) (some 0) m := by
      unfold FloatPoly.partialDerivativeBernstein
      simp only [hi, decide_true, pyAssert_true, Py.bind_ok, hr, if_true]
      rw [hpm, tab, List.map_const', length_mis_eq]
    obtain ⟨s, a1, a2, a3, a4, a5, a6⟩ := result hc (hfp.mono (Nat.zero_le _)) (fun τ _ => (allNear_single hε (0 : ℝ)))
    rw [hr]
    refine ⟨s, a1, a2, a3, a4, a5, fun c hc x hx => ⟨0, ?_, ?_⟩⟩
    · rw [hpm, hr] at hpf
      rw [hpf]
      simp only [value_tab]
      have : (fun t => val .bernstein m 0 f (Function.update x i t)) = fun _ => val .bernstein m 0 f x := by
        funext t
        simp only [val, basisFn, bernstein_ofFn]
        refine Finset.sum_congr rfl fun ν hν => ?_
        have h0 : ν = 0 := by
          have := mem_S.1 hν
          funext j
          have := Finset.single_le_sum (f := ν) (fun k _ => Nat.zero_le _) (Finset.mem_univ j)
          simp only [Pi.zero_apply]; omega
        subst h0
        simp
      rw [this]
      exact hasDerivAt_const _ _
    · have := a6 c hc x hx
      simp only [val, smul_zero, Finset.sum_const_zero, abs_zero, pow_zero, sub_self, zero_mul] at this
      simpa using this
  · obtain ⟨Y, h1, h2⟩ := partialDerivativeBernstein_near hε p f i hpf hi hr
    rw [hpm] at h1
    obtain ⟨s, a1, a2, a3, a4, a5, a6⟩ := result h1 (hfp.mono (Nat.sub_le _ _)) (fun τ _ => h2 τ)
    refine ⟨s, a1, a2, a3, a4, a5, fun c hc x hx => ⟨val .bernstein m (p.r - 1) (fun τ => (p.r : ℝ) • (f (incAt τ i) - f τ)) x, ?_, ?_⟩⟩
    · rw [hpf, hpm]
      simp only [value_tab]
      exact hasDerivAt_val_bernstein m p.r hr f x i
    · refine (a6 c hc x hx).trans (mul_le_mul_of_nonneg_left ?_ (sub_nonneg.2 (one_le_pow₀ (by linarith))))
      have h3 := val_bernstein_one (K := ℝ) m (p.r - 1) x
      unfold val at h3 ⊢
      have hb : ∀ ν : Fin m → ℕ, 0 ≤ basisFn .bernstein (p.r - 1) (List.ofFn x) (List.ofFn ν) := fun ν => Verif.Props.bernstein_nonneg _ x ν hx.1 hx.2
      have hC' : ∀ τ : List ℕ, τ.length = m → τ.sum ≤ p.r → |f τ| ≤ C := fun τ hl hs =>
        hC _ (by rw [hpf, hpm]; exact List.mem_map.2 ⟨τ, mem_mis.2 ⟨hl, hs⟩, rfl⟩)
      calc _ ≤ ∑ ν ∈ S m (p.r - 1), basisFn .bernstein (p.r - 1) (List.ofFn x) (List.ofFn ν) • (2 * p.r * C) := by
            refine Finset.sum_le_sum fun ν hν => mul_le_mul_of_nonneg_left ?_ (hb ν)
            have hs : (List.ofFn ν).sum ≤ p.r - 1 := by rw [List.sum_ofFn]; exact mem_S.1 hν
            have e1 := hC' (List.ofFn ν) (by simp) (by omega)
            have e2 := hC' (incAt (List.ofFn ν) i) (by simp [incAt]) (by rw [sum_incAt _ _ (by simp)]; omega)
            have e3 : (0 : ℝ) ≤ p.r := Nat.cast_nonneg _
            nlinarith
        _ = 2 * p.r * C := by
            simp only [smul_eq_mul, mul_one] at h3 ⊢
            rw [← Finset.sum_mul, h3, one_mul]

/-- **C99** What the methods reject, they reject whatever the precision: operands on different domains or in another basis, degrees that are too small for a
degree elevation, and directions that do not exist. -/
theorem C99_rejected (ε : ℝ) (p q : Obj ℝ) :
    (p.m ≠ q.m ∨ q.basis ≠ .bernstein → FloatPoly.mulBernstein ε p q = .error .assertion) ∧
    (p.m ≠ q.m ∨ p.basis ≠ q.basis → FloatPoly.combine ε (FloatPoly.add ε) p q = .error .assertion ∧ FloatPoly.combine ε (FloatPoly.sub ε) p q = .error .assertion) ∧
    (∀ s < p.r, FloatPoly.degreeElevateBernstein ε p s = .error .assertion) ∧
    (∀ i, p.m ≤ i → FloatPoly.partialDerivativeBernstein ε p i = .error .assertion) := by
  refine ⟨fun h => ?_, fun h => ?_, fun s hs => ?_, fun i hi => ?_⟩
  · unfold FloatPoly.mulBernstein
    by_cases h1 : p.m = q.m
    · have h2 : ¬ q.basis = .bernstein := h.resolve_left (not_not.2 h1)
      simp only [h1, h2, decide_true, decide_false, pyAssert_true, Py.bind_ok]
      rfl
    · simp only [h1, decide_false]
      rfl
  · unfold FloatPoly.combine
    by_cases h1 : p.m = q.m
    · have h2 : ¬ p.basis = q.basis := h.resolve_left (not_not.2 h1)
      simp only [h1, h2, decide_true, decide_false, pyAssert_true, Py.bind_ok]
      exact ⟨rfl, rfl⟩
    · simp only [h1, decide_false]
      exact ⟨rfl, rfl⟩
  · unfold FloatPoly.degreeElevateBernstein
    simp only [show ¬ s ≥ p.r by omega, decide_false]
    rfl
  · unfold FloatPoly.partialDerivativeBernstein
    simp only [show ¬ i < p.m by omega, decide_false]
    rfl

/-- A quadratic polynomial on the triangle meets the hypotheses, with double precision. -/
example : ∃ s, FloatPoly.mulBernstein (2 ^ (-53 : ℤ)) ⟨.bernstein, [1, -2, 3, 4, -5, 6], 2, 2⟩ ⟨.bernstein, [1, -2, 3], 1, 2⟩ = .ok s ∧
    ∀ c, Possible s.coeff c → ∀ x ∈ unitSimplex 2,
      |bernsteinValue 3 c x - bernsteinValue 2 [1, -2, 3, 4, -5, 6] x * bernsteinValue 1 [1, -2, 3] x| ≤ ((1 + 2 ^ (-53 : ℤ)) ^ (getDimension 2 2 + 8) - 1) * (6 * 3) :=
  C99_mul_uniform (m := 2) (2 ^ (-53 : ℤ)) (by positivity) (by norm_num) ⟨.bernstein, [1, -2, 3, 4, -5, 6], 2, 2⟩ ⟨.bernstein, [1, -2, 3], 1, 2⟩
    (new_ok_valid rfl (Or.inr (by norm_num))) (new_ok_valid rfl (Or.inr (by norm_num))) rfl rfl rfl (Or.inr (by norm_num)) 6 3
    (by simp; norm_num [abs_le]) (by simp; norm_num [abs_le])

example : ∃ s, FloatPoly.degreeElevateBernstein (2 ^ (-53 : ℤ)) ⟨.bernstein, [1, -2, 3], 1, 2⟩ 4 = .ok s ∧ s.r = 4 := by
  obtain ⟨s, h1, -, h2, -⟩ := C99_degree_elevate (m := 2) (2 ^ (-53 : ℤ)) (by positivity) (by norm_num) ⟨.bernstein, [1, -2, 3], 1, 2⟩
    (new_ok_valid rfl (Or.inr (by norm_num))) rfl 4 (by norm_num) (Or.inr (by norm_num))
  exact ⟨s, h1, h2⟩

example : ∃ s, FloatPoly.combine (2 ^ (-53 : ℤ)) (FloatPoly.sub (2 ^ (-53 : ℤ))) ⟨.bernstein, [1, -2, 3], 1, 2⟩ ⟨.bernstein, [1, -2, 3, 4, -5, 6], 2, 2⟩ = .ok s ∧ s.r = 2 := by
  obtain ⟨s, h1, -, h2, -⟩ := C99_sub (m := 2) (2 ^ (-53 : ℤ)) (by positivity) (by norm_num) ⟨.bernstein, [1, -2, 3], 1, 2⟩ ⟨.bernstein, [1, -2, 3, 4, -5, 6], 2, 2⟩
    (new_ok_valid rfl (Or.inr (by norm_num))) (new_ok_valid rfl (Or.inr (by norm_num))) rfl rfl rfl rfl
  exact ⟨s, h1, h2⟩

example : ∃ s, FloatPoly.partialDerivativeBernstein (2 ^ (-53 : ℤ)) ⟨.bernstein, [1, -2, 3, 4, -5, 6], 2, 2⟩ 1 = .ok s ∧ s.r = 1 := by
  obtain ⟨s, h1, -, h2, -⟩ := C99_derivative (m := 2) (2 ^ (-53 : ℤ)) (by positivity) ⟨.bernstein, [1, -2, 3, 4, -5, 6], 2, 2⟩
    (new_ok_valid rfl (Or.inr (by norm_num))) rfl 1 6 (by simp; norm_num [abs_le])
  exact ⟨s, h1, h2⟩

end Verif.Props
