import Verif.Lemmas.PolyLagrangeModel
import Verif.Lemmas.PolyMonomial
import Verif.Lemmas.PolyBernstein
import Verif.Model.PolynomialOps
import Mathlib.Tactic.Abel
import Mathlib.Tactic.Ring
/-!
# The function represented by a polynomial object
-/

namespace Verif.Poly
open Verif Verif.MI Verif.Spec

variable {K V : Type} [Field K] [DecidableEq K] [CharZero K] [AddCommGroup V] [Module K V]

/-- The value at `x` of the polynomial with coefficients `c`. -/
def val (b : Basis) (m r : Nat) (c : List Nat → V) (x : Fin m → K) : V :=
  ∑ ν ∈ S m r, basisFn b r (List.ofFn x) (List.ofFn ν) • c (List.ofFn ν)

/-- The object with coefficients `c`. -/
def mkObj (b : Basis) (m r : Nat) (c : List Nat → V) : Obj V := ⟨b, tab m r c, r, m⟩

omit [DecidableEq K] [CharZero K] in
theorem bernstein_ofFn {m : Nat} (r : Nat) (x : Fin m → K) (ν : Fin m → ℕ) :
    bernstein r (List.ofFn x) (List.ofFn ν) =
      (multinomial r (List.ofFn ν) : K) * ((∏ i, x i ^ ν i) * (1 - ∑ i, x i) ^ (r - ∑ i, ν i)) := by
  rw [bernstein, monomial_ofFn, List.sum_ofFn, List.sum_ofFn, mul_assoc]

theorem call_mk (b : Basis) (m r : Nat) (c : List Nat → V) (x : Fin m → K) :
    (mkObj b m r c).call (List.ofFn x) = .ok (val b m r c x) := by
  unfold Obj.call mkObj
  simp only [List.length_ofFn, decide_true, pyAssert_true, Py.bind_ok]
  cases b with
  | monomial =>
    simp only
    rw [evalMonomial_tab]
    simp only [val, basisFn, monomial_ofFn]
  | bernstein =>
    simp only
    rw [bernsteinA_tab (K := K) (⟨.bernstein, tab m r c, r, m⟩ : Obj V) c rfl]
    simp only [Py.bind_ok]
    rw [barycentric_tab]
    simp only [val, basisFn, bernstein_ofFn, smul_smul]
    congr 1
    exact Finset.sum_congr rfl (fun ν _ => by rw [mul_comm])
  | lagrange =>
    simp only
    rw [getLagrangeBaseColumns_eq]
    simp only [Py.bind_ok]
    rw [dotColumns_tab, evalMonomial_tab]
    congr 1
    simp only [val, basisFn, Finset.smul_sum]
    rw [Finset.sum_comm]
    refine Finset.sum_congr rfl (fun ν hν => ?_)
    rw [lagCoeff_spec (by simp) (by rw [List.sum_ofFn]; exact mem_S.1 hν) x, Finset.sum_smul]
    simp only [smul_smul, smul_eq_mul]

theorem rep_mk (b : Basis) (m r : Nat) (c : List Nat → V) (h : Fits r m) : Represents (mkObj b m r c) m (val (K := K) b m r c) :=
  ⟨rfl, new_ok_valid (length_tab _ _ _) h, call_mk b m r c⟩

omit [DecidableEq K] [CharZero K] in
theorem valid_mk (b : Basis) (m r : Nat) (c : List Nat → V) : (mkObj b m r c).Valid ↔ Fits r m := by
  rw [valid_iff]; simp [mkObj, length_tab]

omit [DecidableEq K] [CharZero K] in
theorem new_mk (b : Basis) (m r : Nat) (c : List Nat → V) (h : Fits r m) : Obj.new b (tab m r c) (some r) m = .ok (mkObj b m r c) :=
  new_ok _ _ _ _ (length_tab _ _ _) h

omit [DecidableEq K] [CharZero K] in
theorem new_mk_error (b : Basis) (m r : Nat) (c : List Nat → V) (h : ¬ Fits r m) :
    Obj.new b (tab m r c) (some r) m = .error .assertion :=
  new_error _ _ _ _ (length_tab _ _ _) h

omit [DecidableEq K] [CharZero K] in
theorem Obj.Valid.eq_mk {p : Obj V} (h : p.Valid) : ∃ c, p = mkObj p.basis p.m p.r c := by
  obtain ⟨c, hc⟩ := h.exists_tab
  exact ⟨c, by cases p; simp only at hc; simp [mkObj, hc]⟩

theorem Represents.exists_mk {p : Obj V} {m : Nat} {f : (Fin m → K) → V} (h : Represents p m f) :
    ∃ c, p = mkObj p.basis m p.r c ∧ f = val p.basis m p.r c ∧ Fits p.r m := by
  obtain ⟨hm, hv, hval⟩ := h
  obtain ⟨c, hc⟩ := hv.eq_mk
  rw [hm] at hc
  refine ⟨c, hc, funext fun x => ?_, hm ▸ hv.fits⟩
  have h1 := hval x
  rw [hc] at h1
  exact (Except.ok.inj ((call_mk _ _ _ c x).symm.trans h1)).symm

theorem Represents.fits {p : Obj V} {m : Nat} {f : (Fin m → K) → V} (h : Represents p m f) : Fits p.r m := by
  obtain ⟨_, _, _, h⟩ := h.exists_mk; exact h

/-- A valid object represents some function. -/
theorem Obj.Valid.rep {p : Obj V} (h : p.Valid) : ∃ f : (Fin p.m → K) → V, Represents p p.m f := by
  obtain ⟨c, hc⟩ := h.eq_mk
  refine ⟨val p.basis p.m p.r c, rfl, h, fun x => ?_⟩
  have h1 := call_mk p.basis p.m p.r c x
  rwa [← hc] at h1

omit [DecidableEq K] [CharZero K] in
theorem basisFn_isPoly {m : Nat} (b : Basis) (r : Nat) (ν : Fin m → ℕ) (h : ν ∈ S m r) :
    IsPoly (K := K) m r (fun x => basisFn b r (List.ofFn x) (List.ofFn ν)) := by
  have hs := mem_S.1 h
  cases b with
  | monomial => simp only [basisFn, monomial_ofFn]; exact isPoly_monomial ν r hs
  | lagrange => exact lagrange_isPoly r ν hs
  | bernstein =>
    simp only [basisFn, bernstein_ofFn]
    refine IsPoly.const_mul _ ?_
    have h1 := (isPoly_monomial (K := K) ν _ le_rfl).mul ((isPoly_bary (K := K) (m := m)).pow (r - ∑ i, ν i))
    exact h1.mono (by omega)

omit [DecidableEq K] [CharZero K] in
theorem val_isPoly (b : Basis) (m r : Nat) (c : List Nat → V) : IsPoly (K := K) m r (val b m r c) :=
  isPoly_finset_sum _ _ (fun ν hν => (basisFn_isPoly b r ν hν).smul_const _)

theorem Represents.isPoly {p : Obj V} {m : Nat} {f : (Fin m → K) → V} (h : Represents p m f) : IsPoly m p.r f := by
  obtain ⟨c, _, hf, _⟩ := h.exists_mk
  exact hf ▸ val_isPoly _ _ _ _

omit [DecidableEq K] [CharZero K] in
theorem val_add (b : Basis) (m r : Nat) (c d : List Nat → V) (x : Fin m → K) :
    val b m r (fun ν => c ν + d ν) x = val b m r c x + val b m r d x := by
  simp only [val, smul_add, Finset.sum_add_distrib]

omit [DecidableEq K] [CharZero K] in
theorem val_sub (b : Basis) (m r : Nat) (c d : List Nat → V) (x : Fin m → K) :
    val b m r (fun ν => c ν - d ν) x = val b m r c x - val b m r d x := by
  simp only [val, smul_sub, Finset.sum_sub_distrib]

omit [DecidableEq K] [CharZero K] in
theorem val_smul (b : Basis) (m r : Nat) (a : K) (c : List Nat → V) (x : Fin m → K) :
    val b m r (fun ν => a • c ν) x = a • val b m r c x := by
  simp only [val, Finset.smul_sum, smul_comm a]

omit [DecidableEq K] [CharZero K] in
theorem val_smul_const (b : Basis) (m r : Nat) (a : V) (c : List Nat → K) (x : Fin m → K) :
    val b m r (fun ν => c ν • a) x = val b m r c x • a := by
  simp only [val, Finset.sum_smul, smul_assoc]

omit [DecidableEq K] [CharZero K] in
theorem val_zero (b : Basis) (m r : Nat) (x : Fin m → K) : val b m r (fun _ => (0 : V)) x = 0 := by
  simp [val]

omit [DecidableEq K] [CharZero K] in
theorem val_component {n : Nat} (b : Basis) (m r : Nat) (c : List Nat → (Fin n → K)) (i : Fin n) (x : Fin m → K) :
    val b m r (fun ν => c ν i) x = val b m r c x i := by
  simp [val, Finset.sum_apply]

omit [DecidableEq K] in
/-- In the Lagrange basis the coefficients are the values at the Lagrange points. -/
theorem val_lagrange_values {m r : Nat} {g : (Fin m → K) → V} (hg : IsPoly m r g) (c : List Nat → V)
    (hc : ∀ μ ∈ S m r, c (List.ofFn μ) = g (lpt K r μ)) (x : Fin m → K) : val .lagrange m r c x = g x := by
  rw [interpolation hg x]
  exact Finset.sum_congr rfl (fun μ hμ => by rw [hc μ hμ]; rfl)

omit [DecidableEq K] in
theorem val_bernstein_one (m r : Nat) (x : Fin m → K) : val .bernstein m r (fun _ => (1 : K)) x = 1 := by
  simp only [val, basisFn, bernstein_ofFn, smul_eq_mul, mul_one]
  exact partition_of_unity m r x

/-! ## Degree elevation -/

omit [DecidableEq K] in
theorem elevate_bernstein_val (m r s : Nat) (h : r ≤ s) (c : List Nat → V) (x : Fin m → K) :
    val .bernstein m s (fun τ => convCoeff m r (s - r) (fun ν μ => ((multinomial r ν : K) * (multinomial (s - r) μ : K) *
        (1 / (multinomial s τ : K))) • c ν) τ) x = val .bernstein m r c x := by
  obtain ⟨d, rfl⟩ := Nat.exists_eq_add_of_le h
  rw [show r + d - r = d by omega]
  simp only [val, basisFn, bernstein_ofFn]
  have h1 : ∀ τ ∈ S m (r + d),
      ((multinomial (r + d) (List.ofFn τ) : K) * ((∏ i, x i ^ τ i) * (1 - ∑ i, x i) ^ (r + d - ∑ i, τ i))) •
        convCoeff m r d (fun ν μ => ((multinomial r ν : K) * (multinomial d μ : K) *
          (1 / (multinomial (r + d) (List.ofFn τ) : K))) • c ν) (List.ofFn τ) =
      ((∏ i, x i ^ τ i) * (1 - ∑ i, x i) ^ (r + d - ∑ i, τ i)) •
        convCoeff m r d (fun ν μ => ((multinomial r ν : K) * (multinomial d μ : K)) • c ν) (List.ofFn τ) := by
    intro τ hτ
    have hne : (multinomial (r + d) (List.ofFn τ) : K) ≠ 0 := by
      exact_mod_cast (multinomial_pos (r + d) (List.ofFn τ) (by rw [List.sum_ofFn]; exact mem_S.1 hτ)).ne'
    unfold convCoeff
    simp only [Finset.smul_sum, smul_ite, smul_zero, smul_smul]
    refine Finset.sum_congr rfl (fun ν _ => Finset.sum_congr rfl (fun μ _ => ?_))
    split
    · congr 1; field_simp
    · rfl
  rw [Finset.sum_congr rfl h1, sum_convCoeff]
  have h2 := partition_of_unity (K := K) m d x
  refine Finset.sum_congr rfl (fun ν hν => ?_)
  have h3 : ((multinomial r (List.ofFn ν) : K) * ((∏ i, x i ^ ν i) * (1 - ∑ i, x i) ^ (r - ∑ i, ν i))) • c (List.ofFn ν) =
      (∑ μ ∈ S m d, ((multinomial r (List.ofFn ν) : K) * ((∏ i, x i ^ ν i) * (1 - ∑ i, x i) ^ (r - ∑ i, ν i))) *
        ((multinomial d (List.ofFn μ) : K) * ((∏ i, x i ^ μ i) * (1 - ∑ i, x i) ^ (d - ∑ i, μ i)))) • c (List.ofFn ν) := by
    rw [← Finset.mul_sum, h2, mul_one]
  rw [h3]
  simp only [Finset.sum_smul, smul_smul]
  refine Finset.sum_congr rfl (fun μ hμ => ?_)
  congr 1
  have e1 : (∏ i, x i ^ (ν + μ) i) = (∏ i, x i ^ ν i) * ∏ i, x i ^ μ i := by
    simp [pow_add, Finset.prod_mul_distrib]
  have e2 : r + d - ∑ i, (ν + μ) i = (r - ∑ i, ν i) + (d - ∑ i, μ i) := by
    have a1 := mem_S.1 hν; have a2 := mem_S.1 hμ
    simp only [Pi.add_apply, Finset.sum_add_distrib]; omega
  rw [e1, e2, pow_add]
  ring

theorem degreeElevate_mk (b : Basis) (m r s : Nat) (c : List Nat → V) (h : r ≤ s) :
    ∃ d : List Nat → V, (∀ x : Fin m → K, val b m s d x = val b m r c x) ∧
      (mkObj b m r c).degreeElevate K s = Obj.new b (tab m s d) (some s) m := by
  cases b with
  | monomial =>
    refine ⟨fun ν => if ν.sum ≤ r then c ν else 0, fun x => ?_, degreeElevateMonomial_tab (mkObj .monomial m r c) c s rfl h⟩
    simp only [val, basisFn]
    exact sum_elevate m r s h c _
  | bernstein =>
    by_cases hs : s = r
    · subst hs
      exact ⟨c, fun x => rfl, degreeElevateBernstein_same K (mkObj .bernstein m s c)⟩
    · exact ⟨_, fun x => elevate_bernstein_val m r s h c x,
        degreeElevateBernstein_tab (K := K) (mkObj .bernstein m r c) c s rfl (by simp only [mkObj]; omega)⟩
  | lagrange =>
    refine ⟨fun ν => if s = r then c ν else val .lagrange m r c (fun i => ((ν.getD i 0 : Nat) : K) / (s : K)), ?_, ?_⟩
    · intro x
      by_cases hs : s = r
      · subst hs; simp
      · refine val_lagrange_values ((val_isPoly (K := K) .lagrange m r c).mono h) _ (fun μ hμ => ?_) x
        rw [if_neg hs]
        congr 1
        funext i
        simp [lpt]
    · unfold Obj.degreeElevate degreeElevateLagrange
      rw [show decide (s ≥ (mkObj .lagrange m r c).r) = true by simpa [mkObj] using h]
      simp only [pyAssert_true, Py.bind_ok]
      by_cases hs : s = r
      · subst hs; simp [mkObj]
      · rw [if_neg (show ¬ s = (mkObj .lagrange m r c).r from hs)]
        simp only [mkObj]
        rw [fillLoop_tab m s _ (fun ν => if s = r then c ν else val .lagrange m r c (fun i => ((ν.getD i 0 : Nat) : K) / (s : K)))]
        · simp only [Py.bind_ok]
        · intro ν hl hsum
          obtain ⟨μ, rfl⟩ := eq_ofFn hl
          have hμ : μ ∈ S m s := by rw [mem_S, ← List.sum_ofFn]; exact hsum
          unfold dualLagrangeBasisFn
          rw [List.length_ofFn, lagrangePoint_ofFn K m s μ hμ]
          refine (call_mk .lagrange m r c _).trans ?_
          rw [if_neg hs]
          congr 2
          funext i
          simp [lpt]

theorem degreeElevate_rep {p : Obj V} {m : Nat} {f : (Fin m → K) → V} (h : Represents p m f) (s : Nat) (hs : p.r ≤ s)
    (hf : Fits s m) : ∃ q, p.degreeElevate K s = .ok q ∧ Represents q m f ∧ q.basis = p.basis ∧ q.r = s := by
  obtain ⟨c, hp, hfc, _⟩ := h.exists_mk
  obtain ⟨d, hd, he⟩ := degreeElevate_mk (K := K) p.basis m p.r s c hs
  refine ⟨mkObj p.basis m s d, ?_, ?_, rfl, rfl⟩
  · rw [hp]; simp only [mkObj] at he ⊢; rw [he]; exact new_mk _ _ _ _ hf
  · rw [hfc, ← funext hd]; exact rep_mk _ _ _ _ hf

theorem degreeElevate_toobig {p : Obj V} {m : Nat} {f : (Fin m → K) → V} (h : Represents p m f) (s : Nat) (hs : p.r ≤ s)
    (hf : ¬ Fits s m) : p.degreeElevate K s = .error .assertion := by
  obtain ⟨c, hp, _, _⟩ := h.exists_mk
  obtain ⟨d, _, he⟩ := degreeElevate_mk (K := K) p.basis m p.r s c hs
  rw [hp]; simp only [mkObj] at he ⊢; rw [he]; exact new_mk_error _ _ _ _ hf

omit [CharZero K] in
theorem degreeElevate_lower (p : Obj V) (s : Nat) (hs : s < p.r) : p.degreeElevate K s = .error .assertion := by
  unfold Obj.degreeElevate
  cases p.basis with
  | monomial => exact degreeElevateMonomial_error p s hs
  | bernstein => exact degreeElevateBernstein_error K p s hs
  | lagrange =>
    simp only [degreeElevateLagrange]
    rw [show decide (s ≥ p.r) = false by simpa using hs]
    rfl

/-! ## Addition and subtraction -/

omit [DecidableEq K] [CharZero K] in
theorem combineSame_mk (op : V → V → V) (b : Basis) (m r : Nat) (c d : List Nat → V) :
    combineSame op (mkObj b m r c) (mkObj b m r d) = Obj.new b (tab m r (fun ν => op (c ν) (d ν))) (some r) m := by
  unfold combineSame
  simp only [mkObj, decide_true, pyAssert_true, Py.bind_ok, if_true]
  congr 1
  unfold tab
  rw [List.zipWith_map, List.zipWith_self]

theorem combine_rep (op : V → V → V)
    (hop : ∀ (b : Basis) (m r : Nat) (c d : List Nat → V) (x : Fin m → K),
      val b m r (fun ν => op (c ν) (d ν)) x = op (val b m r c x) (val b m r d x))
    {p q : Obj V} {m : Nat} {f g : (Fin m → K) → V} (hp : Represents p m f) (hq : Represents q m g) (hb : p.basis = q.basis) :
    ∃ s, combine K op p q = .ok s ∧ Represents s m (fun x => op (f x) (g x)) ∧ s.basis = p.basis ∧ s.r = max p.r q.r := by
  have key : ∀ {p q : Obj V} {f g : (Fin m → K) → V}, Represents p m f → Represents q m g → p.basis = q.basis → p.r = q.r →
      ∃ s, combineSame op p q = .ok s ∧ Represents s m (fun x => op (f x) (g x)) ∧ s.basis = p.basis ∧ s.r = p.r := by
    intro p q f g hp hq hb hr
    obtain ⟨c, hpc, hfc, hfit⟩ := hp.exists_mk
    obtain ⟨d, hqd, hgd, _⟩ := hq.exists_mk
    rw [← hb, ← hr] at hqd hgd
    refine ⟨mkObj p.basis m p.r (fun ν => op (c ν) (d ν)), ?_, ?_, rfl, rfl⟩
    · have := combineSame_mk op p.basis m p.r c d
      rw [← hpc, ← hqd] at this
      rw [this]; exact new_mk _ _ _ _ hfit
    · have := rep_mk (K := K) p.basis m p.r (fun ν => op (c ν) (d ν)) hfit
      rw [funext (hop p.basis m p.r c d), ← hfc, ← hgd] at this
      exact this
  unfold combine
  rw [show decide (p.m = q.m) = true by simp [hp.dim, hq.dim], show decide (p.basis = q.basis) = true by simp [hb]]
  simp only [pyAssert_true, Py.bind_ok]
  by_cases h1 : p.r = q.r
  · rw [if_pos h1]
    obtain ⟨s, e1, e2, e3, e4⟩ := key hp hq hb h1
    exact ⟨s, e1, e2, e3, by rw [e4, ← h1, max_self]⟩
  · rw [if_neg h1]
    by_cases h2 : p.r > q.r
    · rw [if_pos h2]
      obtain ⟨q', a1, a2, a3, a4⟩ := degreeElevate_rep hq p.r h2.le hp.fits
      rw [a1]
      obtain ⟨s, e1, e2, e3, e4⟩ := key hp a2 (hb.trans a3.symm) a4.symm
      exact ⟨s, e1, e2, e3, by rw [e4, max_eq_left h2.le]⟩
    · rw [if_neg h2]
      obtain ⟨p', a1, a2, a3, a4⟩ := degreeElevate_rep hp q.r (by omega) hq.fits
      rw [a1]
      obtain ⟨s, e1, e2, e3, e4⟩ := key a2 hq (a3.trans hb) a4
      exact ⟨s, e1, e2, e3.trans a3, by rw [e4, a4, max_eq_right (by omega)]⟩

theorem add_rep {p q : Obj V} {m : Nat} {f g : (Fin m → K) → V} (hp : Represents p m f) (hq : Represents q m g)
    (hb : p.basis = q.basis) :
    ∃ s, p.add K q = .ok s ∧ Represents s m (fun x => f x + g x) ∧ s.basis = p.basis ∧ s.r = max p.r q.r :=
  combine_rep (· + ·) val_add hp hq hb

theorem sub_rep {p q : Obj V} {m : Nat} {f g : (Fin m → K) → V} (hp : Represents p m f) (hq : Represents q m g)
    (hb : p.basis = q.basis) :
    ∃ s, p.sub K q = .ok s ∧ Represents s m (fun x => f x - g x) ∧ s.basis = p.basis ∧ s.r = max p.r q.r :=
  combine_rep (· - ·) val_sub hp hq hb

omit [CharZero K] in
theorem combine_mismatch (op : V → V → V) (p q : Obj V) (h : p.m ≠ q.m ∨ p.basis ≠ q.basis) :
    combine K op p q = .error .assertion := by
  unfold combine
  by_cases h1 : p.m = q.m
  · have h2 : p.basis ≠ q.basis := h.resolve_left (by simp [h1])
    rw [show decide (p.m = q.m) = true by simp [h1], show decide (p.basis = q.basis) = false by simp [h2]]
    rfl
  · rw [show decide (p.m = q.m) = false by simp [h1]]; rfl

/-! ## Multiplication -/

/-- The coefficient array of the product computed by `mulLagrange`. -/
theorem lagrange_sample (m r : Nat) (F : List K → Py V) (g : (Fin m → K) → V)
    (hF : ∀ x : Fin m → K, F (List.ofFn x) = .ok (g x)) :
    fillLoop F (generateLagrangePoints K m r) 0 (zeros V (getDimension r m)) =
      .ok (tab m r (fun ν => g (fun i => ((ν.getD i 0 : Nat) : K) / (r : K)))) := by
  have h := fillLoop_eq F (fun x => g (fun i => x.getD i 0)) (generateLagrangePoints K m r) []
    (zeros V (getDimension r m)) ?_ ?_
  · simp only [List.nil_append, List.length_nil] at h
    rw [h, lagrangePoints_eq, List.map_map]
    congr 1
    refine List.map_congr_left (fun ν hν => ?_)
    simp only [Function.comp]
    congr 1
    funext i
    have hi : (i : Nat) < ν.length := by rw [(mem_mis.1 hν).1]; exact i.2
    simp [List.getD_eq_getElem?_getD, hi]
  · intro x hx
    rw [lagrangePoints_eq] at hx
    obtain ⟨ν, hν, rfl⟩ := List.mem_map.1 hx
    obtain ⟨μ, rfl⟩ := eq_ofFn (mem_mis.1 hν).1
    rw [map_lpt, hF]
    congr 2
    funext i
    simp
  · rw [length_lagrangePoints, length_mis_eq]; simp [zeros]

omit [DecidableEq K] in
theorem val_sampled {m r : Nat} {g : (Fin m → K) → V} (hg : IsPoly m r g) (x : Fin m → K) :
    val .lagrange m r (fun ν => g (fun i => ((ν.getD i 0 : Nat) : K) / (r : K))) x = g x :=
  val_lagrange_values hg _ (fun μ _ => by congr 1; funext i; simp [lpt]) x

omit [DecidableEq K] [CharZero K] in
theorem mul_monomial_val (m r s : Nat) (c d : List Nat → K) (x : Fin m → K) :
    val .monomial m (r + s) (convCoeff m r s (fun ν μ => c ν * d μ)) x = val .monomial m r c x * val .monomial m s d x := by
  simp only [val, basisFn, monomial_ofFn]
  rw [sum_convCoeff, Finset.sum_mul_sum]
  refine Finset.sum_congr rfl (fun ν _ => Finset.sum_congr rfl (fun μ _ => ?_))
  simp only [Pi.add_apply, pow_add, Finset.prod_mul_distrib, smul_eq_mul]
  ring

omit [DecidableEq K] in
theorem mul_bernstein_val (m r s : Nat) (c d : List Nat → K) (x : Fin m → K) :
    val .bernstein m (r + s) (fun τ => convCoeff m r s (fun ν μ => (multinomial r ν : K) * (multinomial s μ : K) /
        (multinomial (r + s) τ : K) * c ν * d μ) τ) x = val .bernstein m r c x * val .bernstein m s d x := by
  simp only [val, basisFn, bernstein_ofFn]
  have h1 : ∀ τ ∈ S m (r + s),
      ((multinomial (r + s) (List.ofFn τ) : K) * ((∏ i, x i ^ τ i) * (1 - ∑ i, x i) ^ (r + s - ∑ i, τ i))) •
        convCoeff m r s (fun ν μ => (multinomial r ν : K) * (multinomial s μ : K) /
          (multinomial (r + s) (List.ofFn τ) : K) * c ν * d μ) (List.ofFn τ) =
      ((∏ i, x i ^ τ i) * (1 - ∑ i, x i) ^ (r + s - ∑ i, τ i)) •
        convCoeff m r s (fun ν μ => ((multinomial r ν : K) * (multinomial s μ : K)) * c ν * d μ) (List.ofFn τ) := by
    intro τ hτ
    have hne : (multinomial (r + s) (List.ofFn τ) : K) ≠ 0 := by
      exact_mod_cast (multinomial_pos (r + s) (List.ofFn τ) (by rw [List.sum_ofFn]; exact mem_S.1 hτ)).ne'
    unfold convCoeff
    simp only [smul_eq_mul, Finset.mul_sum, mul_ite, mul_zero]
    refine Finset.sum_congr rfl (fun ν _ => Finset.sum_congr rfl (fun μ _ => ?_))
    split
    · field_simp
    · rfl
  rw [Finset.sum_congr rfl h1, sum_convCoeff, Finset.sum_mul_sum]
  refine Finset.sum_congr rfl (fun ν hν => Finset.sum_congr rfl (fun μ hμ => ?_))
  have e1 : (∏ i, x i ^ (ν + μ) i) = (∏ i, x i ^ ν i) * ∏ i, x i ^ μ i := by
    simp [pow_add, Finset.prod_mul_distrib]
  have e2 : r + s - ∑ i, (ν + μ) i = (r - ∑ i, ν i) + (s - ∑ i, μ i) := by
    have a1 := mem_S.1 hν; have a2 := mem_S.1 hμ
    simp only [Pi.add_apply, Finset.sum_add_distrib]; omega
  rw [e1, e2, pow_add]
  simp only [smul_eq_mul]
  ring

theorem mul_mk (b b' : Basis) (m r s : Nat) (c d : List Nat → K) (hb : b = .lagrange ∨ b = b') :
    ∃ e : List Nat → K, (∀ x : Fin m → K, val b m (r + s) e x = val b m r c x * val b' m s d x) ∧
      (mkObj b m r c).mul (mkObj b' m s d) = Obj.new b (tab m (r + s) e) (some (r + s)) m := by
  cases b with
  | monomial =>
    obtain rfl : b' = .monomial := (hb.resolve_left (by simp)).symm
    exact ⟨_, fun x => mul_monomial_val m r s c d x, mulMonomial_tab (mkObj .monomial m r c) (mkObj .monomial m s d) c d rfl rfl rfl rfl⟩
  | bernstein =>
    obtain rfl : b' = .bernstein := (hb.resolve_left (by simp)).symm
    exact ⟨_, fun x => mul_bernstein_val m r s c d x, mulBernstein_tab (mkObj .bernstein m r c) (mkObj .bernstein m s d) c d rfl rfl rfl rfl⟩
  | lagrange =>
    refine ⟨_, fun x => val_sampled ((val_isPoly (K := K) .lagrange m r c).mul (val_isPoly (K := K) b' m s d)) x, ?_⟩
    unfold Obj.mul mulLagrange
    simp only [mkObj, decide_true, pyAssert_true, Py.bind_ok]
    rw [lagrange_sample m (r + s) _ (fun x => val .lagrange m r c x * val b' m s d x)]
    · simp only [Py.bind_ok]
    · intro x
      have h1 := call_mk .lagrange m r c x
      have h2 := call_mk b' m s d x
      simp only [mkObj] at h1 h2
      rw [h1, h2]
      rfl

theorem mul_rep {p q : Obj K} {m : Nat} {f g : (Fin m → K) → K} (hp : Represents p m f) (hq : Represents q m g)
    (hb : p.basis = .lagrange ∨ p.basis = q.basis) (hfit : Fits (p.r + q.r) m) :
    ∃ s, p.mul q = .ok s ∧ Represents s m (fun x => f x * g x) ∧ s.basis = p.basis ∧ s.r = p.r + q.r := by
  obtain ⟨c, hpc, hfc, _⟩ := hp.exists_mk
  obtain ⟨d, hqd, hgd, _⟩ := hq.exists_mk
  obtain ⟨e, he, hm⟩ := mul_mk p.basis q.basis m p.r q.r c d hb
  rw [← hpc, ← hqd, new_mk _ _ _ _ hfit] at hm
  refine ⟨_, hm, ?_, rfl, rfl⟩
  rw [hfc, hgd, ← funext he]
  exact rep_mk _ _ _ _ hfit

theorem mul_toobig {p q : Obj K} {m : Nat} {f g : (Fin m → K) → K} (hp : Represents p m f) (hq : Represents q m g)
    (hb : p.basis = .lagrange ∨ p.basis = q.basis) (hfit : ¬ Fits (p.r + q.r) m) : p.mul q = .error .assertion := by
  obtain ⟨c, hpc, hfc, _⟩ := hp.exists_mk
  obtain ⟨d, hqd, hgd, _⟩ := hq.exists_mk
  obtain ⟨e, he, hm⟩ := mul_mk p.basis q.basis m p.r q.r c d hb
  rw [← hpc, ← hqd, new_mk_error _ _ _ _ hfit] at hm
  exact hm

omit [CharZero K] in
theorem mul_mismatch (p q : Obj K) (h : p.m ≠ q.m ∨ (p.basis ≠ .lagrange ∧ p.basis ≠ q.basis)) :
    p.mul q = .error .assertion := by
  unfold Obj.mul
  by_cases h1 : p.m = q.m
  · obtain ⟨h2, h3⟩ := h.resolve_left (by simp [h1])
    cases hb : p.basis with
    | monomial =>
      rw [hb] at h3
      simp only [mulMonomial]
      rw [show decide (p.m = q.m) = true by simp [h1], show decide (q.basis = .monomial) = false by simp [h3.symm]]
      rfl
    | bernstein =>
      rw [hb] at h3
      simp only [mulBernstein]
      rw [show decide (p.m = q.m) = true by simp [h1], show decide (q.basis = .bernstein) = false by simp [h3.symm]]
      rfl
    | lagrange => exact absurd hb h2
  · have hd : decide (p.m = q.m) = false := by simp [h1]
    cases p.basis with
    | monomial => simp only [mulMonomial]; rw [hd]; rfl
    | bernstein => simp only [mulBernstein]; rw [hd]; rfl
    | lagrange => simp only [mulLagrange]; rw [hd]; rfl

/-! ## Constants, components, unit and zero -/

theorem map_rep {W : Type} [AddCommGroup W] [Module K W] {p : Obj V} {m : Nat} {f : (Fin m → K) → V}
    (hp : Represents p m f) (φ : V → W) (g : (Fin m → K) → W)
    (hφ : ∀ (b : Basis) (r : Nat) (c : List Nat → V), f = val b m r c → ∀ x, val b m r (fun ν => φ (c ν)) x = g x) :
    ∃ s, Obj.new p.basis (p.coeff.map φ) (some p.r) p.m = .ok s ∧ Represents s m g ∧ s.basis = p.basis ∧ s.r = p.r := by
  obtain ⟨c, hpc, hfc, hfit⟩ := hp.exists_mk
  refine ⟨mkObj p.basis m p.r (fun ν => φ (c ν)), ?_, ?_, rfl, rfl⟩
  · have : p.coeff.map φ = tab m p.r (fun ν => φ (c ν)) := by
      rw [hpc]; simp [mkObj, tab]
    rw [this, hp.dim]; exact new_mk _ _ _ _ hfit
  · rw [← funext (hφ p.basis p.r c hfc)]; exact rep_mk _ _ _ _ hfit

theorem smul_rep {p : Obj V} {m : Nat} {f : (Fin m → K) → V} (hp : Represents p m f) (a : K) :
    ∃ s, p.smul a = .ok s ∧ Represents s m (fun x => a • f x) ∧ s.basis = p.basis ∧ s.r = p.r :=
  map_rep hp _ _ (fun b r c hc x => by rw [val_smul, hc])

theorem divConst_rep {p : Obj V} {m : Nat} {f : (Fin m → K) → V} (hp : Represents p m f) (a : K) :
    ∃ s, p.divConst a = .ok s ∧ Represents s m (fun x => a⁻¹ • f x) ∧ s.basis = p.basis ∧ s.r = p.r :=
  map_rep hp _ _ (fun b r c hc x => by rw [val_smul, hc])

theorem scale_rep {p : Obj K} {m : Nat} {f : (Fin m → K) → K} (hp : Represents p m f) (a : V) :
    ∃ s, Obj.new p.basis (p.coeff.map (fun t => t • a)) (some p.r) p.m = .ok s ∧ Represents s m (fun x => f x • a) ∧
      s.basis = p.basis ∧ s.r = p.r :=
  map_rep hp _ _ (fun b r c hc x => by rw [val_smul_const, hc])

theorem component_rep {n : Nat} {p : Obj (Fin n → K)} {m : Nat} {f : (Fin m → K) → (Fin n → K)} (hp : Represents p m f) (i : Fin n) :
    ∃ s, p.component i = .ok s ∧ Represents s m (fun x => f x i) ∧ s.basis = p.basis ∧ s.r = p.r :=
  map_rep hp _ _ (fun b r c hc x => by rw [val_component, hc])

theorem zero_rep (b : Basis) (V : Type) [AddCommGroup V] [Module K V] (r m : Nat) (hf : Fits r m) :
    ∃ s, zeroPolynomial b V r m = .ok s ∧ Represents s m (fun _ : Fin m → K => (0 : V)) ∧ s.basis = b ∧ s.r = r := by
  refine ⟨mkObj b m r (fun _ => 0), ?_, ?_, rfl, rfl⟩
  · unfold zeroPolynomial; rw [zeros_tab]; exact new_mk _ _ _ _ hf
  · rw [← funext (val_zero (K := K) (V := V) b m r)]; exact rep_mk _ _ _ _ hf

theorem fits_zero (m : Nat) : Fits 0 m := Or.inr (by omega)

omit [DecidableEq K] in
theorem val_lagrange_one (m r : Nat) (x : Fin m → K) : val .lagrange m r (fun _ => (1 : K)) x = 1 :=
  val_lagrange_values (g := fun _ => (1 : K)) ((isPoly_const m 1).mono (Nat.zero_le _)) _ (fun _ _ => rfl) x

omit [DecidableEq K] [CharZero K] in
theorem replicate_tab {W : Type} (m r : Nat) (a : W) : List.replicate (getDimension r m) a = tab m r (fun _ => a) := by
  unfold tab; rw [List.map_const', length_mis_eq]

omit [DecidableEq K] [CharZero K] in
theorem mis_getElem_zero (m r : Nat) : (mis m r)[0]? = some (MI.zero m) := by
  rw [← List.head?_eq_getElem?, head_mis]

theorem unit_rep (b : Basis) (r m : Nat) (hf : Fits r m) :
    ∃ s, unitOf b K r m = .ok s ∧ Represents s m (fun _ : Fin m → K => (1 : K)) ∧ s.basis = b ∧ s.r = r := by
  cases b with
  | monomial =>
    refine ⟨mkObj .monomial m r (fun ν => if ν = MI.zero m then 1 else 0), ?_, ?_, rfl, rfl⟩
    · simp only [unitOf, unitPolynomialMonomial]
      rw [zeros_tab, setE_tab _ _ (mis_getElem_zero m r)]
      exact new_mk _ _ _ _ hf
    · have : (fun _ : Fin m → K => (1 : K)) = val .monomial m r (fun ν => if ν = MI.zero m then 1 else 0) := by
        funext x
        simp only [val, basisFn, monomial_ofFn]
        rw [Finset.sum_eq_single 0]
        · have : List.ofFn (0 : Fin m → ℕ) = MI.zero m := by
            apply List.ext_getElem <;> simp [MI.zero]
          rw [if_pos this]; simp
        · intro ν _ hne
          rw [if_neg, smul_zero]
          intro h
          apply hne
          apply List.ofFn_injective
          rw [h]; apply List.ext_getElem <;> simp [MI.zero]
        · intro h; exact absurd (mem_S.2 (by simp)) h
      rw [this]; exact rep_mk _ _ _ _ hf
  | bernstein =>
    refine ⟨mkObj .bernstein m r (fun _ => 1), ?_, ?_, rfl, rfl⟩
    · simp only [unitOf, unitPolynomialOnes]; rw [replicate_tab]; exact new_mk _ _ _ _ hf
    · rw [← funext (val_bernstein_one (K := K) m r)]; exact rep_mk _ _ _ _ hf
  | lagrange =>
    refine ⟨mkObj .lagrange m r (fun _ => 1), ?_, ?_, rfl, rfl⟩
    · simp only [unitOf, unitPolynomialOnes]; rw [replicate_tab]; exact new_mk _ _ _ _ hf
    · rw [← funext (val_lagrange_one (K := K) m r)]; exact rep_mk _ _ _ _ hf

/-! ## Powers -/

theorem powNat_rep {p : Obj K} {m : Nat} {f : (Fin m → K) → K} (hp : Represents p m f) : ∀ k, Fits (p.r * k) m →
    ∃ s, p.powNat k = .ok s ∧ Represents s m (fun x => f x ^ k) ∧ s.basis = p.basis ∧ s.r = p.r * k
  | 0, _ => by
    obtain ⟨s, h1, h2, h3, h4⟩ := unit_rep (K := K) p.basis 0 m (fits_zero m)
    refine ⟨s, ?_, ?_, h3, by simpa using h4⟩
    · simp only [Obj.powNat, hp.dim]; exact h1
    · simpa using h2
  | 1, _ => ⟨p, hp.valid, by simpa using hp, rfl, by simp⟩
  | k + 2, hf => by
    have hf' : Fits (p.r * (k + 1)) m := by
      rcases hf with h | h
      · exact Or.inl h
      · refine Or.inr (le_trans (Nat.mul_le_mul le_rfl (by omega)) h)
    obtain ⟨q, h1, h2, h3, h4⟩ := powNat_rep hp (k + 1) hf'
    obtain ⟨s, e1, e2, e3, e4⟩ := mul_rep hp h2 (Or.inr h3.symm)
      (by rw [h4, show p.r + p.r * (k + 1) = p.r * (k + 2) by ring]; exact hf)
    refine ⟨s, ?_, ?_, e3, by rw [e4, h4]; ring⟩
    · simp only [Obj.powNat]; rw [h1]; exact e1
    · have : (fun x => f x * f x ^ (k + 1)) = fun x => f x ^ (k + 2) := by funext x; ring
      rw [this] at e2; exact e2

theorem powNat_toobig {p : Obj K} {m : Nat} {f : (Fin m → K) → K} (hp : Represents p m f) : ∀ k, ¬ Fits (p.r * k) m →
    p.powNat k = .error .assertion
  | 0, h => absurd (by simpa using fits_zero m) h
  | 1, h => absurd (by simpa using hp.fits) h
  | k + 2, hf => by
    simp only [Obj.powNat]
    by_cases hf' : Fits (p.r * (k + 1)) m
    · obtain ⟨q, h1, h2, h3, h4⟩ := powNat_rep hp (k + 1) hf'
      rw [h1]
      exact mul_toobig hp h2 (Or.inr h3.symm) (by rw [h4, show p.r + p.r * (k + 1) = p.r * (k + 2) by ring]; exact hf)
    · rw [powNat_toobig hp (k + 1) hf']; rfl

end Verif.Poly
