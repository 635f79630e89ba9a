import Mathlib.Tactic.FieldSimp
import Mathlib.Algebra.CharZero.Defs
import Mathlib.Data.Rat.Cast.CharZero
import Mathlib.Data.Nat.Choose.Multinomial
import Mathlib.Order.Interval.Finset.Nat
import Mathlib.Order.Interval.Finset.Basic
import Mathlib.Data.Pi.Interval
import Verif.Lemmas.PolyTab
import Verif.Lemmas.MultiCap
import Verif.Model.PolynomialOps
import Verif.Spec.PolynomialObjects
/-!
# Constructor, loops and evaluation of polynomial objects
-/

namespace Verif.Poly
open Verif Verif.MI Verif.Spec

variable {K V : Type} [Field K] [AddCommGroup V] [Module K V]

theorem getDimension_pos (r m : Nat) : 0 < getDimension r m := Nat.choose_pos (by omega)

theorem getDimension_zero (r : Nat) : getDimension r 0 = 1 := by simp [getDimension]

theorem new_ok (b : Basis) (c : List V) (r m : Nat) (hl : c.length = getDimension r m) (hf : Fits r m) :
    Obj.new b c (some r) m = .ok ⟨b, c, r, m⟩ := by
  unfold Obj.new
  have h0 : 0 < c.length := hl ▸ getDimension_pos r m
  by_cases hm : m > 0
  · have hr : r < 20 := by rcases hf with h | h <;> omega
    have := Props.C03_degree_from_dimension_partial r m hm hr
    simp [h0, hm, hl, getDimension_pos, this]
  · have : m = 0 := by omega
    subst this
    rw [getDimension_zero] at hl
    simp [hl]

theorem new_error (b : Basis) (c : List V) (r m : Nat) (hl : c.length = getDimension r m) (hf : ¬ Fits r m) :
    Obj.new b c (some r) m = .error .assertion := by
  unfold Obj.new
  have h0 : 0 < c.length := hl ▸ getDimension_pos r m
  unfold Fits at hf
  have hm : m > 0 := by omega
  have hr : 20 ≤ r := by omega
  simp [hm, hl, getDimension_pos, Props.C03_degree_from_dimension_fails r m hm hr]

theorem degree_lt {dim n d : Nat} (h : getDegreeFromDimension dim n = .ok d) : d < 20 ∧ getDimension d n = dim := by
  unfold getDegreeFromDimension at h
  have key : ∀ l : List Nat, degreeSearch dim n l = .ok d → d ∈ l ∧ getDimension d n = dim := by
    intro l
    induction l with
    | nil => intro h; simp [degreeSearch] at h
    | cons a l ih =>
      intro h
      simp only [degreeSearch] at h
      split at h
      · rename_i ha; cases h; exact ⟨by simp, ha⟩
      · obtain ⟨h1, h2⟩ := ih h; exact ⟨by simp [h1], h2⟩
  obtain ⟨h1, h2⟩ := key _ h
  exact ⟨List.mem_range.1 h1, h2⟩

theorem valid_iff (p : Obj V) : p.Valid ↔ p.coeff.length = getDimension p.r p.m ∧ Fits p.r p.m := by
  constructor
  · intro h
    unfold Obj.Valid Obj.new at h
    by_cases h0 : p.coeff.length > 0
    · by_cases hm : p.m > 0
      · simp only [h0, decide_true, pyAssert_true, Py.bind_ok, hm, ↓reduceIte] at h
        rcases hd : getDegreeFromDimension p.coeff.length p.m with e | d
        · simp [hd] at h
        · obtain ⟨h1, h2⟩ := degree_lt hd
          by_cases hr : p.r = d
          · subst hr; exact ⟨h2.symm, Or.inr (by omega)⟩
          · simp [hd, hr] at h
      · have hm0 : p.m = 0 := by omega
        simp only [h0, decide_true, pyAssert_true, Py.bind_ok, hm, ↓reduceIte] at h
        by_cases h1 : p.coeff.length = 1
        · rw [hm0, getDimension_zero]; exact ⟨h1, Or.inl rfl⟩
        · simp [h1] at h
    · simp only [h0, decide_false, pyAssert_false, Py.bind_error] at h; cases h
  · rintro ⟨h1, h2⟩
    exact new_ok _ _ _ _ h1 h2

theorem new_ok_valid {b : Basis} {c : List V} {r m : Nat} (hl : c.length = getDimension r m) (hf : Fits r m) :
    (⟨b, c, r, m⟩ : Obj V).Valid := new_ok _ _ _ _ hl hf

theorem Obj.Valid.exists_tab {p : Obj V} (h : p.Valid) : ∃ f, p.coeff = tab p.m p.r f := by
  haveI : Inhabited V := ⟨0⟩
  exact Poly.exists_tab _ _ _ ((valid_iff p).1 h).1

theorem Obj.Valid.fits {p : Obj V} (h : p.Valid) : Fits p.r p.m := ((valid_iff p).1 h).2

/-! ## Loops -/

theorem sumLoop_eq {ι : Type} (f : ι → Py (Option V)) (g : ι → V) : ∀ (l : List ι) (c : V),
    (∀ x ∈ l, (f x = .ok none ∧ g x = 0) ∨ f x = .ok (some (g x))) → sumLoop f l c = .ok (c + (l.map g).sum) := by
  intro l
  induction l with
  | nil => intro c _; simp [sumLoop]
  | cons a l ih =>
    intro c h
    simp only [sumLoop, List.map_cons, List.sum_cons]
    rcases h a (by simp) with ⟨h1, h2⟩ | h1
    · rw [h1]; simp only [Py.bind_ok]; rw [ih c (fun x hx => h x (by simp [hx])), h2, zero_add]
    · rw [h1]; simp only [Py.bind_ok]; rw [ih _ (fun x hx => h x (by simp [hx])), add_assoc]

theorem mem_zipIdx_mis {m r : Nat} {e : List Nat × Nat} (h : e ∈ (mis m r).zipIdx) :
    (mis m r)[e.2]? = some e.1 ∧ e.1.length = m ∧ e.1.sum ≤ r := by
  have h1 : (mis m r)[e.2]? = some e.1 := List.mem_zipIdx_iff_getElem?.1 h
  have := mem_mis.1 (List.mem_of_getElem? h1)
  exact ⟨h1, this⟩

theorem sum_zipIdx_map {W ι : Type} [AddCommMonoid W] (l : List ι) (g : ι → W) :
    ((l.zipIdx).map (fun e => g e.1)).sum = (l.map g).sum := by
  congr 1
  apply List.ext_getElem <;> simp

theorem evalMonomial_tab (m r : Nat) (f : List Nat → V) (x : Fin m → K) :
    evalMonomial m r (tab m r f) (List.ofFn x) = .ok (∑ ν ∈ S m r, (∏ i, x i ^ ν i) • f (List.ofFn ν)) := by
  unfold evalMonomial
  rw [generateAll_eq_mis, sumLoop_eq _ (fun e => (monomial (List.ofFn x) e.1) • f e.1)]
  · rw [sum_zipIdx_map (mis m r) (fun ν => monomial (List.ofFn x) ν • f ν), sum_mis, zero_add]
    simp only [monomial_ofFn]
  · intro e he
    obtain ⟨h1, h2, _⟩ := mem_zipIdx_mis he
    right
    rw [getE_tab f h1]
    simp only [Py.bind_ok]
    rw [power_eq _ _ (by simp [h2])]
    rfl

/-! ## Multinomial coefficients -/

theorem multinomGeneral_ok (r : Nat) (ν : List Nat) (h : ν.sum ≤ r) :
    multinomGeneral r ν = .ok ((r.factorial : ℚ) / ((ν.map Nat.factorial).prod * (r - ν.sum).factorial)) := by
  unfold multinomGeneral
  rw [generalToExactNorm_ok ν r h]
  simp only [Py.bind_ok, multinom, Py.pure_eq]
  congr 2
  · unfold norm; simp; congr 1; omega
  · rw [factorial_eq_prod]; simp [mul_comm]

theorem factorials_dvd (r : Nat) (ν : List Nat) (h : ν.sum ≤ r) :
    (ν.map Nat.factorial).prod * (r - ν.sum).factorial ∣ r.factorial := by
  have key : ∀ ν : List Nat, (ν.map Nat.factorial).prod ∣ ν.sum.factorial := by
    intro ν
    induction ν with
    | nil => simp
    | cons a ν ih =>
      simp only [List.map_cons, List.prod_cons, List.sum_cons]
      exact (Nat.mul_dvd_mul_left _ ih).trans (Nat.factorial_mul_factorial_dvd_factorial_add _ _)
  calc _ ∣ ν.sum.factorial * (r - ν.sum).factorial := Nat.mul_dvd_mul_right (key ν) _
    _ ∣ r.factorial := by
      have := Nat.factorial_mul_factorial_dvd_factorial_add ν.sum (r - ν.sum)
      rwa [Nat.add_sub_cancel' h] at this

theorem factorials_pos (r : Nat) (ν : List Nat) : 0 < (ν.map Nat.factorial).prod * (r - ν.sum).factorial :=
  Nat.mul_pos (by rw [← factorial_eq_prod]; exact factorial_pos ν) (Nat.factorial_pos _)

theorem multinomial_mul (r : Nat) (ν : List Nat) (h : ν.sum ≤ r) :
    multinomial r ν * ((ν.map Nat.factorial).prod * (r - ν.sum).factorial) = r.factorial :=
  Nat.div_mul_cancel (factorials_dvd r ν h)

theorem multinomGeneral_eq (r : Nat) (ν : List Nat) (h : ν.sum ≤ r) :
    multinomGeneral r ν = .ok (multinomial r ν : ℚ) := by
  rw [multinomGeneral_ok r ν h]
  congr 1
  rw [div_eq_iff (by exact_mod_cast (factorials_pos r ν).ne')]
  exact_mod_cast (multinomial_mul r ν h).symm

theorem multinomial_pos (r : Nat) (ν : List Nat) (h : ν.sum ≤ r) : 0 < multinomial r ν := by
  rcases Nat.eq_zero_or_pos (multinomial r ν) with h0 | h0
  · have := multinomial_mul r ν h
    rw [h0] at this
    have := Nat.factorial_pos r
    omega
  · exact h0

theorem multinomial_one (r i : Nat) (h : i ≤ r) : multinomial r [i] = r.choose i := by
  unfold multinomial
  simp [Nat.choose_eq_factorial_div_factorial h]

theorem mis_one (r : Nat) : mis 1 r = (List.range (r + 1)).map (fun i => [i]) := by
  simp [mis]

theorem tab_one {W : Type} (r : Nat) (f : List Nat → W) : tab 1 r f = (List.range (r + 1)).map (fun i => f [i]) := by
  simp [tab, mis_one]

theorem getDimension_one (r : Nat) : getDimension r 1 = r + 1 := by simp [getDimension]

/-- The array `_a` of a Bernstein polynomial. -/
theorem bernsteinA_tab [CharZero K] (p : Obj V) (f : List Nat → V) (h : p.coeff = tab p.m p.r f) :
    bernsteinA K p = .ok (tab p.m p.r (fun ν => (multinomial p.r ν : K) • f ν)) := by
  unfold bernsteinA
  have hlen : p.coeff.length = getDimension p.r p.m := by rw [h]; simp
  by_cases hm : p.m = 1
  · rw [if_pos hm, hlen, hm, getDimension_one]
    rw [hm] at h
    have := fillLoop_eq (fun i => do
      let c ← getE p.coeff i
      return ((p.r.choose i : Nat) : K) • c) (fun i => (multinomial p.r [i] : K) • f [i])
      (List.range (p.r + 1)) [] (zeros V (p.r + 1)) ?_ (by simp [zeros])
    · simpa [tab_one] using this
    · intro i hi
      have hi' : i < p.r + 1 := List.mem_range.1 hi
      have : getE p.coeff i = .ok (f [i]) := by
        rw [h]; exact getE_tab f (by simp [mis_one, hi'])
      rw [this, multinomial_one p.r i (by omega)]; rfl
  · rw [if_neg hm, hlen, generateAll_eq_mis]
    have := fillLoop_eq (fun (e : List Nat × Nat) => do
      let c ← getE p.coeff e.2
      let b ← multinomGeneral p.r e.1
      return (b : K) • c) (fun e => (multinomial p.r e.1 : K) • f e.1)
      (mis p.m p.r).zipIdx [] (zeros V (getDimension p.r p.m)) ?_ (by simp [zeros, length_mis_eq])
    · rw [List.nil_append, List.nil_append] at this
      rw [List.length_nil] at this
      rw [this]
      congr 1
      apply List.ext_getElem <;> simp [tab]
    · intro e he
      obtain ⟨h1, h2, h3⟩ := mem_zipIdx_mis he
      rw [h, getE_tab f h1, multinomGeneral_eq _ _ h3]
      simp

theorem barycentric_tab (m r : Nat) (f : List Nat → V) (x : Fin m → K) :
    barycentricPolynomialGeneral r (tab m r f) (List.ofFn x) =
      .ok (∑ ν ∈ S m r, ((∏ i, x i ^ ν i) * (1 - ∑ i, x i) ^ (r - ∑ i, ν i)) • f (List.ofFn ν)) := by
  have hsum : ∑ ν ∈ S m r, ((∏ i, x i ^ ν i) * (1 - ∑ i, x i) ^ (r - ∑ i, ν i)) • f (List.ofFn ν) =
      ((mis m r).map (fun ν => (monomial (List.ofFn x) ν * (1 - (List.ofFn x).sum) ^ (r - ν.sum)) • f ν)).sum := by
    rw [sum_mis]; simp only [monomial_ofFn, List.sum_ofFn]
  rw [hsum]
  unfold barycentricPolynomialGeneral
  by_cases hm : m = 1
  · subst hm
    have hx : List.ofFn x = [x 0] := by simp
    rw [if_pos (by simp), hx]
    simp only [getE, List.getElem?_cons_zero, Py.bind_ok, Py.pure_eq]
    rw [sumLoop_eq _ (fun e : V × Nat => (x 0 ^ e.2 * (1 - x 0) ^ (r - e.2)) • e.1) _ _ (fun e _ => Or.inr rfl), zero_add, tab_one,
      mis_one]
    congr 2
    apply List.ext_getElem <;> simp [monomial]
  · rw [if_neg (by simpa using hm), generateAll_eq_mis, List.length_ofFn, sumLoop_eq _
      (fun e => (monomial (List.ofFn x) e.1 * (1 - (List.ofFn x).sum) ^ (r - e.1.sum)) • f e.1)]
    · rw [sum_zipIdx_map (mis m r) (fun ν => (monomial (List.ofFn x) ν * (1 - (List.ofFn x).sum) ^ (r - ν.sum)) • f ν),
        zero_add]
    · intro e he
      obtain ⟨h1, h2, _⟩ := mem_zipIdx_mis he
      right
      rw [getE_tab f h1]
      simp only [Py.bind_ok]
      rw [power_eq _ _ (by simp [h2])]
      rfl

end Verif.Poly
