import Verif.Lemmas.PolyDeriv
/-!
# C21, C22: polynomials in the monomial basis

`Represents p m f` (`Verif/Spec/PolynomialObjects.lean`): `p` is an object the constructor accepts, its domain has dimension
`m` and calling it at `x` returns `f x`. `Fits r m`: the degrees the constructor accepts (`r ≤ 19` or `m = 0`).
-/

namespace Verif.Props
open Verif Verif.Poly

variable {K V : Type} [Field K] [DecidableEq K] [CharZero K] [AddCommGroup V] [Module K V]

/-- C21, what an object evaluates to: every object the constructor accepts represents the function
`x ↦ Σ coeff[i] b_i(x)` with the monomial basis polynomials in the order of `generate_all`. -/
theorem C21_value (p : Obj V) (hp : p.Valid) (hb : p.basis = .monomial) :
    Represents p p.m (fun x : Fin p.m → K => Spec.linComb (Spec.monomial (List.ofFn x)) (MI.generateAll p.m p.r) p.coeff) := by
  refine ⟨rfl, hp, fun x => ?_⟩
  obtain ⟨c, hc⟩ := hp.exists_tab
  rw [MI.generateAll_eq_mis, hc, linComb_tab]
  have h1 := call_mk p.basis p.m p.r c x
  have h2 : mkObj p.basis p.m p.r c = p := by cases p; simp only at hc; simp [mkObj, hc]
  rw [h2] at h1
  rw [h1]
  simp only [val, hb]
  rfl

/-- C21: addition is pointwise, also for operands of different degree. -/
theorem C21_add {m : Nat} {p q : Obj V} {f g : (Fin m → K) → V} (hp : Represents p m f) (hq : Represents q m g)
    (hpb : p.basis = .monomial) (hqb : q.basis = .monomial) :
    ∃ s, p.add K q = .ok s ∧ Represents s m (fun x => f x + g x) ∧ s.basis = .monomial ∧ s.r = max p.r q.r := by
  obtain ⟨s, h1, h2, h3, h4⟩ := add_rep hp hq (hpb.trans hqb.symm)
  exact ⟨s, h1, h2, h3.trans hpb, h4⟩

/-- C21: subtraction is pointwise, also for operands of different degree. -/
theorem C21_sub {m : Nat} {p q : Obj V} {f g : (Fin m → K) → V} (hp : Represents p m f) (hq : Represents q m g)
    (hpb : p.basis = .monomial) (hqb : q.basis = .monomial) :
    ∃ s, p.sub K q = .ok s ∧ Represents s m (fun x => f x - g x) ∧ s.basis = .monomial ∧ s.r = max p.r q.r := by
  obtain ⟨s, h1, h2, h3, h4⟩ := sub_rep hp hq (hpb.trans hqb.symm)
  exact ⟨s, h1, h2, h3.trans hpb, h4⟩

/-- C21: adding or subtracting polynomials with different domain dimension or of different bases raises AssertionError. -/
theorem C21_add_mismatch (p q : Obj V) (hpb : p.basis = .monomial) (h : p.m ≠ q.m ∨ q.basis ≠ .monomial) :
    p.add K q = .error .assertion ∧ p.sub K q = .error .assertion :=
  have h' : p.m ≠ q.m ∨ p.basis ≠ q.basis := h.imp_right (fun h => by rw [hpb]; exact h.symm)
  ⟨combine_mismatch _ p q h', combine_mismatch _ p q h'⟩

/-- C21: multiplication is pointwise. -/
theorem C21_mul {m : Nat} {p q : Obj K} {f g : (Fin m → K) → K} (hp : Represents p m f) (hq : Represents q m g)
    (hpb : p.basis = .monomial) (hqb : q.basis = .monomial) (hfit : Fits (p.r + q.r) m) :
    ∃ s, p.mul q = .ok s ∧ Represents s m (fun x => f x * g x) ∧ s.basis = .monomial ∧ s.r = p.r + q.r := by
  obtain ⟨s, h1, h2, h3, h4⟩ := mul_rep hp hq (Or.inr (hpb.trans hqb.symm)) hfit
  exact ⟨s, h1, h2, h3.trans hpb, h4⟩

/-- C21: a product of degree 20 or more is rejected with AssertionError (no wrong polynomial is returned). -/
theorem C21_mul_rejects {m : Nat} {p q : Obj K} {f g : (Fin m → K) → K} (hp : Represents p m f) (hq : Represents q m g)
    (hpb : p.basis = .monomial) (hqb : q.basis = .monomial) (hfit : ¬ Fits (p.r + q.r) m) : p.mul q = .error .assertion :=
  mul_toobig hp hq (Or.inr (hpb.trans hqb.symm)) hfit

/-- C21: multiplying polynomials with different domain dimension or of different bases raises AssertionError. -/
theorem C21_mul_mismatch (p q : Obj K) (hpb : p.basis = .monomial) (h : p.m ≠ q.m ∨ q.basis ≠ .monomial) :
    p.mul q = .error .assertion :=
  mul_mismatch p q (h.imp_right (fun h => ⟨by rw [hpb]; simp, by rw [hpb]; exact h.symm⟩))

/-- C21: multiplication with and division by a scalar, and multiplication of a scalar valued polynomial with a vector. -/
theorem C21_constants {m n : Nat} {p : Obj V} {f : (Fin m → K) → V} (hp : Represents p m f) (hpb : p.basis = .monomial)
    {q : Obj K} {g : (Fin m → K) → K} (hq : Represents q m g) (hqb : q.basis = .monomial) (c : K) (v : Fin n → K) :
    (∃ s, p.smul c = .ok s ∧ Represents s m (fun x => c • f x) ∧ s.basis = .monomial ∧ s.r = p.r) ∧
    (c ≠ 0 → ∃ s, p.divConst c = .ok s ∧ Represents s m (fun x => (1 / c) • f x) ∧ s.basis = .monomial ∧ s.r = p.r) ∧
    (∃ s, q.outer v = .ok s ∧ Represents s m (fun x i => g x * v i) ∧ s.basis = .monomial ∧ s.r = q.r) := by
  refine ⟨?_, fun _ => ?_, ?_⟩
  · obtain ⟨s, h1, h2, h3, h4⟩ := smul_rep hp c
    exact ⟨s, h1, h2, h3.trans hpb, h4⟩
  · obtain ⟨s, h1, h2, h3, h4⟩ := divConst_rep hp c
    exact ⟨s, h1, by simpa only [one_div] using h2, h3.trans hpb, h4⟩
  · obtain ⟨s, h1, h2, h3, h4⟩ := scale_rep hq v
    exact ⟨s, h1, h2, h3.trans hqb, h4⟩

/-- C21: component access of a vector valued polynomial. -/
theorem C21_component {m n : Nat} {p : Obj (Fin n → K)} {f : (Fin m → K) → (Fin n → K)} (hp : Represents p m f)
    (hpb : p.basis = .monomial) (i : Fin n) :
    ∃ s, p.component i = .ok s ∧ Represents s m (fun x => f x i) ∧ s.basis = .monomial ∧ s.r = p.r := by
  obtain ⟨s, h1, h2, h3, h4⟩ := component_rep hp i
  exact ⟨s, h1, h2, h3.trans hpb, h4⟩

/-- C21: powers with a natural exponent are pointwise; results of degree 20 or more are rejected. -/
theorem C21_pow {m : Nat} {p : Obj K} {f : (Fin m → K) → K} (hp : Represents p m f) (hpb : p.basis = .monomial) (k : Nat) :
    (Fits (p.r * k) m → ∃ s, p.powNat k = .ok s ∧ Represents s m (fun x => f x ^ k) ∧ s.basis = .monomial ∧ s.r = p.r * k) ∧
    (¬ Fits (p.r * k) m → p.powNat k = .error .assertion) := by
  refine ⟨fun h => ?_, powNat_toobig hp k⟩
  obtain ⟨s, h1, h2, h3, h4⟩ := powNat_rep hp k h
  exact ⟨s, h1, h2, h3.trans hpb, h4⟩

/-- C21: powers of a vector valued polynomial with a multi-index exponent; results of degree 20 or more and exponents of the
wrong length are rejected. -/
theorem C21_pow_multi {m n : Nat} {p : Obj (Fin n → K)} {f : (Fin m → K) → (Fin n → K)} (hp : Represents p m f)
    (hpb : p.basis = .monomial) (ε : Fin n → ℕ) (exp : List Nat) :
    (Fits (p.r * ∑ i, ε i) m → ∃ s, p.powMulti (List.ofFn ε) = .ok s ∧ Represents s m (fun x => ∏ i, f x i ^ ε i) ∧
      s.basis = .monomial ∧ s.r = p.r * ∑ i, ε i) ∧
    (¬ Fits (p.r * ∑ i, ε i) m → p.powMulti (List.ofFn ε) = .error .assertion) ∧
    (exp.length ≠ n → p.powMulti exp = .error .assertion) := by
  refine ⟨fun h => ?_, (powMulti_rep hp ε).2, powMulti_length p exp⟩
  obtain ⟨s, h1, h2, h3, h4⟩ := (powMulti_rep hp ε).1 h
  exact ⟨s, h1, h2, h3.trans hpb, h4⟩

/-- C21: the zero and unit polynomials of every accepted degree are the constant functions zero and one. -/
theorem C21_zero_unit (r m : Nat) (h : Fits r m) :
    (∃ s, zeroPolynomial .monomial V r m = .ok s ∧ Represents s m (fun _ : Fin m → K => (0 : V)) ∧ s.basis = .monomial ∧ s.r = r) ∧
    (∃ s, unitOf .monomial K r m = .ok s ∧ Represents s m (fun _ : Fin m → K => (1 : K)) ∧ s.basis = .monomial ∧ s.r = r) :=
  ⟨zero_rep .monomial V r m h, unit_rep .monomial r m h⟩

/-- An object that meets the hypotheses: a polynomial of degree 2 in two variables. -/
example : ∃ f, Represents (⟨.monomial, [1, 2, 3, 4, 5, 6], 2, 2⟩ : Obj ℚ) 2 (f : (Fin 2 → ℚ) → ℚ) :=
  Obj.Valid.rep (p := ⟨.monomial, [1, 2, 3, 4, 5, 6], 2, 2⟩) (by rfl)
example : Fits (2 + 2) 2 := by unfold Fits; omega


/-- C22: `degree_elevate(s)` does not change the function; a lower degree and degrees of 20 or more are rejected. -/
theorem C22_degree_elevate {m : Nat} {p : Obj V} {f : (Fin m → K) → V} (hp : Represents p m f) (hpb : p.basis = .monomial) (s : Nat) :
    (p.r ≤ s → Fits s m → ∃ q, p.degreeElevate K s = .ok q ∧ Represents q m f ∧ q.basis = .monomial ∧ q.r = s) ∧
    (p.r ≤ s → ¬ Fits s m → p.degreeElevate K s = .error .assertion) ∧
    (s < p.r → p.degreeElevate K s = .error .assertion) := by
  refine ⟨fun h1 h2 => ?_, degreeElevate_toobig hp s, degreeElevate_lower p s⟩
  obtain ⟨q, a1, a2, a3, a4⟩ := degreeElevate_rep hp s h1 h2
  exact ⟨q, a1, a2, a3.trans hpb, a4⟩

/-- C22: `partial_derivative(i)` represents the derivative in the `i`:th coordinate direction at every point; an index outside
the domain dimension is rejected. -/
theorem C22_derivative {K V : Type} [NontriviallyNormedField K] [DecidableEq K] [CharZero K] [NormedAddCommGroup V]
    [NormedSpace K V] {m : Nat} {p : Obj V} {f : (Fin m → K) → V} (hp : Represents p m f) (hpb : p.basis = .monomial) :
    (∀ i : Fin m, ∃ s f', p.partialDerivative K i = .ok s ∧ Represents s m f' ∧ s.basis = .monomial ∧ s.r = p.r - 1 ∧
      ∀ x, HasDerivAt (fun t => f (Function.update x i t)) (f' x) (x i)) ∧
    (∀ i : Nat, m ≤ i → p.partialDerivative K i = .error .assertion) := by
  refine ⟨fun i => ?_, fun i hi => partialDerivative_range p i (by rw [hp.dim]; exact hi)⟩
  obtain ⟨s, f', h1, h2, h3, h4, h5⟩ := partialDerivative_rep hp i
  exact ⟨s, f', h1, h2, h4.trans hpb, h5, h3⟩

/-- C22: `to_monomial_basis()` represents the same function, with the same degree, in the monomial basis. -/
theorem C22_to_monomial {m : Nat} {p : Obj V} {f : (Fin m → K) → V} (hp : Represents p m f) (hpb : p.basis = .monomial) :
    ∃ s, p.toMonomialBasis K = .ok s ∧ Represents s m f ∧ s.basis = .monomial ∧ s.r = p.r :=
  have _ := hpb
  toMonomialBasis_rep hp

end Verif.Props
