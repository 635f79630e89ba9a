import Verif.Model.PolyPowScalar
import Verif.Props.PolynomialMonomial
import Verif.Props.PolynomialBernstein
import Verif.Props.PolynomialLagrange
/-!
# C21, C23, C27: powers of scalar valued polynomials with a sequence as exponent
-/

namespace Verif.Poly
open Verif

variable {K : Type} [Field K] [DecidableEq K] [CharZero K]

theorem one_rep (m : Nat) : ∃ one, monomialBasisFn K (MI.zero m) = .ok one ∧ Represents one m (fun _ : Fin m → K => (1 : K)) ∧ one.basis = .monomial ∧ one.r = 0 := by
  obtain ⟨one, h1, h2, h3, h4⟩ := monomialBasisFn_rep (K := K) (MI.zero m) m (by simp [MI.zero]) (by simp [MI.zero]; exact fits_zero m)
  refine ⟨one, h1, ?_, h3, by rw [h4]; simp [MI.zero]⟩
  have : (fun x : Fin m → K => Spec.monomial (List.ofFn x) (MI.zero m)) = fun _ => 1 := by
    funext x
    rw [show MI.zero m = List.ofFn (0 : Fin m → ℕ) by apply List.ext_getElem <;> simp [MI.zero], monomial_ofFn]
    simp
  rwa [this] at h2

/-- C21: for a scalar valued polynomial in the monomial basis the power `p**[k]` with a sequence of length 1 is the power `p**k`. -/
theorem C21_pow_sequence {m : Nat} {p : Obj K} {f : (Fin m → K) → K} (hp : Represents p m f) (hpb : p.basis = .monomial) (k : Nat) :
    (Fits (p.r * k) m → ∃ s, p.powScalar [k] = .ok s ∧ Represents s m (fun x => f x ^ k) ∧ s.basis = .monomial ∧ s.r = p.r * k) ∧
    (¬ Fits (p.r * k) m → p.powScalar [k] = .error .assertion) := by
  obtain ⟨one, h1, h2, h3, h4⟩ := one_rep (K := K) m
  obtain ⟨c, c1, c2, c3, c4⟩ := powNat_rep hp 1 (by rw [mul_one]; exact hp.fits)
  rw [show p.powNat 1 = Obj.new p.basis p.coeff (some p.r) p.m from rfl] at c1
  simp only [pow_one, mul_one] at c2 c4
  have hunf : p.powScalar [k] = (do let pw ← c.powNat k; one.mul pw) := by
    unfold Obj.powScalar
    rw [hpb]
    simp only [List.length_singleton, decide_true, pyAssert_true, Py.bind_ok, hp.dim, h1, List.foldlM_cons, List.foldlM_nil, powScalarStep]
    rw [hp.dim] at c1
    rw [c1, Py.bind_ok]
    cases c.powNat k with
    | error e => rfl
    | ok w => rw [Py.bind_ok]; cases one.mul w <;> rfl
  rw [hunf, ← c4]
  constructor
  · intro hf
    obtain ⟨pw, a1, a2, a3, a4⟩ := powNat_rep c2 k hf
    obtain ⟨s, b1, b2, b3, b4⟩ := mul_rep h2 a2 (Or.inr (by rw [h3, a3, c3, hpb])) (by rw [h4, a4, Nat.zero_add]; exact hf)
    refine ⟨s, by rw [a1, Py.bind_ok, b1], by simpa using b2, b3.trans h3, by rw [b4, a4, h4, Nat.zero_add]⟩
  · intro hf
    rw [powNat_toobig c2 k hf]
    rfl

/-- C23: in the Bernstein basis only the power with the exponent `[0]` succeeds, ... -/
theorem C23_pow_sequence {m : Nat} {p : Obj K} {f : (Fin m → K) → K} (hp : Represents p m f) (hpb : p.basis = .bernstein) (k : Nat) :
    (k = 0 → ∃ s, p.powScalar [k] = .ok s ∧ Represents s m (fun x => f x ^ k) ∧ s.basis = .bernstein ∧ s.r = 0) ∧
    (k ≠ 0 → p.powScalar [k] = .error .index) := by
  unfold Obj.powScalar
  rw [hpb]
  simp only [List.length_singleton, decide_true, pyAssert_true, Py.bind_ok]
  constructor
  · rintro rfl
    rw [if_pos (by simp [MI.norm])]
    obtain ⟨s, h1, h2, h3, h4⟩ := unit_rep (K := K) .bernstein 0 m (fits_zero m)
    refine ⟨s, ?_, by simpa using h2, h3, h4⟩
    rw [hp.dim, ← h1]
    simp [unitOf, unitPolynomialOnes, getDimension]
  · intro hk
    rw [if_neg (by simpa [MI.norm] using hk)]

omit [CharZero K] in
/-- C27: ... and in the Lagrange basis none. -/
theorem C27_pow_sequence (p : Obj K) (hpb : p.basis = .lagrange) (k : Nat) : p.powScalar [k] = .error .type := by
  unfold Obj.powScalar
  rw [hpb]
  simp only [List.length_singleton, decide_true, pyAssert_true, Py.bind_ok]

omit [CharZero K] in
/-- C21, C23, C27: a sequence of another length is rejected. -/
theorem C21_pow_sequence_length (p : Obj K) (exp : List Nat) (h : exp.length ≠ 1) : p.powScalar exp = .error .assertion := by
  unfold Obj.powScalar
  cases p.basis <;> simp only [decide_eq_false h] <;> rfl

/-- An object that meets the hypotheses. -/
example : ∃ f, Represents (⟨.bernstein, [1, 2, 3], 2, 1⟩ : Obj ℚ) 1 (f : (Fin 1 → ℚ) → ℚ) :=
  Obj.Valid.rep (p := ⟨.bernstein, [1, 2, 3], 2, 1⟩) (by rfl)

end Verif.Poly
