import Verif.Lemmas.PolyDeriv
/-!
# C23 - C25: polynomials in the Bernstein basis

`Represents p m f` (`Verif/Spec/PolynomialObjects.lean`): `p` is an object the constructor accepts, its domain has dimension
`m` and calling it at `x` returns `f x`. `Fits r m`: the degrees the constructor accepts (`r ≤ 19` or `m = 0`).
-/

namespace Verif.Props
open Verif Verif.Poly

variable {K V : Type} [Field K] [DecidableEq K] [CharZero K] [AddCommGroup V] [Module K V]

/-- C23, what an object evaluates to: every object the constructor accepts represents the function
`x ↦ Σ coeff[i] b_i(x)` with the Bernstein basis polynomials in the order of `generate_all`. -/
theorem C23_value (p : Obj V) (hp : p.Valid) (hb : p.basis = .bernstein) :
    Represents p p.m (fun x : Fin p.m → K => Spec.linComb (Spec.bernstein p.r (List.ofFn x)) (MI.generateAll p.m p.r) p.coeff) := by
  refine ⟨rfl, hp, fun x => ?_⟩
  obtain ⟨c, hc⟩ := hp.exists_tab
  rw [MI.generateAll_eq_mis, hc, linComb_tab]
  have h1 := call_mk p.basis p.m p.r c x
  have h2 : mkObj p.basis p.m p.r c = p := by cases p; simp only at hc; simp [mkObj, hc]
  rw [h2] at h1
  rw [h1]
  simp only [val, hb]
  rfl

/-- C23: addition is pointwise, also for operands of different degree. -/
theorem C23_add {m : Nat} {p q : Obj V} {f g : (Fin m → K) → V} (hp : Represents p m f) (hq : Represents q m g)
    (hpb : p.basis = .bernstein) (hqb : q.basis = .bernstein) :
    ∃ s, p.add K q = .ok s ∧ Represents s m (fun x => f x + g x) ∧ s.basis = .bernstein ∧ s.r = max p.r q.r := by
  obtain ⟨s, h1, h2, h3, h4⟩ := add_rep hp hq (hpb.trans hqb.symm)
  exact ⟨s, h1, h2, h3.trans hpb, h4⟩

/-- C23: subtraction is pointwise, also for operands of different degree. -/
theorem C23_sub {m : Nat} {p q : Obj V} {f g : (Fin m → K) → V} (hp : Represents p m f) (hq : Represents q m g)
    (hpb : p.basis = .bernstein) (hqb : q.basis = .bernstein) :
    ∃ s, p.sub K q = .ok s ∧ Represents s m (fun x => f x - g x) ∧ s.basis = .bernstein ∧ s.r = max p.r q.r := by
  obtain ⟨s, h1, h2, h3, h4⟩ := sub_rep hp hq (hpb.trans hqb.symm)
  exact ⟨s, h1, h2, h3.trans hpb, h4⟩

/-- C23: adding or subtracting polynomials with different domain dimension or of different bases raises AssertionError. -/
theorem C23_add_mismatch (p q : Obj V) (hpb : p.basis = .bernstein) (h : p.m ≠ q.m ∨ q.basis ≠ .bernstein) :
    p.add K q = .error .assertion ∧ p.sub K q = .error .assertion :=
  have h' : p.m ≠ q.m ∨ p.basis ≠ q.basis := h.imp_right (fun h => by rw [hpb]; exact h.symm)
  ⟨combine_mismatch _ p q h', combine_mismatch _ p q h'⟩

/-- C23: multiplication is pointwise. -/
theorem C23_mul {m : Nat} {p q : Obj K} {f g : (Fin m → K) → K} (hp : Represents p m f) (hq : Represents q m g)
    (hpb : p.basis = .bernstein) (hqb : q.basis = .bernstein) (hfit : Fits (p.r + q.r) m) :
    ∃ s, p.mul q = .ok s ∧ Represents s m (fun x => f x * g x) ∧ s.basis = .bernstein ∧ s.r = p.r + q.r := by
  obtain ⟨s, h1, h2, h3, h4⟩ := mul_rep hp hq (Or.inr (hpb.trans hqb.symm)) hfit
  exact ⟨s, h1, h2, h3.trans hpb, h4⟩

/-- C23: a product of degree 20 or more is rejected with AssertionError (no wrong polynomial is returned). -/
theorem C23_mul_rejects {m : Nat} {p q : Obj K} {f g : (Fin m → K) → K} (hp : Represents p m f) (hq : Represents q m g)
    (hpb : p.basis = .bernstein) (hqb : q.basis = .bernstein) (hfit : ¬ Fits (p.r + q.r) m) : p.mul q = .error .assertion :=
  mul_toobig hp hq (Or.inr (hpb.trans hqb.symm)) hfit

/-- C23: multiplying polynomials with different domain dimension or of different bases raises AssertionError. -/
theorem C23_mul_mismatch (p q : Obj K) (hpb : p.basis = .bernstein) (h : p.m ≠ q.m ∨ q.basis ≠ .bernstein) :
    p.mul q = .error .assertion :=
  mul_mismatch p q (h.imp_right (fun h => ⟨by rw [hpb]; simp, by rw [hpb]; exact h.symm⟩))

/-- C23: multiplication with and division by a scalar, and multiplication of a scalar valued polynomial with a vector. -/
theorem C23_constants {m n : Nat} {p : Obj V} {f : (Fin m → K) → V} (hp : Represents p m f) (hpb : p.basis = .bernstein)
    {q : Obj K} {g : (Fin m → K) → K} (hq : Represents q m g) (hqb : q.basis = .bernstein) (c : K) (v : Fin n → K) :
    (∃ s, p.smul c = .ok s ∧ Represents s m (fun x => c • f x) ∧ s.basis = .bernstein ∧ s.r = p.r) ∧
    (c ≠ 0 → ∃ s, p.divConst c = .ok s ∧ Represents s m (fun x => (1 / c) • f x) ∧ s.basis = .bernstein ∧ s.r = p.r) ∧
    (∃ s, q.outer v = .ok s ∧ Represents s m (fun x i => g x * v i) ∧ s.basis = .bernstein ∧ s.r = q.r) := by
  refine ⟨?_, fun _ => ?_, ?_⟩
  · obtain ⟨s, h1, h2, h3, h4⟩ := smul_rep hp c
    exact ⟨s, h1, h2, h3.trans hpb, h4⟩
  · obtain ⟨s, h1, h2, h3, h4⟩ := divConst_rep hp c
    exact ⟨s, h1, by simpa only [one_div] using h2, h3.trans hpb, h4⟩
  · obtain ⟨s, h1, h2, h3, h4⟩ := scale_rep hq v
    exact ⟨s, h1, h2, h3.trans hqb, h4⟩

/-- C23: component access of a vector valued polynomial. -/
theorem C23_component {m n : Nat} {p : Obj (Fin n → K)} {f : (Fin m → K) → (Fin n → K)} (hp : Represents p m f)
    (hpb : p.basis = .bernstein) (i : Fin n) :
    ∃ s, p.component i = .ok s ∧ Represents s m (fun x => f x i) ∧ s.basis = .bernstein ∧ s.r = p.r := by
  obtain ⟨s, h1, h2, h3, h4⟩ := component_rep hp i
  exact ⟨s, h1, h2, h3.trans hpb, h4⟩

/-- C23: powers with a natural exponent are pointwise; results of degree 20 or more are rejected. -/
theorem C23_pow {m : Nat} {p : Obj K} {f : (Fin m → K) → K} (hp : Represents p m f) (hpb : p.basis = .bernstein) (k : Nat) :
    (Fits (p.r * k) m → ∃ s, p.powNat k = .ok s ∧ Represents s m (fun x => f x ^ k) ∧ s.basis = .bernstein ∧ s.r = p.r * k) ∧
    (¬ Fits (p.r * k) m → p.powNat k = .error .assertion) := by
  refine ⟨fun h => ?_, powNat_toobig hp k⟩
  obtain ⟨s, h1, h2, h3, h4⟩ := powNat_rep hp k h
  exact ⟨s, h1, h2, h3.trans hpb, h4⟩

/-- C23: powers of a vector valued polynomial with a multi-index exponent; results of degree 20 or more and exponents of the
wrong length are rejected. -/
theorem C23_pow_multi {m n : Nat} {p : Obj (Fin n → K)} {f : (Fin m → K) → (Fin n → K)} (hp : Represents p m f)
    (hpb : p.basis = .bernstein) (ε : Fin n → ℕ) (exp : List Nat) :
    (Fits (p.r * ∑ i, ε i) m → ∃ s, p.powMulti (List.ofFn ε) = .ok s ∧ Represents s m (fun x => ∏ i, f x i ^ ε i) ∧
      s.basis = .bernstein ∧ s.r = p.r * ∑ i, ε i) ∧
    (¬ Fits (p.r * ∑ i, ε i) m → p.powMulti (List.ofFn ε) = .error .assertion) ∧
    (exp.length ≠ n → p.powMulti exp = .error .assertion) := by
  refine ⟨fun h => ?_, (powMulti_rep hp ε).2, powMulti_length p exp⟩
  obtain ⟨s, h1, h2, h3, h4⟩ := (powMulti_rep hp ε).1 h
  exact ⟨s, h1, h2, h3.trans hpb, h4⟩

/-- C23: the zero and unit polynomials of every accepted degree are the constant functions zero and one. -/
theorem C23_zero_unit (r m : Nat) (h : Fits r m) :
    (∃ s, zeroPolynomial .bernstein V r m = .ok s ∧ Represents s m (fun _ : Fin m → K => (0 : V)) ∧ s.basis = .bernstein ∧ s.r = r) ∧
    (∃ s, unitOf .bernstein K r m = .ok s ∧ Represents s m (fun _ : Fin m → K => (1 : K)) ∧ s.basis = .bernstein ∧ s.r = r) :=
  ⟨zero_rep .bernstein V r m h, unit_rep .bernstein r m h⟩

/-- An object that meets the hypotheses: a polynomial of degree 2 in two variables. -/
example : ∃ f, Represents (⟨.bernstein, [1, 2, 3, 4, 5, 6], 2, 2⟩ : Obj ℚ) 2 (f : (Fin 2 → ℚ) → ℚ) :=
  Obj.Valid.rep (p := ⟨.bernstein, [1, 2, 3, 4, 5, 6], 2, 2⟩) (by rfl)
example : Fits (2 + 2) 2 := by unfold Fits; omega


/-- C24: `degree_elevate(s)` does not change the function; a lower degree and degrees of 20 or more are rejected. -/
theorem C24_degree_elevate {m : Nat} {p : Obj V} {f : (Fin m → K) → V} (hp : Represents p m f) (hpb : p.basis = .bernstein) (s : Nat) :
    (p.r ≤ s → Fits s m → ∃ q, p.degreeElevate K s = .ok q ∧ Represents q m f ∧ q.basis = .bernstein ∧ q.r = s) ∧
    (p.r ≤ s → ¬ Fits s m → p.degreeElevate K s = .error .assertion) ∧
    (s < p.r → p.degreeElevate K s = .error .assertion) := by
  refine ⟨fun h1 h2 => ?_, degreeElevate_toobig hp s, degreeElevate_lower p s⟩
  obtain ⟨q, a1, a2, a3, a4⟩ := degreeElevate_rep hp s h1 h2
  exact ⟨q, a1, a2, a3.trans hpb, a4⟩

/-- C24: `partial_derivative(i)` represents the derivative in the `i`:th coordinate direction at every point; an index outside
the domain dimension is rejected. -/
theorem C24_derivative {K V : Type} [NontriviallyNormedField K] [DecidableEq K] [CharZero K] [NormedAddCommGroup V]
    [NormedSpace K V] {m : Nat} {p : Obj V} {f : (Fin m → K) → V} (hp : Represents p m f) (hpb : p.basis = .bernstein) :
    (∀ i : Fin m, ∃ s f', p.partialDerivative K i = .ok s ∧ Represents s m f' ∧ s.basis = .bernstein ∧ s.r = p.r - 1 ∧
      ∀ x, HasDerivAt (fun t => f (Function.update x i t)) (f' x) (x i)) ∧
    (∀ i : Nat, m ≤ i → p.partialDerivative K i = .error .assertion) := by
  refine ⟨fun i => ?_, fun i hi => partialDerivative_range p i (by rw [hp.dim]; exact hi)⟩
  obtain ⟨s, f', h1, h2, h3, h4, h5⟩ := partialDerivative_rep hp i
  exact ⟨s, f', h1, h2, h4.trans hpb, h5, h3⟩

/-- C24: `to_monomial_basis()` represents the same function, with the same degree, in the monomial basis. -/
theorem C24_to_monomial {m : Nat} {p : Obj V} {f : (Fin m → K) → V} (hp : Represents p m f) (hpb : p.basis = .bernstein) :
    ∃ s, p.toMonomialBasis K = .ok s ∧ Represents s m f ∧ s.basis = .monomial ∧ s.r = p.r :=
  have _ := hpb
  toMonomialBasis_rep hp

/-! ## C25 -/

/-- C25: the basis functions returned by `bernstein_basis_fn` are the Bernstein polynomials (and their monomial forms, returned
by `bernstein_basis_fn_monomial` for a multi-index, represent the same function). -/
theorem C25_basis_fn (ν : List Nat) (r : Nat) (hs : ν.sum ≤ r) (hf : Fits r ν.length) :
    (∃ s, bernsteinBasisFn K ν r = .ok s ∧ Represents s ν.length (fun x : Fin ν.length → K => Spec.bernstein r (List.ofFn x) ν)) ∧
    (∃ s, bernsteinBasisFnMonomial K ν r = .ok s ∧ s.basis = .monomial ∧
      Represents s ν.length (fun x : Fin ν.length → K => Spec.bernstein r (List.ofFn x) ν)) :=
  ⟨⟨_, bernsteinBasisFn_eq ν r _ rfl hs hf, single_rep .bernstein _ r ν rfl hs hf⟩,
   ⟨_, bernsteinBasisFnMonomial_eq ν r _ rfl hs hf, rfl, bernsteinBasisFnMonomial_rep ν r _ rfl hs hf⟩⟩

/-- C25, finding: `bernstein_basis_fn_monomial(nu, r)` for an integer `nu` returns an object in the Bernstein basis, not in the
monomial basis that its documentation promises (the function it represents is the right one). -/
theorem C25_basis_fn_monomial_int (nu r : Nat) (hs : nu ≤ r) (hf : r ≤ 19) :
    ∃ s, bernsteinBasisFnMonomialInt K nu r = .ok s ∧ s.basis = .bernstein ∧
      Represents s 1 (fun x : Fin 1 → K => Spec.bernstein r (List.ofFn x) [nu]) :=
  ⟨_, bernsteinBasisFn_eq [nu] r 1 rfl (by simpa using hs) (Or.inr hf), rfl,
    single_rep .bernstein 1 r [nu] rfl (by simpa using hs) (Or.inr hf)⟩

/-- C25: the functions returned by `bernstein_basis(r, n)`, one for each multi-index, sum to one at every point. -/
theorem C25_partition_of_unity (r n : Nat) (hf : Fits r n) :
    ∃ L, bernsteinBasis K r n = .ok L ∧ L.length = (MI.generateAll n r).length ∧
      ∀ x : Fin n → K, ∃ vals, L.mapM (fun b => b.call (List.ofFn x)) = .ok vals ∧ vals.sum = 1 := by
  refine ⟨(MI.mis n r).map (fun ν => mkObj .bernstein n r (fun μ => if μ = ν then (1 : K) else 0)), ?_, ?_, fun x => ?_⟩
  · unfold bernsteinBasis
    rw [MI.generateAll_eq_mis]
    exact mapM_eq_ok _ _ (fun ν hν => bernsteinBasisFn_eq ν r n (MI.mem_mis.1 hν).1 (MI.mem_mis.1 hν).2 hf)
  · rw [MI.generateAll_eq_mis]; simp
  · refine ⟨(MI.mis n r).map (fun ν => Spec.bernstein r (List.ofFn x) ν), ?_, ?_⟩
    · rw [List.mapM_map]
      exact mapM_eq_ok _ _ (fun ν hν =>
        (single_rep (K := K) .bernstein n r ν (MI.mem_mis.1 hν).1 (MI.mem_mis.1 hν).2 hf).value x)
    · rw [sum_mis]
      simp only [bernstein_ofFn]
      exact partition_of_unity n r x

section Ordered
variable {K : Type} [Field K] [LinearOrder K] [IsStrictOrderedRing K]

theorem bernstein_nonneg {n : Nat} (r : Nat) (x : Fin n → K) (ν : Fin n → ℕ) (hx : ∀ i, 0 ≤ x i) (h1 : ∑ i, x i ≤ 1) :
    0 ≤ Spec.bernstein r (List.ofFn x) (List.ofFn ν) := by
  rw [bernstein_ofFn]
  exact mul_nonneg (Nat.cast_nonneg _) (mul_nonneg (Finset.prod_nonneg fun i _ => pow_nonneg (hx i) _)
    (pow_nonneg (sub_nonneg.2 h1) _))

/-- C25: the functions returned by `bernstein_basis(r, n)` are non-negative on the unit simplex. -/
theorem C25_nonneg {n r : Nat} (hf : Fits r n) {L : List (Obj K)} (hL : bernsteinBasis K r n = .ok L) {b : Obj K} (hb : b ∈ L) (x : Fin n → K)
    (hx : ∀ i, 0 ≤ x i) (h1 : ∑ i, x i ≤ 1) : ∃ y, b.call (List.ofFn x) = .ok y ∧ 0 ≤ y := by
  have he : bernsteinBasis K r n = .ok ((MI.mis n r).map (fun ν => mkObj .bernstein n r (fun μ => if μ = ν then (1 : K) else 0))) := by
    unfold bernsteinBasis
    rw [MI.generateAll_eq_mis]
    exact mapM_eq_ok _ _ (fun ν hν => bernsteinBasisFn_eq ν r n (MI.mem_mis.1 hν).1 (MI.mem_mis.1 hν).2 hf)
  obtain rfl := Except.ok.inj (hL.symm.trans he)
  obtain ⟨ν, hν, rfl⟩ := List.mem_map.1 hb
  obtain ⟨hl, hs⟩ := MI.mem_mis.1 hν
  refine ⟨_, (single_rep (K := K) .bernstein n r ν hl hs hf).value x, ?_⟩
  subst hl
  have := bernstein_nonneg r x (fun i => ν[i]) hx h1
  rwa [show List.ofFn (fun i : Fin ν.length => ν[i]) = ν from List.ofFn_getElem] at this

/-- C25: a polynomial with Bernstein coefficients in `[lo, hi]` takes values in `[lo, hi]` on the unit simplex. -/
theorem C25_range {n : Nat} {p : Obj K} {f : (Fin n → K) → K} (hp : Represents p n f) (hb : p.basis = .bernstein) (lo hi : K)
    (hc : ∀ c ∈ p.coeff, lo ≤ c ∧ c ≤ hi) (x : Fin n → K) (hx : ∀ i, 0 ≤ x i) (h1 : ∑ i, x i ≤ 1) :
    lo ≤ f x ∧ f x ≤ hi := by
  obtain ⟨c, hpc, hfc, _⟩ := hp.exists_mk
  have hcoeff : ∀ ν ∈ S n p.r, lo ≤ c (List.ofFn ν) ∧ c (List.ofFn ν) ≤ hi := by
    intro ν hν
    apply hc
    rw [hpc]
    exact List.mem_map_of_mem (MI.mem_mis.2 ⟨by simp, by rw [List.sum_ofFn]; exact mem_S.1 hν⟩)
  have hsum := val_bernstein_one (K := K) n p.r x
  simp only [val, basisFn, smul_eq_mul, mul_one] at hsum
  rw [hfc, hb]
  simp only [val, basisFn, smul_eq_mul]
  constructor
  · calc lo = ∑ ν ∈ S n p.r, Spec.bernstein p.r (List.ofFn x) (List.ofFn ν) * lo := by rw [← Finset.sum_mul, hsum, one_mul]
      _ ≤ _ := Finset.sum_le_sum fun ν hν => mul_le_mul_of_nonneg_left (hcoeff ν hν).1 (bernstein_nonneg _ x ν hx h1)
  · calc _ ≤ ∑ ν ∈ S n p.r, Spec.bernstein p.r (List.ofFn x) (List.ofFn ν) * hi :=
          Finset.sum_le_sum fun ν hν => mul_le_mul_of_nonneg_left (hcoeff ν hν).2 (bernstein_nonneg _ x ν hx h1)
      _ = hi := by rw [← Finset.sum_mul, hsum, one_mul]

end Ordered

example : ∃ x : Fin 2 → ℚ, (∀ i, 0 ≤ x i) ∧ ∑ i, x i ≤ 1 ∧ x 0 ≠ x 1 :=
  ⟨![1/2, 1/3], by intro i; fin_cases i <;> norm_num, by rw [Fin.sum_univ_two]; norm_num, by norm_num⟩

end Verif.Props
