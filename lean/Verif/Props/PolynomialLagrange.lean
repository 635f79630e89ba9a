import Verif.Lemmas.PolyDeriv
/-!
# C26, C27: polynomials in the Lagrange basis

`Represents p m f` (`Verif/Spec/PolynomialObjects.lean`): `p` is an object the constructor accepts, its domain has dimension
`m` and calling it at `x` returns `f x`. `Fits r m`: the degrees the constructor accepts (`r ≤ 19` or `m = 0`).
-/

namespace Verif.Props
open Verif Verif.Poly

variable {K V : Type} [Field K] [DecidableEq K] [CharZero K] [AddCommGroup V] [Module K V]

/-- C27, what an object evaluates to: every object the constructor accepts represents the function
`x ↦ Σ coeff[i] b_i(x)` with the Lagrange basis polynomials in the order of `generate_all`. -/
theorem C27_value (p : Obj V) (hp : p.Valid) (hb : p.basis = .lagrange) :
    Represents p p.m (fun x : Fin p.m → K => Spec.linComb (Spec.lagrange p.r (List.ofFn x)) (MI.generateAll p.m p.r) p.coeff) := by
  refine ⟨rfl, hp, fun x => ?_⟩
  obtain ⟨c, hc⟩ := hp.exists_tab
  rw [MI.generateAll_eq_mis, hc, linComb_tab]
  have h1 := call_mk p.basis p.m p.r c x
  have h2 : mkObj p.basis p.m p.r c = p := by cases p; simp only at hc; simp [mkObj, hc]
  rw [h2] at h1
  rw [h1]
  simp only [val, hb]
  rfl

/-- C27: addition is pointwise, also for operands of different degree. -/
theorem C27_add {m : Nat} {p q : Obj V} {f g : (Fin m → K) → V} (hp : Represents p m f) (hq : Represents q m g)
    (hpb : p.basis = .lagrange) (hqb : q.basis = .lagrange) :
    ∃ s, p.add K q = .ok s ∧ Represents s m (fun x => f x + g x) ∧ s.basis = .lagrange ∧ s.r = max p.r q.r := by
  obtain ⟨s, h1, h2, h3, h4⟩ := add_rep hp hq (hpb.trans hqb.symm)
  exact ⟨s, h1, h2, h3.trans hpb, h4⟩

/-- C27: subtraction is pointwise, also for operands of different degree. -/
theorem C27_sub {m : Nat} {p q : Obj V} {f g : (Fin m → K) → V} (hp : Represents p m f) (hq : Represents q m g)
    (hpb : p.basis = .lagrange) (hqb : q.basis = .lagrange) :
    ∃ s, p.sub K q = .ok s ∧ Represents s m (fun x => f x - g x) ∧ s.basis = .lagrange ∧ s.r = max p.r q.r := by
  obtain ⟨s, h1, h2, h3, h4⟩ := sub_rep hp hq (hpb.trans hqb.symm)
  exact ⟨s, h1, h2, h3.trans hpb, h4⟩

/-- C27: adding or subtracting polynomials with different domain dimension or of different bases raises AssertionError. -/
theorem C27_add_mismatch (p q : Obj V) (hpb : p.basis = .lagrange) (h : p.m ≠ q.m ∨ q.basis ≠ .lagrange) :
    p.add K q = .error .assertion ∧ p.sub K q = .error .assertion :=
  have h' : p.m ≠ q.m ∨ p.basis ≠ q.basis := h.imp_right (fun h => by rw [hpb]; exact h.symm)
  ⟨combine_mismatch _ p q h', combine_mismatch _ p q h'⟩

/-- C27: multiplication is pointwise. -/
theorem C27_mul {m : Nat} {p q : Obj K} {f g : (Fin m → K) → K} (hp : Represents p m f) (hq : Represents q m g)
    (hpb : p.basis = .lagrange) (hfit : Fits (p.r + q.r) m) :
    ∃ s, p.mul q = .ok s ∧ Represents s m (fun x => f x * g x) ∧ s.basis = .lagrange ∧ s.r = p.r + q.r := by
  obtain ⟨s, h1, h2, h3, h4⟩ := mul_rep hp hq (Or.inl hpb) hfit
  exact ⟨s, h1, h2, h3.trans hpb, h4⟩

/-- C27: a product of degree 20 or more is rejected with AssertionError (no wrong polynomial is returned). -/
theorem C27_mul_rejects {m : Nat} {p q : Obj K} {f g : (Fin m → K) → K} (hp : Represents p m f) (hq : Represents q m g)
    (hpb : p.basis = .lagrange) (hfit : ¬ Fits (p.r + q.r) m) : p.mul q = .error .assertion :=
  mul_toobig hp hq (Or.inl hpb) hfit

/-- C27: multiplying polynomials with different domain dimensions raises AssertionError (the other factor may be in any basis). -/
theorem C27_mul_mismatch (p q : Obj K) (hpb : p.basis = .lagrange) (h : p.m ≠ q.m) :
    p.mul q = .error .assertion :=
  mul_mismatch p q (Or.inl h)

/-- C27: multiplication with and division by a scalar, and multiplication of a scalar valued polynomial with a vector. -/
theorem C27_constants {m n : Nat} {p : Obj V} {f : (Fin m → K) → V} (hp : Represents p m f) (hpb : p.basis = .lagrange)
    {q : Obj K} {g : (Fin m → K) → K} (hq : Represents q m g) (hqb : q.basis = .lagrange) (c : K) (v : Fin n → K) :
    (∃ s, p.smul c = .ok s ∧ Represents s m (fun x => c • f x) ∧ s.basis = .lagrange ∧ s.r = p.r) ∧
    (c ≠ 0 → ∃ s, p.divConst c = .ok s ∧ Represents s m (fun x => (1 / c) • f x) ∧ s.basis = .lagrange ∧ s.r = p.r) ∧
    (∃ s, q.outer v = .ok s ∧ Represents s m (fun x i => g x * v i) ∧ s.basis = .lagrange ∧ s.r = q.r) := by
  refine ⟨?_, fun _ => ?_, ?_⟩
  · obtain ⟨s, h1, h2, h3, h4⟩ := smul_rep hp c
    exact ⟨s, h1, h2, h3.trans hpb, h4⟩
  · obtain ⟨s, h1, h2, h3, h4⟩ := divConst_rep hp c
    exact ⟨s, h1, by simpa only [one_div] using h2, h3.trans hpb, h4⟩
  · obtain ⟨s, h1, h2, h3, h4⟩ := scale_rep hq v
    exact ⟨s, h1, h2, h3.trans hqb, h4⟩

/-- C27: component access of a vector valued polynomial. -/
theorem C27_component {m n : Nat} {p : Obj (Fin n → K)} {f : (Fin m → K) → (Fin n → K)} (hp : Represents p m f)
    (hpb : p.basis = .lagrange) (i : Fin n) :
    ∃ s, p.component i = .ok s ∧ Represents s m (fun x => f x i) ∧ s.basis = .lagrange ∧ s.r = p.r := by
  obtain ⟨s, h1, h2, h3, h4⟩ := component_rep hp i
  exact ⟨s, h1, h2, h3.trans hpb, h4⟩

/-- C27: powers with a natural exponent are pointwise; results of degree 20 or more are rejected. -/
theorem C27_pow {m : Nat} {p : Obj K} {f : (Fin m → K) → K} (hp : Represents p m f) (hpb : p.basis = .lagrange) (k : Nat) :
    (Fits (p.r * k) m → ∃ s, p.powNat k = .ok s ∧ Represents s m (fun x => f x ^ k) ∧ s.basis = .lagrange ∧ s.r = p.r * k) ∧
    (¬ Fits (p.r * k) m → p.powNat k = .error .assertion) := by
  refine ⟨fun h => ?_, powNat_toobig hp k⟩
  obtain ⟨s, h1, h2, h3, h4⟩ := powNat_rep hp k h
  exact ⟨s, h1, h2, h3.trans hpb, h4⟩

/-- C27: powers of a vector valued polynomial with a multi-index exponent; results of degree 20 or more and exponents of the
wrong length are rejected. -/
theorem C27_pow_multi {m n : Nat} {p : Obj (Fin n → K)} {f : (Fin m → K) → (Fin n → K)} (hp : Represents p m f)
    (hpb : p.basis = .lagrange) (ε : Fin n → ℕ) (exp : List Nat) :
    (Fits (p.r * ∑ i, ε i) m → ∃ s, p.powMulti (List.ofFn ε) = .ok s ∧ Represents s m (fun x => ∏ i, f x i ^ ε i) ∧
      s.basis = .lagrange ∧ s.r = p.r * ∑ i, ε i) ∧
    (¬ Fits (p.r * ∑ i, ε i) m → p.powMulti (List.ofFn ε) = .error .assertion) ∧
    (exp.length ≠ n → p.powMulti exp = .error .assertion) := by
  refine ⟨fun h => ?_, (powMulti_rep hp ε).2, powMulti_length p exp⟩
  obtain ⟨s, h1, h2, h3, h4⟩ := (powMulti_rep hp ε).1 h
  exact ⟨s, h1, h2, h3.trans hpb, h4⟩

/-- C27: the zero and unit polynomials of every accepted degree are the constant functions zero and one. -/
theorem C27_zero_unit (r m : Nat) (h : Fits r m) :
    (∃ s, zeroPolynomial .lagrange V r m = .ok s ∧ Represents s m (fun _ : Fin m → K => (0 : V)) ∧ s.basis = .lagrange ∧ s.r = r) ∧
    (∃ s, unitOf .lagrange K r m = .ok s ∧ Represents s m (fun _ : Fin m → K => (1 : K)) ∧ s.basis = .lagrange ∧ s.r = r) :=
  ⟨zero_rep .lagrange V r m h, unit_rep .lagrange r m h⟩

/-- An object that meets the hypotheses: a polynomial of degree 2 in two variables. -/
example : ∃ f, Represents (⟨.lagrange, [1, 2, 3, 4, 5, 6], 2, 2⟩ : Obj ℚ) 2 (f : (Fin 2 → ℚ) → ℚ) :=
  Obj.Valid.rep (p := ⟨.lagrange, [1, 2, 3, 4, 5, 6], 2, 2⟩) (by rfl)
example : Fits (2 + 2) 2 := by unfold Fits; omega


/-- C27: `degree_elevate(s)` does not change the function; a lower degree and degrees of 20 or more are rejected. -/
theorem C27_degree_elevate {m : Nat} {p : Obj V} {f : (Fin m → K) → V} (hp : Represents p m f) (hpb : p.basis = .lagrange) (s : Nat) :
    (p.r ≤ s → Fits s m → ∃ q, p.degreeElevate K s = .ok q ∧ Represents q m f ∧ q.basis = .lagrange ∧ q.r = s) ∧
    (p.r ≤ s → ¬ Fits s m → p.degreeElevate K s = .error .assertion) ∧
    (s < p.r → p.degreeElevate K s = .error .assertion) := by
  refine ⟨fun h1 h2 => ?_, degreeElevate_toobig hp s, degreeElevate_lower p s⟩
  obtain ⟨q, a1, a2, a3, a4⟩ := degreeElevate_rep hp s h1 h2
  exact ⟨q, a1, a2, a3.trans hpb, a4⟩

/-- C27: `partial_derivative(i)` represents the derivative in the `i`:th coordinate direction at every point; an index outside
the domain dimension is rejected. -/
theorem C27_derivative {K V : Type} [NontriviallyNormedField K] [DecidableEq K] [CharZero K] [NormedAddCommGroup V]
    [NormedSpace K V] {m : Nat} {p : Obj V} {f : (Fin m → K) → V} (hp : Represents p m f) (hpb : p.basis = .lagrange) :
    (∀ i : Fin m, ∃ s f', p.partialDerivative K i = .ok s ∧ Represents s m f' ∧ s.basis = .lagrange ∧ s.r = p.r - 1 ∧
      ∀ x, HasDerivAt (fun t => f (Function.update x i t)) (f' x) (x i)) ∧
    (∀ i : Nat, m ≤ i → p.partialDerivative K i = .error .assertion) := by
  refine ⟨fun i => ?_, fun i hi => partialDerivative_range p i (by rw [hp.dim]; exact hi)⟩
  obtain ⟨s, f', h1, h2, h3, h4, h5⟩ := partialDerivative_rep hp i
  exact ⟨s, f', h1, h2, h4.trans hpb, h5, h3⟩

/-- C27: `to_monomial_basis()` represents the same function, with the same degree, in the monomial basis. -/
theorem C27_to_monomial {m : Nat} {p : Obj V} {f : (Fin m → K) → V} (hp : Represents p m f) (hpb : p.basis = .lagrange) :
    ∃ s, p.toMonomialBasis K = .ok s ∧ Represents s m f ∧ s.basis = .monomial ∧ s.r = p.r :=
  have _ := hpb
  toMonomialBasis_rep hp

/-! ## C26 -/

/-- C26: `generate_lagrange_points(n, r)` are the points `ν / r` in the order of `generate_all(n, r)` (for `r = 0`: the
origin), and `generate_lagrange_point` agrees with it. -/
theorem C26_points (n r : Nat) :
    generateLagrangePoints K n r = (MI.generateAll n r).map (fun ν => ν.map (fun (k : Nat) => (k : K) / (r : K))) ∧
    ∀ ν ∈ MI.generateAll n r, generateLagrangePoint K n r ν = ν.map (fun (k : Nat) => (k : K) / (r : K)) := by
  rw [MI.generateAll_eq_mis]
  exact ⟨lagrangePoints_eq K n r, fun ν hν => lagrangePoint_eq K n r ν (MI.mem_mis.1 hν).1 (MI.mem_mis.1 hν).2⟩

/-- C26: the basis function for `ν` is one at its own Lagrange point and zero at the others; `lagrange_basis_fn` and its monomial
form `lagrange_basis_fn_monomial` represent the same function. -/
theorem C26_interpolate {n : Nat} (r : Nat) (ν μ : Fin n → ℕ) (hν : ∑ i, ν i ≤ r) (hμ : ∑ i, μ i ≤ r) (hf : Fits r n) :
    ∃ s t f, lagrangeBasisFn K (List.ofFn ν) r = .ok s ∧ lagrangeBasisFnMonomial K (List.ofFn ν) r = .ok t ∧
      Represents s n f ∧ Represents t n f ∧ s.basis = .lagrange ∧ t.basis = .monomial ∧
      f (fun i => (μ i : K) / (r : K)) = if ν = μ then 1 else 0 := by
  have hs : (List.ofFn ν).sum ≤ r := by rw [List.sum_ofFn]; exact hν
  refine ⟨_, _, _, lagrangeBasisFn_eq _ r n (by simp) hs hf, lagrangeBasisFnMonomial_eq _ r n (by simp) hs hf,
    single_rep .lagrange n r _ (by simp) hs hf, lagrangeBasisFnMonomial_rep _ r n (by simp) hs hf, rfl, rfl, ?_⟩
  exact lagrange_delta r ν μ (mem_S.2 hν) (mem_S.2 hμ)

/-- C26: applying the dual basis function for `μ` to the basis function for `ν` gives the Kronecker delta, and applying it to any
polynomial gives its value at the Lagrange point; for a Lagrange polynomial of degree `r` that is its coefficient. -/
theorem C26_dual {n : Nat} (r : Nat) (ν μ : Fin n → ℕ) (hν : ∑ i, ν i ≤ r) (hμ : ∑ i, μ i ≤ r) (hf : Fits r n) :
    (do dualLagrangeBasisFn K (List.ofFn μ) r (← lagrangeBasisFn K (List.ofFn ν) r)) = .ok (if ν = μ then 1 else 0) ∧
    (∀ (p : Obj V) (f : (Fin n → K) → V), Represents p n f →
      dualLagrangeBasisFn K (List.ofFn μ) r p = .ok (f (fun i => (μ i : K) / (r : K)))) := by
  have h2 : ∀ (W : Type) [AddCommGroup W] [Module K W] (p : Obj W) (f : (Fin n → K) → W), Represents p n f →
      dualLagrangeBasisFn K (List.ofFn μ) r p = .ok (f (fun i => (μ i : K) / (r : K))) := by
    intro W _ _ p f hp
    unfold dualLagrangeBasisFn
    rw [List.length_ofFn, lagrangePoint_ofFn K n r μ (mem_S.2 hμ)]
    exact hp.value _
  refine ⟨?_, h2 V⟩
  obtain ⟨s, t, f, h3, _, h4, _, _, _, h5⟩ := C26_interpolate (K := K) r ν μ hν hμ hf
  rw [h3]
  simp only [Py.bind_ok]
  rw [h2 K s f h4, h5]

/-- C26: the coefficients of a Lagrange polynomial are its values at the Lagrange points. -/
theorem C26_coefficients_are_values {n : Nat} {p : Obj V} {f : (Fin n → K) → V} (hp : Represents p n f) (hb : p.basis = .lagrange) :
    p.coeff.length = (MI.generateAll n p.r).length ∧ ∀ (i : Nat) (μ : Fin n → ℕ), (MI.generateAll n p.r)[i]? = some (List.ofFn μ) →
      p.coeff[i]? = some (f (fun i => (μ i : K) / (p.r : K))) := by
  obtain ⟨c, hpc, hfc, _⟩ := hp.exists_mk
  rw [MI.generateAll_eq_mis]
  have hcoeff : p.coeff = tab n p.r c := by rw [hpc]; rfl
  refine ⟨by rw [hcoeff]; simp [tab], fun i μ hi => ?_⟩
  have hμ : μ ∈ S n p.r := by
    have := (MI.mem_mis.1 (List.mem_of_getElem? hi)).2
    rw [mem_S]; rwa [List.sum_ofFn] at this
  rw [hcoeff]
  unfold tab
  rw [List.getElem?_map, hi, hfc, hb]
  simp only [Option.map_some, Option.some.injEq, val]
  rw [Finset.sum_eq_single μ]
  · rw [show basisFn Basis.lagrange p.r (List.ofFn fun i => (μ i : K) / (p.r : K)) (List.ofFn μ) = 1 from by
      have := lagrange_delta (K := K) p.r μ μ hμ hμ
      rw [if_pos rfl] at this; exact this, one_smul]
  · intro ν hν hne
    rw [show basisFn Basis.lagrange p.r (List.ofFn fun i => (μ i : K) / (p.r : K)) (List.ofFn ν) = 0 from by
      have := lagrange_delta (K := K) p.r ν μ hν hμ
      rw [if_neg hne] at this; exact this, zero_smul]
  · intro h; exact absurd hμ h

/-- C26, the cache: for every `n`, `r` in the range of the cached tables, the dictionary has exactly the multi-indices of
`generate_all(n, r)` as keys, in that order, and the polynomial with the cached monomial coefficients is one at the Lagrange
point of its key and zero at the others. -/
theorem C26_cache (n r : Nat) (d : LagrangeDict) (h : lagrangeDict? r n = some d) :
    d.2.map Prod.fst = MI.generateAll n r ∧
    ∀ e ∈ d.2, e.2.length = (MI.generateAll n r).length ∧
      ∀ μ : Fin n → ℕ, ∑ i, μ i ≤ r →
        Spec.linComb (Spec.monomial (List.ofFn fun i => (μ i : K) / (r : K))) (MI.generateAll n r)
          (e.2.map (fun z : Int => (z : K) / (d.1 : K))) = if e.1 = List.ofFn μ then 1 else 0 := by
  obtain ⟨hn, hr, hc⟩ := lagrangeDict_checked h
  obtain ⟨hk, hv⟩ := checkDict_values (K := K) hr hc
  rw [MI.generateAll_eq_mis]
  refine ⟨hk, fun e he => ?_⟩
  have h1 := hv e he
  have hmem : e.1 ∈ MI.mis n r := hk ▸ List.mem_map_of_mem he
  obtain ⟨ε, hε⟩ := eq_ofFn (MI.mem_mis.1 hmem).1
  have hεS : ε ∈ S n r := by rw [mem_S, ← List.sum_ofFn, ← hε]; exact (MI.mem_mis.1 hmem).2
  refine ⟨?_, fun μ hμ => ?_⟩
  · have := congrArg List.length h1
    simpa [dictValues, tab] using this
  · unfold dictValues at h1
    rw [h1, linComb_tab]
    have h2 := lagCoeff_spec (K := K) (MI.mem_mis.1 hmem).1 (MI.mem_mis.1 hmem).2 (lpt K r μ)
    simp only [monomial_ofFn]
    refine h2.symm.trans ?_
    rw [hε, lagrange_delta r ε μ hεS (mem_S.2 hμ)]
    by_cases hh : ε = μ
    · rw [if_pos hh, if_pos (by rw [hh])]
    · rw [if_neg hh, if_neg (fun h => hh (List.ofFn_injective h))]

/-- C26: the cache covers `1 ≤ n, r ≤ 4`; outside it the coefficients are computed by solving the interpolation system, and in both cases
the look-up succeeds with one coefficient list per multi-index. -/
theorem C26_coefficients_exist (n r : Nat) :
    ∃ cols, getLagrangeBaseColumns K r n = .ok cols ∧ cols.length = (MI.generateAll n r).length ∧
      ∀ (i : Nat) (ν : List Nat), (MI.generateAll n r)[i]? = some ν →
        ∃ col, cols[i]? = some col ∧ getLagrangeBasisFnCoefficients K ν r = .ok col ∧
          ∀ x : Fin n → K, Spec.linComb (Spec.monomial (List.ofFn x)) (MI.generateAll n r) col = Spec.lagrange r (List.ofFn x) ν := by
  refine ⟨_, getLagrangeBaseColumns_eq r n, by rw [MI.generateAll_eq_mis]; simp, fun i ν hi => ?_⟩
  rw [MI.generateAll_eq_mis] at hi ⊢
  have hν := MI.mem_mis.1 (List.mem_of_getElem? hi)
  refine ⟨tab n r (lagCoeff K n r ν), by rw [List.getElem?_map, hi]; rfl, ?_, fun x => ?_⟩
  · have := getLagrangeBasisFnCoefficients_eq (K := K) ν r hν.2
    rwa [hν.1] at this
  · rw [linComb_tab, lagCoeff_spec hν.1 hν.2 x]
    simp only [monomial_ofFn]

example : ∃ d, lagrangeDict? 2 2 = some d ∧ d.2.length = 6 := ⟨_, rfl, rfl⟩

end Verif.Props
