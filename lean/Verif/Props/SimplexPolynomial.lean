import Verif.Lemmas.SimplexPolynomialOps
import Verif.Lemmas.PolyUnique
import Verif.Lemmas.DualBases
/-!
# C62: polynomials on an arbitrary simplex
-/

namespace Verif.Props
open Verif Verif.Poly Verif.Simplex Verif.Spec Verif.SPoly

section
variable {K V : Type} [Field K] [DecidableEq K] [CharZero K] [AddCommGroup V] [Module K V] {m : Nat}

/-- **C62** The constructor accepts every coefficient array of the right length and every simplex that is not degenerate; the value at a point is the
linear combination of the basis polynomials in the barycentric coordinates of the point with respect to the simplex. -/
theorem C62_construct (b : Basis) (coeff : List V) (v : Vertices K m m) (r : Nat) (hl : coeff.length = getDimension r m) (hf : Fits r m)
    (hd : edgeDet v ≠ 0) :
    ∃ p f, SObj.new b coeff v (some r) = .ok p ∧ p.poly.basis = b ∧ p.poly.coeff = coeff ∧ p.poly.r = r ∧ RepresentsOn p v f ∧
      ∀ x w, IsBarycentric v x w → f x = linComb (basisFn b r (List.ofFn (fun i : Fin m => w i.succ))) (MI.generateAll m r) coeff := by
  haveI : Inhabited V := ⟨0⟩
  obtain ⟨c, rfl⟩ := exists_tab m r coeff hl
  refine ⟨_, _, snew_ok hd (new_mk b m r c hf), rfl, rfl, rfl, repOn_mk hd (rep_mk b m r c hf), fun x w hw => ?_⟩
  rw [down_bary v hd hw, MI.generateAll_eq_mis, linComb_tab]
  rfl

/-- **C62** A degenerate simplex is rejected. -/
theorem C62_degenerate (b : Basis) (coeff : List V) (v : Vertices K m m) (r : Option Nat) (hd : edgeDet v = 0) :
    ∃ e, SObj.new b coeff v r = .error e := by
  unfold SObj.new
  obtain ⟨e, he⟩ := toUnit_error v hd
  rw [he]
  cases Obj.new b coeff r m with
  | error e => exact ⟨e, rfl⟩
  | ok q => exact ⟨e, rfl⟩

/-- **C62** Sums. -/
theorem C62_add {p q : SObj K V m} {v : Vertices K m m} {f g : (Fin m → K) → V} (hp : RepresentsOn p v f) (hq : RepresentsOn q v g)
    (hb : p.poly.basis = q.poly.basis) :
    ∃ s, p.add q = .ok s ∧ RepresentsOn s v (fun x => f x + g x) ∧ s.poly.basis = p.poly.basis ∧ s.poly.r = max p.poly.r q.poly.r :=
  add_repOn (repOn_det hp) hp hq hb

/-- **C62** Differences. -/
theorem C62_sub {p q : SObj K V m} {v : Vertices K m m} {f g : (Fin m → K) → V} (hp : RepresentsOn p v f) (hq : RepresentsOn q v g)
    (hb : p.poly.basis = q.poly.basis) :
    ∃ s, p.sub q = .ok s ∧ RepresentsOn s v (fun x => f x - g x) ∧ s.poly.basis = p.poly.basis ∧ s.poly.r = max p.poly.r q.poly.r :=
  sub_repOn (repOn_det hp) hp hq hb

omit [CharZero K] in
/-- **C62** Sums and differences of polynomials on different simplices or in different bases are rejected. -/
theorem C62_add_mismatch (p q : SObj K V m) (h : p.poly.basis ≠ q.poly.basis ∨ p.vertices ≠ q.vertices) :
    p.add q = .error .assertion ∧ p.sub q = .error .assertion := by
  have : decide (p.poly.basis = q.poly.basis ∧ p.vertices = q.vertices) = false := decide_eq_false (fun hc => by
    rcases h with h | h
    · exact h hc.1
    · exact h hc.2)
  constructor
  · unfold SObj.add SPoly.combine; rw [this]; rfl
  · unfold SObj.sub SPoly.combine; rw [this]; rfl

/-- **C62** Products, with the degree bound of the constructor. In the Lagrange basis the second factor may be a polynomial on another simplex or in
another basis. -/
theorem C62_mul {p q : SObj K K m} {v w : Vertices K m m} {f g : (Fin m → K) → K} (hp : RepresentsOn p v f) (hq : RepresentsOn q w g)
    (hb : p.poly.basis = .lagrange ∨ (p.poly.basis = .bernstein ∧ q.poly.basis = .bernstein ∧ v = w)) :
    (Fits (p.poly.r + q.poly.r) m → ∃ s, p.mul q = .ok s ∧ RepresentsOn s v (fun x => f x * g x) ∧ s.poly.basis = p.poly.basis ∧
      s.poly.r = p.poly.r + q.poly.r) ∧
    (¬ Fits (p.poly.r + q.poly.r) m → p.mul q = .error .assertion) := mul_repOn hp hq hb

omit [CharZero K] in
/-- **C62** Products in the Bernstein basis of polynomials on different simplices or in different bases are rejected. -/
theorem C62_mul_mismatch (p q : SObj K K m) (hb : p.poly.basis = .bernstein) (h : q.poly.basis ≠ .bernstein ∨ p.vertices ≠ q.vertices) :
    p.mul q = .error .assertion := by
  have : decide (p.poly.basis = q.poly.basis ∧ p.vertices = q.vertices) = false := decide_eq_false (fun hc => by
    rcases h with h | h
    · exact h (hc.1.symm.trans hb)
    · exact h hc.2)
  unfold SObj.mul
  rw [hb]
  simp only [mulBernsteinSimplex]
  rw [this]
  rfl

/-- **C62** Products with numbers, and quotients (NumPy's division by zero is not modelled). -/
theorem C62_constants {p : SObj K V m} {v : Vertices K m m} {f : (Fin m → K) → V} (hp : RepresentsOn p v f) (c : K) :
    (∃ s, p.smul c = .ok s ∧ RepresentsOn s v (fun x => c • f x) ∧ s.poly.basis = p.poly.basis ∧ s.poly.r = p.poly.r) ∧
    (c ≠ 0 → ∃ s, p.divConst c = .ok s ∧ RepresentsOn s v (fun x => c⁻¹ • f x) ∧ s.poly.basis = p.poly.basis ∧ s.poly.r = p.poly.r) :=
  ⟨smul_repOn (repOn_det hp) hp c, fun _ => divConst_repOn hp c⟩

/-- **C62** Products of scalar valued polynomials with vectors. -/
theorem C62_outer {n : Nat} {p : SObj K K m} {v : Vertices K m m} {f : (Fin m → K) → K} (hp : RepresentsOn p v f) (c : Fin n → K) :
    ∃ s, p.outer c = .ok s ∧ RepresentsOn s v (fun x => f x • c) ∧ s.poly.basis = p.poly.basis ∧ s.poly.r = p.poly.r := outer_repOn hp c

/-- **C62** Components of vector valued polynomials. -/
theorem C62_component {n : Nat} {p : SObj K (Fin n → K) m} {v : Vertices K m m} {f : (Fin m → K) → (Fin n → K)} (hp : RepresentsOn p v f)
    (i : Fin n) : ∃ s, p.component i = .ok s ∧ RepresentsOn s v (fun x => f x i) ∧ s.poly.basis = p.poly.basis ∧ s.poly.r = p.poly.r :=
  component_repOn hp i

/-- **C62** Powers with an integer exponent. The zeroth power of a Lagrange polynomial has degree 1. -/
theorem C62_pow {p : SObj K K m} {v : Vertices K m m} {f : (Fin m → K) → K} (hp : RepresentsOn p v f) (hb : p.poly.basis ≠ .monomial) (k : Nat) :
    (Fits (p.poly.r * k) m → ∃ s, p.powNat k = .ok s ∧ RepresentsOn s v (fun x => f x ^ k) ∧ s.poly.basis = p.poly.basis ∧
      s.poly.r = if p.poly.basis = .lagrange ∧ k = 0 then 1 else p.poly.r * k) ∧
    (¬ Fits (p.poly.r * k) m → p.powNat k = .error .assertion) := powNat_repOn hp hb k

/-- **C62** Powers of a vector valued polynomial with a multi-index. -/
theorem C62_pow_multi {n : Nat} {p : SObj K (Fin n → K) m} {v : Vertices K m m} {f : (Fin m → K) → (Fin n → K)}
    (hp : RepresentsOn p v f) (hb : p.poly.basis ≠ .monomial) (ε : Fin n → ℕ) :
    (Fits (p.poly.r * ∑ i, ε i) m → ∃ s, p.powMulti (List.ofFn ε) = .ok s ∧ RepresentsOn s v (fun x => ∏ i, f x i ^ ε i) ∧
      s.poly.basis = p.poly.basis ∧ s.poly.r = p.poly.r * ∑ i, ε i) ∧
    (¬ Fits (p.poly.r * ∑ i, ε i) m → p.powMulti (List.ofFn ε) = .error .assertion) := powMulti_repOn hp hb ε

/-- **C62** Degree elevation does not change the function. -/
theorem C62_degree_elevate {p : SObj K V m} {v : Vertices K m m} {f : (Fin m → K) → V} (h : RepresentsOn p v f) (s : Nat) :
    (p.poly.r ≤ s → Fits s m → ∃ q, p.degreeElevate s = .ok q ∧ RepresentsOn q v f ∧ q.poly.basis = p.poly.basis ∧ q.poly.r = s) ∧
    (s < p.poly.r → p.degreeElevate s = .error .assertion) ∧
    (p.poly.r ≤ s → ¬ Fits s m → p.degreeElevate s = .error .assertion) := by
  refine ⟨fun h1 h2 => degreeElevate_repOn (repOn_det h) h s h1 h2, fun h1 => ?_, fun h1 h2 => ?_⟩
  · unfold SObj.degreeElevate
    rw [decide_eq_false (not_le.2 h1)]
    rfl
  · unfold SObj.degreeElevate
    rw [decide_eq_true h1]
    have h3 := ((repOn_iff (repOn_det h)).1 h).2.2
    have hne : s ≠ p.poly.r := fun hc => h2 (hc ▸ repOn_fits h)
    simp only [pyAssert_true, Py.bind_ok]
    rw [if_neg hne, degreeElevate_toobig h3 s h1 h2]
    rfl

/-- **C62** The zero and the unit polynomial. -/
theorem C62_zero_unit {b : Basis} (hb : b ≠ .monomial) {v : Vertices K m m} (hd : edgeDet v ≠ 0) (r : Nat) (hf : Fits r m) :
    (∃ s, zeroPolynomialSimplex b V v r = .ok s ∧ RepresentsOn s v (fun _ => (0 : V)) ∧ s.poly.basis = b ∧ s.poly.r = r) ∧
    (∃ s, unitPolynomialSimplex b v r = .ok s ∧ RepresentsOn s v (fun _ => (1 : K)) ∧ s.poly.basis = b ∧ s.poly.r = r) :=
  ⟨zero_repOn b hd r hf, unit_repOn hb hd r hf⟩

/-- **C62** The basis functions are the basis polynomials in barycentric coordinates. -/
theorem C62_basis_fn (b : Basis) (v : Vertices K m m) (hd : edgeDet v ≠ 0) (ν : List Nat) (r : Nat) (hl : ν.length = m) (hs : ν.sum ≤ r) (hf : Fits r m) :
    ∃ s f, basisFnSimplex b ν r v = .ok s ∧ RepresentsOn s v f ∧ s.poly.basis = b ∧ s.poly.r = r ∧
      ∀ x w, IsBarycentric v x w → f x = basisFn b r (List.ofFn (fun i : Fin m => w i.succ)) ν := by
  obtain ⟨s, a1, a2, a3, a4⟩ := basisFn_repOn b v hd ν r hl hs hf
  exact ⟨s, _, a1, a2, a3, a4, fun x w hw => by rw [down_bary v hd hw]⟩

/-- **C62** The basis functions of vector valued polynomials. -/
theorem C62_vector_basis_fn {n : Nat} (b : Basis) (v : Vertices K m m) (hd : edgeDet v ≠ 0) (ν : List Nat) (r : Nat) (i : Fin n) (hl : ν.length = m)
    (hs : ν.sum ≤ r) (hf : Fits r m) :
    ∃ s f, vectorBasisFnSimplex b ν r i v n = .ok s ∧ RepresentsOn s v f ∧ s.poly.basis = b ∧ s.poly.r = r ∧
      ∀ x w, IsBarycentric v x w → f x = basisFn b r (List.ofFn (fun i : Fin m => w i.succ)) ν • (Pi.single i 1 : Fin n → K) := by
  obtain ⟨s, a1, a2, a3, a4⟩ := vectorBasisFn_repOn b v hd ν r i hl hs hf
  exact ⟨s, _, a1, a2, a3, a4, fun x w hw => by rw [down_bary v hd hw]⟩

omit [CharZero K] in
theorem C62_vector_basis_fn_range {n : Nat} (b : Basis) (v : Vertices K m m) (ν : List Nat) (r i : Nat) (h : n ≤ i) :
    vectorBasisFnSimplex b ν r i v n = .error .assertion := by
  unfold vectorBasisFnSimplex
  rw [decide_eq_false (not_lt.2 h)]
  rfl

/-- **C62** The order of the vector valued basis: the function for the `k`:th multi-index and the `i`:th component is found at position `k n + i` with
interleaved ordering, and at position `i d + k` otherwise, where `d` is the dimension of the scalar space. -/
theorem C62_vector_basis {n : Nat} (b : Basis) (v : Vertices K m m) (hd : edgeDet v ≠ 0) (r : Nat) (hf : Fits r m) (interleaved : Bool) :
    ∃ l, vectorBasisSimplex b r v n interleaved = .ok l ∧ l.length = n * getDimension r m ∧
      ∀ (k i : ℕ) ν, (MI.generateAll m r)[k]? = some ν → i < n →
        ∃ s, l[if interleaved = true then k * n + i else i * getDimension r m + k]? = some s ∧ vectorBasisFnSimplex b ν r i v n = .ok s := by
  have h : ∀ e : List Nat × Nat, e.1 ∈ MI.generateAll m r ∧ e.2 < n → ∃ s, vectorBasisFnSimplex b e.1 r e.2 v n = .ok s := fun e he => by
    rw [MI.generateAll_eq_mis] at he
    obtain ⟨s, h, -⟩ := vectorBasisFn_repOn b v hd e.1 r ⟨e.2, he.2⟩ (MI.mem_mis.1 he.1).1 (MI.mem_mis.1 he.1).2 hf
    exact ⟨s, h⟩
  haveI : Nonempty (SObj K (Fin n → K) m) := ⟨⟨⟨b, [], 0, 0⟩, v, down v⟩⟩
  choose! F hF using h
  have hlen : (MI.generateAll m r).length = getDimension r m := by rw [MI.generateAll_eq_mis, length_mis_eq]
  cases interleaved with
  | true =>
    have hmem : ∀ e ∈ (MI.generateAll m r).flatMap (fun mi => (List.range n).map (fun i => (mi, i))), vectorBasisFnSimplex b e.1 r e.2 v n = .ok (F e) := by
      intro e he
      apply hF
      simp only [List.mem_flatMap, List.mem_map, List.mem_range] at he
      obtain ⟨ν, h3, i, h4, rfl⟩ := he; exact ⟨h3, h4⟩
    refine ⟨((MI.generateAll m r).flatMap (fun mi => (List.range n).map (fun i => (mi, i)))).map F, mapM_eq_ok _ _ hmem, ?_, ?_⟩
    · rw [List.length_map, length_flatMap_const _ _ n (by simp), hlen, Nat.mul_comm]
    · intro k i ν hk hi
      refine ⟨F (ν, i), ?_, hF (ν, i) ⟨List.mem_of_getElem? hk, hi⟩⟩
      rw [List.getElem?_map, if_pos rfl, get_flatMap_const _ _ n (by simp) k i ν hk hi]
      simp [hi]
  | false =>
    have hmem : ∀ e ∈ (List.range n).flatMap (fun i => (MI.generateAll m r).map (fun mi => (mi, i))), vectorBasisFnSimplex b e.1 r e.2 v n = .ok (F e) := by
      intro e he
      apply hF
      simp only [List.mem_flatMap, List.mem_map, List.mem_range] at he
      obtain ⟨i, h4, ν, h3, rfl⟩ := he; exact ⟨h3, h4⟩
    refine ⟨((List.range n).flatMap (fun i => (MI.generateAll m r).map (fun mi => (mi, i)))).map F, mapM_eq_ok _ _ hmem, ?_, ?_⟩
    · rw [List.length_map, length_flatMap_const _ _ (getDimension r m) (by simp [hlen]), List.length_range]
    · intro k i ν hk hi
      refine ⟨F (ν, i), ?_, hF (ν, i) ⟨List.mem_of_getElem? hk, hi⟩⟩
      have hk' : k < getDimension r m := by rw [← hlen]; exact (List.getElem?_eq_some_iff.1 hk).1
      rw [List.getElem?_map, if_neg (by simp), get_flatMap_const _ _ (getDimension r m) (by simp [hlen]) i k i (by simp [hi]) hk']
      simp [hk]

/-- **C62** The basis lists the basis functions in the order of the multi-indices. -/
theorem C62_basis (b : Basis) (v : Vertices K m m) (hd : edgeDet v ≠ 0) (r : Nat) (hf : Fits r m) :
    ∃ l, basisSimplex b r v = .ok l ∧ l.length = getDimension r m ∧
      ∀ (i : ℕ) ν, (MI.generateAll m r)[i]? = some ν → ∃ s, l[i]? = some s ∧ basisFnSimplex b ν r v = .ok s := by
  unfold basisSimplex
  have h : ∀ ν ∈ MI.generateAll m r, ∃ s, basisFnSimplex b ν r v = .ok s := fun ν hν => by
    rw [MI.generateAll_eq_mis] at hν
    obtain ⟨s, h, -⟩ := basisFn_repOn b v hd ν r (MI.mem_mis.1 hν).1 (MI.mem_mis.1 hν).2 hf
    exact ⟨s, h⟩
  haveI : Nonempty (SObj K K m) := ⟨⟨⟨b, [], 0, 0⟩, v, down v⟩⟩
  choose! F hF using h
  refine ⟨(MI.generateAll m r).map F, mapM_eq_ok _ _ hF, ?_, fun i ν hi => ⟨F ν, ?_, hF ν (List.mem_of_getElem? hi)⟩⟩
  · rw [List.length_map, MI.generateAll_eq_mis, length_mis_eq]
  · rw [List.getElem?_map, hi]; rfl

omit [CharZero K] in
/-- **C62** The dual Lagrange basis function evaluates at the point with barycentric coordinates `μ / r`, ... -/
theorem C62_dual_lagrange {v w : Vertices K m m} (r : Nat) (μ : Fin m → ℕ) (hs : ∑ i, μ i ≤ r) {p : SObj K V m} {f : (Fin m → K) → V}
    (hp : RepresentsOn p w f) :
    ∃ x c, IsBarycentric v x c ∧ (∀ i, c i.succ = (μ i : K) / (r : K)) ∧ lagrangePointSimplex v r (List.ofFn μ) = .ok x ∧
      dualLagrangeFnSimplex (List.ofFn μ) r v p = .ok (f x) := by
  have hg : (fun i : Fin m => (((List.ofFn μ).getD i 0 : ℕ) : K) / (r : K)) = fun i => (μ i : K) / (r : K) := by
    funext i; simp
  refine ⟨_, _, up_bary v (fun i => (μ i : K) / (r : K)), fun i => by simp, ?_, ?_⟩
  · rw [lagrangePointSimplex_eq v r _ (by simp) (by rw [List.sum_ofFn]; exact hs), hg]
  · rw [dualLagrange_repOn v r _ (by simp) (by rw [List.sum_ofFn]; exact hs) hp, hg]

/-- **C62** ... and is dual to the Lagrange basis. -/
theorem C62_dual_lagrange_delta {v : Vertices K m m} (hd : edgeDet v ≠ 0) (r : Nat) (μ ν : Fin m → ℕ) (hs : ∑ i, μ i ≤ r) (hν : ∑ i, ν i ≤ r)
    (hf : Fits r m) :
    ∃ l, basisFnSimplex .lagrange (List.ofFn ν) r v = .ok l ∧ dualLagrangeFnSimplex (List.ofFn μ) r v l = .ok (if μ = ν then 1 else 0) := by
  obtain ⟨s, a1, a2, a3, a4⟩ := basisFn_repOn .lagrange v hd (List.ofFn ν) r (by simp) (by rw [List.sum_ofFn]; exact hν) hf
  refine ⟨s, a1, ?_⟩
  rw [dualLagrange_repOn v r _ (by simp) (by rw [List.sum_ofFn]; exact hs) a2, down_up v hd]
  congr 1
  have h := lagrange_delta (K := K) r ν μ (mem_S.2 hν) (mem_S.2 hs)
  have hg : (fun i : Fin m => (((List.ofFn μ).getD i 0 : ℕ) : K) / (r : K)) = lpt K r μ := by
    funext i; simp [lpt]
  rw [hg]
  show Spec.lagrange r _ _ = _
  rw [h]
  simp only [eq_comm]

/-- **C62** The dual functions of vector valued polynomials take the value of one component. -/
theorem C62_dual_vector_lagrange {n : Nat} {v w : Vertices K m m} (r : Nat) (μ : Fin m → ℕ) (hs : ∑ i, μ i ≤ r) (i : Fin n)
    {p : SObj K (Fin n → K) m} {f : (Fin m → K) → (Fin n → K)} (hp : RepresentsOn p w f) :
    ∃ x, lagrangePointSimplex v r (List.ofFn μ) = .ok x ∧ dualVectorLagrangeFnSimplex (List.ofFn μ) r i v p = .ok (f x i) := by
  obtain ⟨c, a1, a2, -⟩ := component_repOn hp i
  obtain ⟨x, -, -, -, h1, h2⟩ := C62_dual_lagrange (v := v) r μ hs a2
  refine ⟨x, h1, ?_⟩
  unfold dualVectorLagrangeFnSimplex
  rw [dif_pos i.2, show (⟨(i : Nat), i.2⟩ : Fin n) = i from rfl, a1]
  exact h2

/-- **C62** The object is determined by its function, its simplex, its basis and its degree. -/
theorem C62_unique {p q : SObj K V m} {v : Vertices K m m} {f : (Fin m → K) → V} (hp : RepresentsOn p v f) (hq : RepresentsOn q v f)
    (hb : p.poly.basis = q.poly.basis) (hr : p.poly.r = q.poly.r) : p = q := by
  have hd := repOn_det hp
  obtain ⟨h1, h2, h3⟩ := (repOn_iff hd).1 hp
  obtain ⟨k1, k2, k3⟩ := (repOn_iff hd).1 hq
  have := rep_unique h3 k3 hb hr
  cases p; cases q
  simp only at *
  rw [h1, k1, h2, k2, this]

end

section
variable {K V : Type} [NontriviallyNormedField K] [DecidableEq K] [CharZero K] [NormedAddCommGroup V] [NormedSpace K V] {m : Nat}

/-- **C62** Partial derivatives are taken in the coordinates of the point (not in barycentric coordinates). -/
theorem C62_derivative {p : SObj K V m} {v : Vertices K m m} {f : (Fin m → K) → V} (hp : RepresentsOn p v f) (i : Fin m) :
    ∃ s f', p.partialDerivative i = .ok s ∧ RepresentsOn s v f' ∧
      (∀ x, HasDerivAt (fun t => f (Function.update x i t)) (f' x) (x i)) ∧ s.poly.basis = p.poly.basis ∧ s.poly.r = p.poly.r - 1 :=
  partialDerivative_repOn hp i

omit [CharZero K] in
theorem C62_derivative_range (p : SObj K V m) (i : Nat) (h : m ≤ i) : p.partialDerivative i = .error .assertion := by
  unfold SObj.partialDerivative
  rw [dif_neg (not_lt.2 h)]

end

/-! ## A polynomial on a triangle -/

/-- A triangle. -/
def C62_triangle : Vertices ℝ 2 2 := fun i j => if i = 0 then (if j = 0 then 1 else 1) else if i = 1 then (if j = 0 then 3 else 1) else (if j = 0 then 1 else 4)

example : edgeDet C62_triangle ≠ 0 := by
  simp [edgeDet, Matrix.det_fin_two, C62_triangle]; norm_num

open Classical in
/-- A quadratic polynomial on the triangle, in both bases. -/
example (b : Basis) : ∃ p f, SObj.new b [(1 : ℝ), 2, 3, 4, 5, 6] C62_triangle (some 2) = .ok p ∧ RepresentsOn p C62_triangle f :=
  have hd : edgeDet C62_triangle ≠ 0 := by simp [edgeDet, Matrix.det_fin_two, C62_triangle]; norm_num
  let ⟨p, f, h1, _, _, _, h2, _⟩ := C62_construct b [(1 : ℝ), 2, 3, 4, 5, 6] C62_triangle 2 (by rfl) (Or.inr (by norm_num)) hd
  ⟨p, f, h1, h2⟩

/-- A degenerate triangle. -/
example : edgeDet (fun (i : Fin 3) (_ : Fin 2) => (i : ℚ)) = 0 := by
  simp [edgeDet, Matrix.det_fin_two]

end Verif.Props
