import Verif.Lemmas.Calculus2
/-!
# C63: derivatives of any order, gradient, Jacobian, Hessian and arrays of partial derivatives

`Represents p m f` says that `p` is a polynomial (in the monomial, Bernstein or Lagrange basis of the unit simplex) with function `f`, `RepresentsOn p v f`
the same for a polynomial in a basis on the simplex with vertices `v`. `IsPartial` and `IsDerivative` are in `Verif/Spec/Calculus.lean`.
-/

namespace Verif.Props
open Verif Verif.Poly Verif.Simplex Verif.Spec Verif.SPoly Verif.Calculus

variable {K V : Type} [NontriviallyNormedField K] [DecidableEq K] [CharZero K] [NormedAddCommGroup V] [NormedSpace K V] {m : ℕ}

/-- Polynomials on the unit simplex are polynomial functions with partial derivatives. -/
theorem good_unit : Good (K := K) (V := V) (m := m) (Obj.partialDerivative K) (fun p f => Represents p m f) Obj.basis Obj.r where
  poly _ _ h := h.isPoly
  pd _ _ h i := partialDerivative_rep h i

/-- Polynomials on a simplex are polynomial functions with partial derivatives. -/
theorem good_simplex (v : Vertices K m m) :
    Good (K := K) (V := V) (m := m) SObj.partialDerivative (fun p f => RepresentsOn p v f) (fun p => p.poly.basis) (fun p => p.poly.r) where
  poly _ _ h := repOn_isPoly h
  pd _ _ h i := partialDerivative_repOn h i

/-! ## `derivative` -/

/-- **C63** `derivative(p, α)` is the polynomial of degree `r - |α|` (0 if `|α| > r`), in the same basis, of the derivative `∂^α f`; the order in which
the partial derivatives are taken does not matter. -/
theorem C63_derivative {p : Obj V} {f : (Fin m → K) → V} (hp : Represents p m f) (α : Fin m → ℕ) :
    ∃ s g, Calculus.derivative (Obj.partialDerivative K) p.m p (List.ofFn α) = .ok s ∧ Represents s m g ∧ IsDerivative α f g ∧
      s.basis = p.basis ∧ s.r = p.r - ∑ i, α i := by
  rw [hp.dim]; exact derivative_spec good_unit hp α

theorem C63_derivative_simplex {p : SObj K V m} {v : Vertices K m m} {f : (Fin m → K) → V} (hp : RepresentsOn p v f) (α : Fin m → ℕ) :
    ∃ s g, Calculus.derivative SObj.partialDerivative m p (List.ofFn α) = .ok s ∧ RepresentsOn s v g ∧ IsDerivative α f g ∧
      s.poly.basis = p.poly.basis ∧ s.poly.r = p.poly.r - ∑ i, α i := derivative_spec (good_simplex v) hp α

/-- **C63** A multi-index of the wrong length is rejected. -/
theorem C63_derivative_length {O : Type} (pd : O → Nat → Py O) (m : ℕ) (p : O) (α : List ℕ) (h : α.length ≠ m) :
    Calculus.derivative pd m p α = .error .assertion := by
  unfold Calculus.derivative; rw [decide_eq_false h]; rfl

/-- The derivative of order `k` of a univariate polynomial as repeated derivative. -/
theorem derivativeInt_eq {O : Type} (pd : O → Nat → Py O) (p : O) (k : ℕ) :
    Calculus.derivativeInt pd 1 p k = Calculus.derivative pd 1 p (List.ofFn (fun _ : Fin 1 => k)) := by
  unfold Calculus.derivativeInt Calculus.derivative
  rw [decide_eq_true rfl, decide_eq_true (by simp), pyAssert_true, Py.bind_ok, Py.bind_ok]
  have : getE (List.ofFn fun _ : Fin 1 => k) 0 = .ok k := rfl
  simp only [List.length_ofFn, List.range_succ, List.range_zero, List.nil_append, List.foldlM_cons, List.foldlM_nil]
  rw [this, Py.bind_ok]
  cases repeatPd pd 0 k p <;> rfl

/-- **C63** An integer order is accepted for univariate polynomials only, where it is the ordinary derivative of this order. -/
theorem C63_derivative_int {p : Obj V} {f : (Fin 1 → K) → V} (hp : Represents p 1 f) (k : ℕ) :
    ∃ s g, Calculus.derivativeInt (Obj.partialDerivative K) p.m p k = .ok s ∧ Represents s 1 g ∧ IsDerivative (fun _ => k) f g ∧
      s.basis = p.basis ∧ s.r = p.r - k := by
  rw [hp.dim, derivativeInt_eq]
  obtain ⟨s, g, h1, h2, h3, h4, h5⟩ := derivative_spec good_unit hp (fun _ => k)
  exact ⟨s, g, h1, h2, h3, h4, by simpa using h5⟩

theorem C63_derivative_int_simplex {p : SObj K V 1} {v : Vertices K 1 1} {f : (Fin 1 → K) → V} (hp : RepresentsOn p v f) (k : ℕ) :
    ∃ s g, Calculus.derivativeInt SObj.partialDerivative 1 p k = .ok s ∧ RepresentsOn s v g ∧ IsDerivative (fun _ => k) f g ∧
      s.poly.basis = p.poly.basis ∧ s.poly.r = p.poly.r - k := by
  rw [derivativeInt_eq]
  obtain ⟨s, g, h1, h2, h3, h4, h5⟩ := derivative_spec (good_simplex v) hp (fun _ => k)
  exact ⟨s, g, h1, h2, h3, h4, by simpa using h5⟩

theorem C63_derivative_int_dimension {O : Type} (pd : O → Nat → Py O) (m : ℕ) (p : O) (k : ℕ) (h : m ≠ 1) :
    Calculus.derivativeInt pd m p k = .error .assertion := by
  unfold Calculus.derivativeInt; rw [decide_eq_false (fun h' => h h'.symm)]; rfl

/-! ## Gradient and Jacobian -/

/-- **C63** The gradient lists the partial derivatives. -/
theorem C63_gradient {p : Obj V} {f : (Fin m → K) → V} (hp : Represents p m f) :
    ∃ (q : Fin m → Obj V) (f' : Fin m → (Fin m → K) → V), gradient (Obj.partialDerivative K) p.m p = .ok (List.ofFn q) ∧
      ∀ i, Represents (q i) m (f' i) ∧ IsPartial i f (f' i) ∧ (q i).basis = p.basis ∧ (q i).r = p.r - 1 := by
  rw [hp.dim]; exact gradient_spec good_unit hp

theorem C63_gradient_simplex {p : SObj K V m} {v : Vertices K m m} {f : (Fin m → K) → V} (hp : RepresentsOn p v f) :
    ∃ (q : Fin m → SObj K V m) (f' : Fin m → (Fin m → K) → V), gradient SObj.partialDerivative m p = .ok (List.ofFn q) ∧
      ∀ i, RepresentsOn (q i) v (f' i) ∧ IsPartial i f (f' i) ∧ (q i).poly.basis = p.poly.basis ∧ (q i).poly.r = p.poly.r - 1 :=
  gradient_spec (good_simplex v) hp

/-- The component function of an object, with the index error of Python for other indices. -/
def compOf {n : ℕ} {O : Type} (c : Fin n → Py O) (i : ℕ) : Py O := if h : i < n then c ⟨i, h⟩ else .error .index

omit [DecidableEq K] [CharZero K] in
theorem jacobian_spec {n : ℕ} {O B : Type} {pd : O → Nat → Py O} {Rep : O → ((Fin m → K) → V) → Prop} {bas : O → B} {deg : O → Nat}
    (G : Good pd Rep bas deg) (c : Fin n → Py O) (s : Fin n → O) (f : Fin n → (Fin m → K) → V) (hc : ∀ j, c j = .ok (s j)) (hs : ∀ j, Rep (s j) (f j)) :
    ∃ (q : Fin n → Fin m → O) (f' : Fin n → Fin m → (Fin m → K) → V),
      jacobian pd m n (compOf c) = .ok (List.ofFn fun j => List.ofFn (q j)) ∧
      ∀ j i, Rep (q j i) (f' j i) ∧ IsPartial i (f j) (f' j i) ∧ bas (q j i) = bas (s j) ∧ deg (q j i) = deg (s j) - 1 := by
  choose q f' h using fun j => gradient_spec G (hs j)
  refine ⟨q, f', ?_, fun j => (h j).2⟩
  unfold jacobian
  rw [show List.range n = (List.finRange n).map (fun (i : Fin n) => (i : Nat)) by simp, List.mapM_map, List.ofFn_eq_map]
  refine mapM_eq_ok _ _ (fun j _ => ?_)
  have : compOf c (j : Nat) = .ok (s j) := by unfold compOf; rw [dif_pos j.2, hc]
  show (compOf c (j : Nat)).bind _ = _
  rw [this]
  exact (h j).1

/-- **C63** Entry `(j, i)` of the Jacobian is the partial derivative of component `j` with respect to coordinate `i`. -/
theorem C63_jacobian {n : ℕ} {p : Obj (Fin n → K)} {f : (Fin m → K) → (Fin n → K)} (hp : Represents p m f) :
    ∃ (q : Fin n → Fin m → Obj K) (f' : Fin n → Fin m → (Fin m → K) → K),
      jacobian (Obj.partialDerivative K) p.m n (compOf p.component) = .ok (List.ofFn fun j => List.ofFn (q j)) ∧
      ∀ j i, Represents (q j i) m (f' j i) ∧ IsPartial i (fun x => f x j) (f' j i) ∧ (q j i).basis = p.basis ∧ (q j i).r = p.r - 1 := by
  choose s a1 a2 a3 a4 using fun j => component_rep hp j
  obtain ⟨q, f', h1, h2⟩ := jacobian_spec (good_unit (K := K) (V := K) (m := m)) p.component s (fun j x => f x j) a1 a2
  exact ⟨q, f', by rw [hp.dim]; exact h1, fun j i => ⟨(h2 j i).1, (h2 j i).2.1, (h2 j i).2.2.1.trans (a3 j), by rw [(h2 j i).2.2.2, a4]⟩⟩

theorem C63_jacobian_simplex {n : ℕ} {p : SObj K (Fin n → K) m} {v : Vertices K m m} {f : (Fin m → K) → (Fin n → K)} (hp : RepresentsOn p v f) :
    ∃ (q : Fin n → Fin m → SObj K K m) (f' : Fin n → Fin m → (Fin m → K) → K),
      jacobian SObj.partialDerivative m n (compOf p.component) = .ok (List.ofFn fun j => List.ofFn (q j)) ∧
      ∀ j i, RepresentsOn (q j i) v (f' j i) ∧ IsPartial i (fun x => f x j) (f' j i) ∧ (q j i).poly.basis = p.poly.basis ∧
        (q j i).poly.r = p.poly.r - 1 := by
  choose s a1 a2 a3 a4 using fun j => component_repOn hp j
  obtain ⟨q, f', h1, h2⟩ := jacobian_spec (good_simplex v) p.component s (fun j x => f x j) a1 a2
  exact ⟨q, f', h1, fun j i => ⟨(h2 j i).1, (h2 j i).2.1, (h2 j i).2.2.1.trans (a3 j), by rw [(h2 j i).2.2.2, a4]⟩⟩

/-! ## Hessian -/

/-- **C63** Entry `(i, j)` of the Hessian is the second partial derivative with respect to the coordinates `i` and `j`. -/
theorem C63_hessian {p : Obj K} {f : (Fin m → K) → K} (hp : Represents p m f) :
    ∃ (q : Fin m → Fin m → Obj K) (g : Fin m → Fin m → (Fin m → K) → K),
      hessian (Obj.partialDerivative K) p.m 1 p = .ok (List.ofFn fun i => List.ofFn fun j => some (q i j)) ∧
      ∀ i j, Represents (q i j) m (g i j) ∧ IsIteratedPartial [i, j] f (g i j) ∧ g i j = g j i ∧ (q i j).basis = p.basis ∧ (q i j).r = p.r - 2 := by
  obtain ⟨q, g, h1, h2⟩ := hessian_spec good_unit hp
  refine ⟨q, g, by rw [hp.dim]; exact h1, fun i j => ⟨(h2 i j).1, (h2 i j).2.1 _ (count_pair i j), ?_, (h2 i j).2.2⟩⟩
  exact isIteratedPartial_unique [i, j] ((h2 i j).2.1 _ (count_pair i j)) ((h2 j i).2.1 _ (fun k => by rw [add_comm]; exact count_pair i j k))

theorem C63_hessian_simplex {p : SObj K K m} {v : Vertices K m m} {f : (Fin m → K) → K} (hp : RepresentsOn p v f) :
    ∃ (q : Fin m → Fin m → SObj K K m) (g : Fin m → Fin m → (Fin m → K) → K),
      hessian SObj.partialDerivative m 1 p = .ok (List.ofFn fun i => List.ofFn fun j => some (q i j)) ∧
      ∀ i j, RepresentsOn (q i j) v (g i j) ∧ IsIteratedPartial [i, j] f (g i j) ∧ g i j = g j i ∧ (q i j).poly.basis = p.poly.basis ∧
        (q i j).poly.r = p.poly.r - 2 := by
  obtain ⟨q, g, h1, h2⟩ := hessian_spec (good_simplex v) hp
  refine ⟨q, g, h1, fun i j => ⟨(h2 i j).1, (h2 i j).2.1 _ (count_pair i j), ?_, (h2 i j).2.2⟩⟩
  exact isIteratedPartial_unique [i, j] ((h2 i j).2.1 _ (count_pair i j)) ((h2 j i).2.1 _ (fun k => by rw [add_comm]; exact count_pair i j k))

/-- **C63** Vector valued polynomials have no Hessian and no array of partial derivatives. -/
theorem C63_vector_valued {O : Type} (pd : O → Nat → Py O) (m n r : ℕ) (p : O) (h : n ≠ 1) :
    hessian pd m n p = .error .assertion ∧ partialDerivativesArray pd m n r p = .error .assertion := by
  unfold hessian partialDerivativesArray; rw [decide_eq_false h]; exact ⟨rfl, rfl⟩

/-! ## Arrays of partial derivatives -/

/-- **C63** The entry with index `(i₁, …, iᵣ)` of the array is the polynomial of the partial derivative with respect to the coordinates `i₁, …, iᵣ`; all
entries are set. -/
theorem C63_array (hm : 0 < m) {p : Obj K} {f : (Fin m → K) → K} (hp : Represents p m f) (r : ℕ) :
    ∃ d, partialDerivativesArray (Obj.partialDerivative K) p.m 1 r p = .ok d ∧ ∀ idx : List (Fin m), idx.length = r →
      ∃ q g, d (idx.map (fun (i : Fin m) => (i : Nat))) = some q ∧ Represents q m g ∧ IsIteratedPartial idx f g ∧ q.basis = p.basis ∧ q.r = p.r - r := by
  obtain ⟨d, h1, h2⟩ := array_spec good_unit hm hp r
  refine ⟨d, by rw [hp.dim]; exact h1, fun idx hidx => ?_⟩
  obtain ⟨q, g, a1, a2, a3, a4⟩ := h2 idx hidx
  exact ⟨q, g, a1, a2, a3 idx (fun _ => rfl), a4⟩

theorem C63_array_simplex (hm : 0 < m) {p : SObj K K m} {v : Vertices K m m} {f : (Fin m → K) → K} (hp : RepresentsOn p v f) (r : ℕ) :
    ∃ d, partialDerivativesArray SObj.partialDerivative m 1 r p = .ok d ∧ ∀ idx : List (Fin m), idx.length = r →
      ∃ q g, d (idx.map (fun (i : Fin m) => (i : Nat))) = some q ∧ RepresentsOn q v g ∧ IsIteratedPartial idx f g ∧ q.poly.basis = p.poly.basis ∧
        q.poly.r = p.poly.r - r := by
  obtain ⟨d, h1, h2⟩ := array_spec (good_simplex v) hm hp r
  refine ⟨d, h1, fun idx hidx => ?_⟩
  obtain ⟨q, g, a1, a2, a3, a4⟩ := h2 idx hidx
  exact ⟨q, g, a1, a2, a3 idx (fun _ => rfl), a4⟩

/-! ## Examples -/

/-- The quadratic polynomial `1 + 2 x + 3 x² + 4 y + 5 x y + 6 y²` and its mixed derivative. -/
example : ∃ (p : Obj ℝ) (f : (Fin 2 → ℝ) → ℝ), Represents p 2 f ∧ p.r = 2 ∧
    ∃ s g, Calculus.derivative (Obj.partialDerivative ℝ) p.m p (List.ofFn ![1, 1]) = .ok s ∧ Represents s 2 g ∧ IsDerivative ![1, 1] f g ∧ s.r = 0 := by
  classical
  have h := rep_mk (K := ℝ) .monomial 2 2 (fun ν => ((ν.getD 0 0 : ℕ) : ℝ)) (Or.inr (by norm_num))
  obtain ⟨s, g, h1, h2, h3, -, h5⟩ := C63_derivative h ![1, 1]
  exact ⟨_, _, h, rfl, s, g, h1, h2, h3, h5.trans (by simp [mkObj])⟩

end Verif.Props
