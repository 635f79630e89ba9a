import Verif.Lemmas.PolyRepPow
import Verif.Spec.PolyHeap
/-!
# Lemmas: polynomial objects in a heap refine polynomials as values
-/

namespace Verif.PolyHeap
open Verif Verif.Poly Verif.MI Verif.Spec Verif.Spec.PolyValues

variable {K V : Type} [Field K] [DecidableEq K] [AddCommGroup V] [Module K V]

/-! ## Operations return valid polynomials -/

/-- If the computation returns a polynomial then it is valid. -/
def Yields (x : Py (Obj V)) : Prop := ∀ p, x = .ok p → p.Valid

theorem Yields.new (b : Basis) (c : List V) (r : Option Nat) (m : Nat) : Yields (Obj.new b c r m) := by
  intro p h
  have h' := h
  unfold Obj.new at h
  by_cases h0 : c.length > 0
  · simp only [h0, decide_true, pyAssert_true, Py.bind_ok] at h
    cases r with
    | none =>
      simp only at h
      rcases hd : getDegreeFromDimension c.length m with e | d
      · simp [hd] at h
      · rw [hd] at h
        simp only [Py.bind_ok, Py.pure_eq, Except.ok.injEq] at h
        subst h
        obtain ⟨h1, h2⟩ := degree_lt hd
        exact (valid_iff _).2 ⟨h2.symm, Or.inr (Nat.le_of_lt_succ h1)⟩
    | some r =>
      simp only at h
      have hp : p = ⟨b, c, r, m⟩ := by
        by_cases hm : m > 0
        · simp only [hm, ↓reduceIte] at h
          rcases hd : getDegreeFromDimension c.length m with e | d
          · simp [hd] at h
          · rw [hd] at h
            by_cases hr : r = d
            · simp only [hr, decide_true, pyAssert_true, Py.bind_ok, Py.pure_eq, Except.ok.injEq] at h
              rw [hr]; exact h.symm
            · simp [hr] at h
        · simp only [hm, ↓reduceIte] at h
          by_cases hc : c.length = 1
          · simp only [hc, decide_true, pyAssert_true, Py.bind_ok, Py.pure_eq, Except.ok.injEq] at h
            exact h.symm
          · simp [hc] at h
      subst hp
      exact h'
  · simp only [h0, decide_false, pyAssert_false, Py.bind_error] at h; cases h

omit [AddCommGroup V] in
theorem new_shape {b : Basis} {c : List V} {r m : Nat} {p : Obj V} (h : Obj.new b c (some r) m = .ok p) : p = ⟨b, c, r, m⟩ := by
  unfold Obj.new at h
  by_cases h0 : c.length > 0
  · simp only [h0, decide_true, pyAssert_true, Py.bind_ok] at h
    by_cases hm : m > 0
    · simp only [hm, ↓reduceIte] at h
      rcases hd : getDegreeFromDimension c.length m with e | d
      · simp [hd] at h
      · rw [hd] at h
        by_cases hr : r = d
        · simp only [hr, decide_true, pyAssert_true, Py.bind_ok, Py.pure_eq, Except.ok.injEq] at h
          rw [hr]; exact h.symm
        · simp [hr] at h
    · simp only [hm, ↓reduceIte] at h
      by_cases hc : c.length = 1
      · simp only [hc, decide_true, pyAssert_true, Py.bind_ok, Py.pure_eq, Except.ok.injEq] at h
        exact h.symm
      · simp [hc] at h
  · simp only [h0, decide_false, pyAssert_false, Py.bind_error] at h; cases h

omit [AddCommGroup V] in
theorem Yields.bind {α : Type} {x : Py α} {f : α → Py (Obj V)} (h : ∀ a, Yields (f a)) : Yields (x >>= f) := by
  intro p hp
  cases x with
  | error e => cases hp
  | ok a => exact h a p hp

omit [AddCommGroup V] in
theorem Yields.bind' {α : Type} {x : Py α} {f : α → Py (Obj V)} (h : ∀ a, x = .ok a → Yields (f a)) : Yields (x >>= f) := by
  intro p hp
  cases x with
  | error e => cases hp
  | ok a => exact h a rfl p hp

omit [AddCommGroup V] in
theorem Yields.error (e : PyErr) : Yields (.error e : Py (Obj V)) := by intro p h; cases h

omit [AddCommGroup V] in
theorem Yields.ok {p : Obj V} (h : p.Valid) : Yields (.ok p) := by intro q hq; cases hq; exact h

/-- Go through the branches of a computation that ends in a constructor. -/
macro "yields" : tactic =>
  `(tactic| repeat' (first | exact Yields.new _ _ _ _ | exact Yields.error _ | assumption | (refine Yields.bind (fun _ => ?_)) | split | dsimp only))

theorem yields_zero (b : Basis) (r m : Nat) : Yields (zeroPolynomial b V r m) := by unfold zeroPolynomial; yields

theorem yields_elevate (p : Obj V) (s : Nat) : Yields (p.degreeElevate K s) := by
  unfold Obj.degreeElevate degreeElevateMonomial degreeElevateBernstein degreeElevateLagrange
  yields

theorem yields_combine (op : V → V → V) (p q : Obj V) : Yields (combine K op p q) := by
  unfold combine combineSame
  yields

theorem yields_mul (p q : Obj K) : Yields (p.mul q) := by
  unfold Obj.mul mulMonomial mulBernstein mulLagrange
  yields

theorem yields_powNat (p : Obj K) (k : Nat) : Yields (p.powNat k) := by
  match k with
  | 0 => unfold Obj.powNat unitOf unitPolynomialMonomial unitPolynomialOnes; yields
  | 1 => unfold Obj.powNat; yields
  | k + 2 => unfold Obj.powNat; exact Yields.bind (fun _ => yields_mul _ _)

theorem yields_powMultiLoop {n : Nat} (p : Obj (Fin n → K)) : ∀ (l : List (Fin n × Nat)) (acc : Obj K), acc.Valid → Yields (powMultiLoop p l acc)
  | [], acc, h => by unfold powMultiLoop; exact Yields.ok h
  | (i, e) :: l, acc, h => by
    unfold powMultiLoop
    refine Yields.bind (fun _ => Yields.bind (fun _ => Yields.bind' (fun a ha => ?_)))
    exact yields_powMultiLoop p l a (yields_mul _ _ a ha)

theorem yields_powMulti {n : Nat} (p : Obj (Fin n → K)) (exp : List Nat) : Yields (p.powMulti exp) := by
  unfold Obj.powMulti
  split
  · unfold powMultiMonomial
    refine Yields.bind (fun _ => Yields.bind' (fun a ha => yields_powMultiLoop p _ a ?_))
    have : Yields (monomialBasisFn K (MI.zero p.m)) := by unfold monomialBasisFn; yields
    exact this a ha
  · unfold powMultiBernstein powMultiBernsteinAux
    refine Yields.bind (fun _ => ?_)
    split
    · exact Yields.new _ _ _ _
    · split
      · exact Yields.error _
      · refine Yields.bind (fun _ => Yields.bind (fun _ => Yields.bind (fun _ => Yields.bind (fun _ => ?_))))
        unfold mulBernstein; yields
  · unfold powMultiLagrange; yields

theorem yields_sumScaled : ∀ (l : List (V × Obj K)) (acc : Obj V), acc.Valid → Yields (sumScaled K l acc)
  | [], acc, h => by unfold sumScaled; exact Yields.ok h
  | (a, b) :: l, acc, h => by
    unfold sumScaled
    refine Yields.bind (fun _ => Yields.bind' (fun s hs => ?_))
    exact yields_sumScaled l s (yields_combine _ _ _ s hs)

theorem yields_toMonomial (p : Obj V) (hp : p.Valid) : Yields (p.toMonomialBasis K) := by
  unfold Obj.toMonomialBasis
  split
  · exact Yields.ok hp
  all_goals
    refine Yields.bind (fun _ => Yields.bind' (fun z hz => yields_sumScaled _ z ?_))
    exact yields_zero _ _ _ z hz

theorem yields_derivative (p : Obj V) (i : Nat) : Yields (p.partialDerivative K i) := by
  unfold Obj.partialDerivative partialDerivativeMonomial partialDerivativeBernstein partialDerivativeLagrange zeroPolynomial
  yields

/-! ## The class attribute -/

/-- The entries of the class attribute are what `lagrange_basis_monomial` returns. -/
def MemoOK (memo : Memo K) : Prop := ∀ m r l, memo.lookup (m, r) = some l → lagrangeBasisMonomial K r m = .ok l

/-- There is an entry for the degree and dimension of the polynomial. -/
def Covered (memo : Memo K) (p : Obj V) : Prop := p.basis = .lagrange → ∃ l, memo.lookup (p.m, p.r) = some l

/-- Entries remain. -/
def Grows (memo memo' : Memo K) : Prop := ∀ k l, memo.lookup k = some l → memo'.lookup k = some l

omit [Field K] [DecidableEq K] in
theorem Grows.refl (memo : Memo K) : Grows memo memo := fun _ _ h => h

omit [Field K] [DecidableEq K] [AddCommGroup V] [Module K V] in
theorem Covered.mono {memo memo' : Memo K} {p : Obj V} (h : Covered memo p) (g : Grows memo memo') : Covered memo' p := by
  intro hb
  obtain ⟨l, hl⟩ := h hb
  exact ⟨l, g _ _ hl⟩

theorem lookup_append {α β : Type} [BEq α] (l l' : List (α × β)) (k : α) : (l ++ l').lookup k = (l.lookup k).or (l'.lookup k) := by
  induction l with
  | nil => simp
  | cons e l ih =>
    obtain ⟨a, b⟩ := e
    simp only [List.cons_append, List.lookup_cons]
    cases h : k == a
    · simpa using ih
    · simp

theorem ensure_ok [CharZero K] {memo : Memo K} (hm : MemoOK memo) {m r : Nat} (hf : Fits r m) :
    ∃ memo', memo.ensure m r = .ok memo' ∧ MemoOK memo' ∧ Grows memo memo' ∧ ∃ l, memo'.lookup (m, r) = some l := by
  unfold Memo.ensure
  cases hl : memo.lookup (m, r) with
  | some l => exact ⟨memo, rfl, hm, Grows.refl _, l, hl⟩
  | none =>
    obtain ⟨l, h1⟩ : ∃ l, lagrangeBasisMonomial K r m = .ok l := by
      refine ⟨(mis m r).map (fun ν => mkObj .monomial m r (lagCoeff K m r ν)), ?_⟩
      unfold lagrangeBasisMonomial
      rw [generateAll_eq_mis]
      exact mapM_eq_ok _ _ (fun ν hν => lagrangeBasisFnMonomial_eq ν r m (mem_mis.1 hν).1 (mem_mis.1 hν).2 hf)
    refine ⟨memo ++ [((m, r), l)], by simp [h1], ?_, ?_, l, ?_⟩
    · intro m' r' l' h
      rw [lookup_append] at h
      cases hl' : memo.lookup (m', r') with
      | some l'' => rw [hl'] at h; exact hm _ _ _ (hl'.trans (by simpa using h))
      | none =>
        rw [hl'] at h
        simp only [Option.none_or, List.lookup_cons, List.lookup_nil] at h
        split at h
        · rename_i he
          have := eq_of_beq he
          cases this; cases h; exact h1
        · cases h
    · intro k l' h
      rw [lookup_append, h]; rfl
    · rw [lookup_append, hl]
      simp

theorem toMonomial_eq {memo : Memo K} (hm : MemoOK memo) {p : Obj V} (hc : Covered memo p) : toMonomial memo p = p.toMonomialBasis K := by
  unfold toMonomial
  split
  · rename_i hb
    obtain ⟨l, hl⟩ := hc hb
    unfold Obj.toMonomialBasis
    rw [hb, hl, hm _ _ _ hl]
    rfl
  · rfl

theorem derivative_eq {memo : Memo K} (hm : MemoOK memo) {p : Obj V} (hc : Covered memo p) (i : Nat) :
    derivative memo p i = p.partialDerivative K i := by
  unfold derivative Obj.partialDerivative
  cases hb : p.basis with
  | monomial => rfl
  | bernstein => rfl
  | lagrange =>
    simp only
    unfold partialDerivativeLagrange
    rw [toMonomial_eq hm hc]

/-! ## Methods of an object that is as it was made -/

theorem elevate_ofObj (p : Obj V) (s : Nat) : (View.ofObj p).elevate K s = p.degreeElevate K s := by
  unfold View.elevate Obj.degreeElevate View.ofObj
  cases hb : p.basis with
  | monomial => simp only [hb]
  | bernstein => simp only [hb]
  | lagrange => simp only [hb, ite_self]

theorem combine_ofObj (op : V → V → V) (p q : Obj V) : (View.ofObj p).combine K op (View.ofObj q) = combine K op p q := by
  unfold View.combine combine
  rw [elevate_ofObj, elevate_ofObj]
  rfl

theorem mul_ofObj (p q : Obj K) : (View.ofObj p).mul (View.ofObj q) = p.mul q := rfl

theorem powNat_ofObj (p : Obj K) (k : Nat) : (View.ofObj p).powNat k = p.powNat k := by
  match k with
  | 0 => rfl
  | 1 => rfl
  | k + 2 =>
    unfold View.powNat Obj.powNat
    rw [powNat_ofObj p (k + 1)]
    rfl

theorem powMulti_ofObj {n : Nat} (p : Obj (Fin n → K)) (exp : List Nat) : (View.ofObj p).powMulti exp = p.powMulti exp := rfl

/-! ## Separation -/

/-- The arrays of the program and of the polynomials are all different. -/
structure Sep (h : Mem V) : Prop where
  nodup : (h.arrays ++ h.polys.map Ref.cell).Nodup
  lt : ∀ k ∈ h.arrays ++ h.polys.map Ref.cell, k < h.cells.length

omit [AddCommGroup V] in
theorem Sep.empty : Sep (⟨[], [], []⟩ : Mem V) := ⟨by simp, by simp⟩

omit [AddCommGroup V] in
theorem Sep.addArray {h : Mem V} (s : Sep h) (xs : List V) :
    Sep { h with cells := h.cells ++ [xs], arrays := h.arrays ++ [h.cells.length] } := by
  have hlt := s.lt
  have hnd := s.nodup
  constructor
  · simp only [List.append_assoc]
    rw [List.nodup_append] at hnd ⊢
    refine ⟨hnd.1, ?_, ?_⟩
    · simp only [List.cons_append, List.nil_append, List.nodup_cons]
      exact ⟨fun hk => absurd (hlt _ (List.mem_append_right _ hk)) (lt_irrefl _), hnd.2.1⟩
    · intro a ha b hb
      simp only [List.cons_append, List.nil_append, List.mem_cons] at hb
      rcases hb with rfl | hb
      · exact fun e => absurd (hlt _ (List.mem_append_left _ ha)) (by rw [e]; exact lt_irrefl _)
      · exact hnd.2.2 a ha b hb
  · intro k hk
    simp only [List.mem_append, List.mem_singleton, List.length_append, List.length_singleton] at hk ⊢
    rcases hk with (hk | hk) | hk
    · exact Nat.lt_succ_of_lt (hlt _ (List.mem_append_left _ hk))
    · omega
    · exact Nat.lt_succ_of_lt (hlt _ (List.mem_append_right _ hk))

omit [AddCommGroup V] in
theorem Sep.addPoly {h : Mem V} (s : Sep h) (xs : List V) {p : Ref V} (hp : p.cell = h.cells.length) :
    Sep { h with cells := h.cells ++ [xs], polys := h.polys ++ [p] } := by
  have hlt := s.lt
  have hnd := s.nodup
  constructor
  · simp only [List.map_append, List.map_cons, List.map_nil, hp]
    rw [← List.append_assoc, List.nodup_append]
    refine ⟨hnd, by simp, ?_⟩
    intro a ha b hb
    rw [List.mem_singleton] at hb
    subst hb
    exact fun e => absurd (hlt _ ha) (by rw [e]; exact lt_irrefl _)
  · intro k hk
    simp only [List.map_append, List.map_cons, List.map_nil, hp, ← List.append_assoc] at hk
    rw [List.mem_append, List.mem_singleton] at hk
    simp only [List.length_append, List.length_singleton]
    rcases hk with hk | hk
    · exact Nat.lt_succ_of_lt (hlt _ hk)
    · omega

omit [AddCommGroup V] in
theorem Sep.setCell {h : Mem V} (s : Sep h) (k : Nat) (xs : List V) : Sep { h with cells := h.cells.set k xs } := by
  refine ⟨s.nodup, ?_⟩
  intro j hj
  simpa using s.lt j hj

omit [AddCommGroup V] [Module K V] in
theorem Sep.make {h : Mem V} (s : Sep h) (memo : Memo K) (p : Obj V) : Sep (h.make memo p).1 := by
  unfold Mem.make
  split
  · exact s
  · exact s.addPoly _ rfl

omit [AddCommGroup V] [Module K V] in
theorem Sep.result {h : Mem V} (s : Sep h) (memo : Memo K) (p : Py (Obj V)) : Sep (h.result memo p).1 := by
  unfold Mem.result
  split
  · exact s
  · exact s.make _ _

omit [Field K] [DecidableEq K] [AddCommGroup V] [Module K V] in
theorem Sep.copyPoly {h : Mem V} (s : Sep h) (memo : Memo K) (a : Nat) : Sep (h.copyPoly memo a).1 := by
  unfold Mem.copyPoly
  split
  · exact s.addPoly _ rfl
  · exact s
  · exact s

omit [Field K] [DecidableEq K] [AddCommGroup V] [Module K V] in
theorem Sep.assign {h : Mem V} (s : Sep h) (memo : Memo K) (k : Option Nat) (i : Nat) (v : V) : Sep (h.assign memo k i v).1 := by
  unfold Mem.assign
  split
  · exact s
  · split
    · exact s
    · split
      · exact s
      · exact s.setCell _ _

theorem Sep.step {h : Mem V} (s : Sep h) (memo : Memo K) (op : UOp K V) : Sep (h.step memo op).1 := by
  cases op with
  | array xs => exact s.addArray xs
  | write l i v => exact s.assign _ _ _ _
  | read l => exact s
  | new => exact s.result _ _
  | newList => exact s.result _ _
  | copy a => exact s.copyPoly _ _
  | add => exact s.result _ _
  | sub => exact s.result _ _
  | scale => exact s.result _ _
  | div => exact s.result _ _
  | derivative => exact s.result _ _
  | elevate => exact s.result _ _
  | toMonomial a =>
    simp only [Mem.step]
    split
    · exact s
    · split
      · exact s.copyPoly _ _
      · exact s.result _ _
  | call => exact s
  | coeff => exact s
  | coeffWrite => exact s.assign _ _ _ _

/-! ## Refinement -/

/-- The two lists correspond entry by entry. -/
def Matches {α β : Type} (R : α → β → Prop) (l : List α) (l' : List β) : Prop :=
  ∀ i : Nat, (l[i]? = none ∧ l'[i]? = none) ∨ ∃ a b, l[i]? = some a ∧ l'[i]? = some b ∧ R a b

theorem Matches.length {α β : Type} {R : α → β → Prop} {l : List α} {l' : List β} (h : Matches R l l') : l.length = l'.length := by
  rcases lt_trichotomy l.length l'.length with hl | hl | hl
  · rcases h l.length with ⟨_, h2⟩ | ⟨a, b, h1, _⟩
    · rw [List.getElem?_eq_none_iff] at h2; omega
    · simp at h1
  · exact hl
  · rcases h l'.length with ⟨h1, _⟩ | ⟨a, b, _, h2, _⟩
    · rw [List.getElem?_eq_none_iff] at h1; omega
    · simp at h2

theorem Matches.imp {α β : Type} {R S : α → β → Prop} {l : List α} {l' : List β} (h : Matches R l l')
    (hi : ∀ a ∈ l, ∀ b, R a b → S a b) : Matches S l l' := by
  intro i
  rcases h i with h1 | ⟨a, b, h1, h2, h3⟩
  · exact Or.inl h1
  · exact Or.inr ⟨a, b, h1, h2, hi a (List.mem_of_getElem? h1) b h3⟩

theorem Matches.append {α β : Type} {R : α → β → Prop} {l : List α} {l' : List β} (h : Matches R l l') {a : α} {b : β} (hab : R a b) :
    Matches R (l ++ [a]) (l' ++ [b]) := by
  intro i
  have hl := h.length
  rcases lt_trichotomy i l.length with hi | hi | hi
  · rw [List.getElem?_append_left hi, List.getElem?_append_left (hl ▸ hi)]
    exact h i
  · refine Or.inr ⟨a, b, ?_, ?_, hab⟩
    · rw [List.getElem?_append_right (by omega)]; simp [hi]
    · rw [List.getElem?_append_right (by omega)]; simp [hi, hl]
  · refine Or.inl ⟨?_, ?_⟩ <;> rw [List.getElem?_eq_none_iff] <;> simp <;> omega

/-- The memory represents the values: every array has its content, and every object has the coefficients of its value both in its array and in its
compiled function. -/
structure Rel (memo : Memo K) (h : Mem V) (s : Values V) : Prop where
  sep : Sep h
  arrays : Matches (fun k xs => h.cells[k]? = some xs) h.arrays s.arrays
  polys : Matches (fun (p : Ref V) (o : Obj V) => h.cells[p.cell]? = some o.coeff ∧ p = ⟨o.basis, p.cell, o.r, o.m, o.coeff⟩) h.polys s.polys
  valid : ∀ o ∈ s.polys, o.Valid
  covered : ∀ o ∈ s.polys, Covered memo o

omit [Field K] [DecidableEq K] [AddCommGroup V] [Module K V] in
theorem Rel.mono {memo memo' : Memo K} {h : Mem V} {s : Values V} (r : Rel memo h s) (g : Grows memo memo') : Rel memo' h s :=
  ⟨r.sep, r.arrays, r.polys, r.valid, fun o ho => (r.covered o ho).mono g⟩

omit [Field K] [DecidableEq K] [AddCommGroup V] [Module K V] in
theorem Rel.view {memo : Memo K} {h : Mem V} {s : Values V} (r : Rel memo h s) (a : Nat) :
    h.view a = (s.get a).map View.ofObj := by
  unfold Mem.view Values.get
  rcases r.polys a with ⟨h1, h2⟩ | ⟨p, o, h1, h2, h3, h4⟩
  · rw [h1, h2]; rfl
  · rw [h1, h2]
    simp only [h3]
    rw [h4]
    rfl

omit [Field K] [DecidableEq K] [AddCommGroup V] [Module K V] in
theorem Rel.cell {memo : Memo K} {h : Mem V} {s : Values V} (r : Rel memo h s) (l : Nat) : h.cell l = s.array l := by
  unfold Mem.cell Values.array
  rcases r.arrays l with ⟨h1, h2⟩ | ⟨k, xs, h1, h2, h3⟩
  · rw [h1, h2]
  · rw [h1, h2]
    simp only [h3]

theorem get_append_some {α : Type} {l : List α} {i : Nat} {a : α} (h : l[i]? = some a) (b : List α) : (l ++ b)[i]? = some a := by
  rw [List.getElem?_append_left ((List.getElem?_eq_some_iff.1 h).1)]; exact h

omit [Field K] [DecidableEq K] [AddCommGroup V] [Module K V] in
theorem Rel.addArray {memo : Memo K} {h : Mem V} {s : Values V} (r : Rel memo h s) (xs : List V) :
    Rel memo { h with cells := h.cells ++ [xs], arrays := h.arrays ++ [h.cells.length] } { s with arrays := s.arrays ++ [xs] } := by
  refine ⟨r.sep.addArray xs, ?_, ?_, r.valid, r.covered⟩
  · refine (r.arrays.imp (fun k _ ys hk => ?_)).append ?_
    · exact get_append_some hk _
    · simp
  · exact r.polys.imp (fun p _ o hp => ⟨get_append_some hp.1 _, hp.2⟩)

omit [Field K] [DecidableEq K] [AddCommGroup V] [Module K V] in
theorem Rel.addPoly {memo : Memo K} {h : Mem V} {s : Values V} (r : Rel memo h s) {o : Obj V} (hv : o.Valid) (hc : Covered memo o) :
    Rel memo { h with cells := h.cells ++ [o.coeff], polys := h.polys ++ [⟨o.basis, h.cells.length, o.r, o.m, o.coeff⟩] }
      { s with polys := s.polys ++ [o] } := by
  refine ⟨r.sep.addPoly _ rfl, ?_, ?_, ?_, ?_⟩
  · exact r.arrays.imp (fun k _ ys hk => get_append_some hk _)
  · refine (r.polys.imp (fun p _ o hp => ⟨get_append_some hp.1 _, hp.2⟩)).append ?_
    simp
  · intro q hq
    rcases List.mem_append.1 hq with hq | hq
    · exact r.valid q hq
    · rw [List.mem_singleton.1 hq]; exact hv
  · intro q hq
    rcases List.mem_append.1 hq with hq | hq
    · exact r.covered q hq
    · rw [List.mem_singleton.1 hq]; exact hc

/-- One step of the memory does what the step of the values does. -/
structure Sim (memo : Memo K) (t : Mem V × Memo K × Py (Out V)) (u : Values V × Py (Out V)) : Prop where
  rel : Rel t.2.1 t.1 u.1
  memoOK : MemoOK t.2.1
  grows : Grows memo t.2.1
  out : t.2.2 = u.2

omit [AddCommGroup V] [Module K V] in
theorem Sim.same {memo : Memo K} (hm : MemoOK memo) {h : Mem V} {s : Values V} (r : Rel memo h s) {x y : Py (Out V)} (hxy : x = y) :
    Sim memo (h, memo, x) (s, y) := ⟨r, hm, Grows.refl _, hxy⟩

omit [Module K V] in
theorem sim_result [CharZero K] {memo : Memo K} (hm : MemoOK memo) {h : Mem V} {s : Values V} (r : Rel memo h s) {x y : Py (Obj V)}
    (hxy : x = y) (hy : Yields y) : Sim memo (h.result memo x) (s.add y) := by
  subst hxy
  cases x with
  | error e => exact Sim.same hm r rfl
  | ok o =>
    have hv := hy o rfl
    simp only [Mem.result, Mem.make, Values.add]
    by_cases hb : o.basis = .lagrange
    · obtain ⟨memo', h1, h2, h3, h4⟩ := ensure_ok hm hv.fits
      rw [if_pos hb, h1]
      exact ⟨(r.mono h3).addPoly hv (fun _ => h4), h2, h3, rfl⟩
    · rw [if_neg hb]
      exact ⟨r.addPoly hv (fun hb' => absurd hb' hb), hm, Grows.refl _, rfl⟩

omit [Field K] [DecidableEq K] [AddCommGroup V] [Module K V] in
theorem bind_view {memo : Memo K} {h : Mem V} {s : Values V} (r : Rel memo h s) (a : Nat) {α : Type} (f : View V → Py α) (g : Obj V → Py α)
    (hfg : ∀ o, s.get a = .ok o → f (.ofObj o) = g o) : (h.view a >>= f) = (s.get a >>= g) := by
  rw [r.view]
  cases hg : s.get a with
  | error e => rfl
  | ok o => exact hfg o hg

omit [AddCommGroup V] in
theorem mem_of_get {s : Values V} {a : Nat} {o : Obj V} (h : s.get a = .ok o) : o ∈ s.polys := by
  unfold Values.get at h
  split at h
  · cases h
  · rename_i hp
    cases h
    exact List.mem_of_getElem? hp

omit [AddCommGroup V] [Module K V] in
theorem sim_copy {memo : Memo K} (hm : MemoOK memo) {h : Mem V} {s : Values V} (r : Rel memo h s) (a : Nat) :
    Sim memo (h.copyPoly memo a) (s.add (s.get a)) := by
  have hv := r.view a
  unfold Mem.copyPoly
  rcases r.polys a with ⟨h1, h2⟩ | ⟨p, o, h1, h2, h3, h4⟩
  · have hg : s.get a = .error .runtime := by unfold Values.get; rw [h2]
    rw [hg] at hv ⊢
    rw [h1, hv]
    exact Sim.same hm r rfl
  · have hg : s.get a = .ok o := by unfold Values.get; rw [h2]
    rw [hg] at hv ⊢
    rw [h1, hv, h4]
    exact ⟨r.addPoly (r.valid o (mem_of_get hg)) (r.covered o (mem_of_get hg)), hm, Grows.refl _, rfl⟩

omit [AddCommGroup V] [Module K V] in
theorem sim_write {memo : Memo K} (hm : MemoOK memo) {h : Mem V} {s : Values V} (r : Rel memo h s) (l i : Nat) (v : V) :
    Sim memo (h.assign memo h.arrays[l]? i v) (s.assign l i v) := by
  unfold Mem.assign Values.assign Values.array
  rcases r.arrays l with ⟨h1, h2⟩ | ⟨k, xs, h1, h2, h3⟩
  · rw [h1, h2]
    exact Sim.same hm r rfl
  · rw [h1, h2]
    simp only [h3, Py.bind_ok]
    cases hs : setE xs i v with
    | error e => exact Sim.same hm r rfl
    | ok xs' =>
      have hk : k < h.cells.length := (List.getElem?_eq_some_iff.1 h3).1
      have hnd := r.sep.nodup
      refine ⟨⟨r.sep.setCell _ _, ?_, ?_, r.valid, r.covered⟩, hm, Grows.refl _, rfl⟩
      · intro j
        rcases r.arrays j with ⟨g1, g2⟩ | ⟨k', ys, g1, g2, g3⟩
        · exact Or.inl ⟨g1, by simpa using g2⟩
        · by_cases hj : j = l
          · subst hj
            rw [h1] at g1; cases g1
            refine Or.inr ⟨k, xs', h1, ?_, ?_⟩
            · rw [List.getElem?_set_self (List.getElem?_eq_some_iff.1 h2).1]
            · simp only
              rw [List.getElem?_set_self hk]
          · refine Or.inr ⟨k', ys, g1, ?_, ?_⟩
            · rw [List.getElem?_set_ne (Ne.symm hj)]; exact g2
            · have hne : k ≠ k' := by
                intro he
                subst he
                have h1' := (List.getElem?_eq_some_iff.1 h1)
                have g1' := (List.getElem?_eq_some_iff.1 g1)
                obtain ⟨hl, hl'⟩ := h1'
                obtain ⟨gl, gl'⟩ := g1'
                exact hj (((List.nodup_append.1 hnd).1.getElem_inj_iff).1 (gl'.trans hl'.symm))
              simp only
              rw [List.getElem?_set_ne hne]; exact g3
      · refine r.polys.imp (fun p hp o ho => ⟨?_, ho.2⟩)
        have hne : k ≠ p.cell :=
          (List.nodup_append.1 hnd).2.2 k (List.mem_of_getElem? h1) p.cell (List.mem_map_of_mem hp)
        simp only
        rw [List.getElem?_set_ne hne]; exact ho.1

/-- The program assigns to the coefficients of an object. -/
def _root_.Verif.PolyHeap.UOp.writesCoeff : UOp K V → Bool
  | .coeffWrite .. => true
  | _ => false

theorem sim_step [CharZero K] {memo : Memo K} (hm : MemoOK memo) {h : Mem V} {s : Values V} (r : Rel memo h s) (op : UOp K V)
    (hop : op.writesCoeff = false) : Sim memo (h.step memo op) (s.step op) := by
  cases op with
  | array xs => exact ⟨r.addArray xs, hm, Grows.refl _, rfl⟩
  | write l i v => exact sim_write hm r l i v
  | read l => exact Sim.same hm r (by rw [r.cell])
  | new basis l r' m =>
    refine sim_result hm r ?_ (Yields.bind (fun _ => Yields.new _ _ _ _))
    rw [r.cell]
  | newList basis xs r' m => exact sim_result hm r rfl (Yields.new _ _ _ _)
  | copy a => exact sim_copy hm r a
  | add a b =>
    refine sim_result hm r ?_ (Yields.bind (fun _ => Yields.bind (fun _ => yields_combine _ _ _)))
    exact bind_view r a _ _ (fun o _ => bind_view r b _ _ (fun q _ => combine_ofObj _ _ _))
  | sub a b =>
    refine sim_result hm r ?_ (Yields.bind (fun _ => Yields.bind (fun _ => yields_combine _ _ _)))
    exact bind_view r a _ _ (fun o _ => bind_view r b _ _ (fun q _ => combine_ofObj _ _ _))
  | scale a c =>
    refine sim_result hm r ?_ (Yields.bind (fun _ => Yields.new _ _ _ _))
    exact bind_view r a _ _ (fun o _ => rfl)
  | div a c =>
    refine sim_result hm r ?_ (Yields.bind (fun _ => Yields.new _ _ _ _))
    exact bind_view r a _ _ (fun o _ => rfl)
  | derivative a i =>
    refine sim_result hm r ?_ (Yields.bind (fun _ => yields_derivative _ _))
    exact bind_view r a _ _ (fun o ho => derivative_eq hm (r.covered o (mem_of_get ho)) i)
  | elevate a k =>
    refine sim_result hm r ?_ (Yields.bind (fun _ => yields_elevate _ _))
    exact bind_view r a _ _ (fun o _ => elevate_ofObj _ _)
  | toMonomial a =>
    simp only [Mem.step, Values.step]
    have hv := r.view a
    cases hg : s.get a with
    | error e =>
      rw [hg] at hv
      rw [hv]
      exact Sim.same hm r rfl
    | ok o =>
      rw [hg] at hv
      rw [hv]
      simp only [Except.map, Py.bind_ok, View.ofObj]
      split
      · rename_i hb
        have : o.toMonomialBasis K = .ok o := by unfold Obj.toMonomialBasis; rw [hb]
        rw [this, ← hg]
        exact sim_copy hm r a
      · exact sim_result hm r (toMonomial_eq hm (r.covered o (mem_of_get hg))) (yields_toMonomial o (r.valid o (mem_of_get hg)))
  | call a x =>
    refine Sim.same hm r ?_
    rw [r.view]
    cases s.get a with
    | error e => rfl
    | ok o =>
      simp only [Except.map, Py.bind_ok, View.ofObj]
      cases o.call x <;> rfl
  | coeff a =>
    refine Sim.same hm r ?_
    rw [r.view]
    cases s.get a with
    | error e => rfl
    | ok o => rfl
  | coeffWrite a i v => cases hop

/-- The whole state represents the values. -/
structure RelAll {n : Nat} (h : Heap K n) (s : Store K n) : Prop where
  memoOK : MemoOK h.memo
  scalars : Rel h.memo h.scalars s.scalars
  vectors : Rel h.memo h.vectors s.vectors

theorem relAll_empty {n : Nat} : RelAll (Heap.empty : Heap K n) Store.empty := by
  have e : ∀ {V : Type}, Rel ([] : Memo K) (⟨[], [], []⟩ : Mem V) ⟨[], []⟩ := by
    intro V
    exact ⟨Sep.empty, fun i => Or.inl (by simp), fun i => Or.inl (by simp), by simp, by simp⟩
  exact ⟨fun m r l h => by simp [Heap.empty] at h, e, e⟩

theorem sim_all [CharZero K] {n : Nat} {h : Heap K n} {s : Store K n} (r : RelAll h s) (op : Op K n) (hop : op.writesCoeff = false) :
    RelAll (h.step op).1 (s.step op).1 ∧ (h.step op).2 = (s.step op).2 := by
  have key : ∀ {t : Mem K × Memo K × Py (Out K)} {u : Values K × Py (Out K)}, Sim h.memo t u →
      RelAll (⟨t.1, h.vectors, t.2.1⟩ : Heap K n) ⟨u.1, s.vectors⟩ ∧
        ((t.2.2.map Sum.inl : Result K n) = u.2.map Sum.inl) := by
    intro t u q
    exact ⟨⟨q.memoOK, q.rel, r.vectors.mono q.grows⟩, by rw [q.out]⟩
  have key' : ∀ {t : Mem (Fin n → K) × Memo K × Py (Out (Fin n → K))} {u : Values (Fin n → K) × Py (Out (Fin n → K))}, Sim h.memo t u →
      RelAll (⟨h.scalars, t.1, t.2.1⟩ : Heap K n) ⟨s.scalars, u.1⟩ ∧
        ((t.2.2.map Sum.inr : Result K n) = u.2.map Sum.inr) := by
    intro t u q
    exact ⟨⟨q.memoOK, r.scalars.mono q.grows, q.rel⟩, by rw [q.out]⟩
  cases op with
  | scalar op =>
    refine key (sim_step r.memoOK r.scalars op ?_)
    cases op <;> first | rfl | cases hop
  | vector op =>
    refine key' (sim_step r.memoOK r.vectors op ?_)
    cases op <;> first | rfl | cases hop
  | mul a b =>
    refine key (sim_result r.memoOK r.scalars ?_ (Yields.bind (fun _ => Yields.bind (fun _ => yields_mul _ _))))
    exact bind_view r.scalars a _ _ (fun o _ => bind_view r.scalars b _ _ (fun q _ => mul_ofObj _ _))
  | pow a k =>
    refine key (sim_result r.memoOK r.scalars ?_ (Yields.bind (fun _ => yields_powNat _ _)))
    exact bind_view r.scalars a _ _ (fun o _ => powNat_ofObj _ _)
  | component a i =>
    refine key (sim_result r.memoOK r.scalars ?_ (Yields.bind (fun _ => Yields.new _ _ _ _)))
    exact bind_view r.vectors a _ _ (fun o _ => rfl)
  | powMulti a exp =>
    refine key (sim_result r.memoOK r.scalars ?_ (Yields.bind (fun _ => yields_powMulti _ _)))
    exact bind_view r.vectors a _ _ (fun o _ => powMulti_ofObj _ _)
  | outer a c =>
    refine key' (sim_result r.memoOK r.vectors ?_ (Yields.bind (fun _ => Yields.new _ _ _ _)))
    exact bind_view r.scalars a _ _ (fun o _ => rfl)

theorem results_eq [CharZero K] {n : Nat} (ops : List (Op K n)) (hops : ∀ op ∈ ops, op.writesCoeff = false) :
    ∀ {h : Heap K n} {s : Store K n}, RelAll h s → h.results ops = s.results ops := by
  induction ops with
  | nil => intro h s _; rfl
  | cons op ops ih =>
    intro h s r
    obtain ⟨h1, h2⟩ := sim_all r op (hops op (by simp))
    simp only [Heap.results, Store.results]
    rw [h2, ih (fun o ho => hops o (by simp [ho])) h1]

/-! ## What an operation can change -/

/-- Objects and arrays remain what they are; only the cells in `w` may get another content. -/
structure Frame (w : Nat → Prop) (h h' : Mem V) : Prop where
  polys : ∀ (a : Nat) p, h.polys[a]? = some p → h'.polys[a]? = some p
  arrays : ∀ (l : Nat) k, h.arrays[l]? = some k → h'.arrays[l]? = some k
  cells : ∀ k : Nat, k < h.cells.length → ¬ w k → h'.cells[k]? = h.cells[k]?
  length : h.cells.length ≤ h'.cells.length

omit [AddCommGroup V] in
theorem Frame.refl (w : Nat → Prop) (h : Mem V) : Frame w h h := ⟨fun _ _ e => e, fun _ _ e => e, fun _ _ _ => rfl, le_refl _⟩

omit [AddCommGroup V] in
theorem Frame.trans {w : Nat → Prop} {h h' h'' : Mem V} (f : Frame w h h') (g : Frame w h' h'') : Frame w h h'' :=
  ⟨fun a p e => g.polys a p (f.polys a p e), fun l k e => g.arrays l k (f.arrays l k e),
    fun k hk hw => (g.cells k (lt_of_lt_of_le hk f.length) hw).trans (f.cells k hk hw), f.length.trans g.length⟩

omit [AddCommGroup V] in
theorem Frame.mono {w w' : Nat → Prop} {h h' : Mem V} (f : Frame w h h') (hw : ∀ k, w k → w' k) : Frame w' h h' :=
  ⟨f.polys, f.arrays, fun k hk hk' => f.cells k hk (fun q => hk' (hw k q)), f.length⟩

omit [AddCommGroup V] in
theorem frame_addPoly (w : Nat → Prop) (h : Mem V) (xs : List V) (p : Ref V) :
    Frame w h { h with cells := h.cells ++ [xs], polys := h.polys ++ [p] } :=
  ⟨fun _ _ e => get_append_some e _, fun _ _ e => e, fun k hk _ => List.getElem?_append_left hk, by simp⟩

omit [AddCommGroup V] [Module K V] in
theorem frame_result (w : Nat → Prop) (h : Mem V) (memo : Memo K) (p : Py (Obj V)) : Frame w h (h.result memo p).1 := by
  unfold Mem.result
  split
  · exact Frame.refl _ _
  · unfold Mem.make
    split
    · exact Frame.refl _ _
    · exact frame_addPoly _ _ _ _

omit [Field K] [DecidableEq K] [AddCommGroup V] [Module K V] in
theorem frame_copy (w : Nat → Prop) (h : Mem V) (memo : Memo K) (a : Nat) : Frame w h (h.copyPoly memo a).1 := by
  unfold Mem.copyPoly
  split
  · exact frame_addPoly _ _ _ _
  · exact Frame.refl _ _
  · exact Frame.refl _ _

omit [Field K] [DecidableEq K] [AddCommGroup V] [Module K V] in
theorem frame_assign (h : Mem V) (memo : Memo K) (k : Option Nat) (i : Nat) (v : V) :
    Frame (fun j => k = some j) h (h.assign memo k i v).1 := by
  unfold Mem.assign
  split
  · exact Frame.refl _ _
  · split
    · exact Frame.refl _ _
    · split
      · exact Frame.refl _ _
      · rename_i k _ _ _ _ _
        refine ⟨fun _ _ e => e, fun _ _ e => e, fun j _ hj => ?_, by simp⟩
        simp only
        rw [List.getElem?_set_ne (fun e => hj (by rw [e]))]

/-- The cells an operation assigns to. -/
def UOp.target (h : Mem V) : UOp K V → Option Nat
  | .write l _ _ => h.arrays[l]?
  | .coeffWrite a _ _ => h.polys[a]?.map Ref.cell
  | _ => none

theorem frame_step (h : Mem V) (memo : Memo K) (op : UOp K V) : Frame (fun j => op.target h = some j) h (h.step memo op).1 := by
  cases op with
  | array xs => exact ⟨fun _ _ e => e, fun _ _ e => get_append_some e _, fun k hk _ => List.getElem?_append_left hk, by simp [Mem.step]⟩
  | write l i v => exact frame_assign _ _ _ _ _
  | read l => exact Frame.refl _ _
  | new => exact frame_result _ _ _ _
  | newList => exact frame_result _ _ _ _
  | copy a => exact frame_copy _ _ _ _
  | add => exact frame_result _ _ _ _
  | sub => exact frame_result _ _ _ _
  | scale => exact frame_result _ _ _ _
  | div => exact frame_result _ _ _ _
  | derivative => exact frame_result _ _ _ _
  | elevate => exact frame_result _ _ _ _
  | toMonomial a =>
    simp only [Mem.step]
    split
    · exact Frame.refl _ _
    · split
      · exact frame_copy _ _ _ _
      · exact frame_result _ _ _ _
  | call => exact Frame.refl _ _
  | coeff => exact Frame.refl _ _
  | coeffWrite => exact frame_assign _ _ _ _ _

/-- The cells of scalar valued objects that an operation assigns to. -/
def Op.targetScalar {n : Nat} (h : Heap K n) : Op K n → Option Nat
  | .scalar op => op.target h.scalars
  | _ => none

/-- The cells of vector valued objects that an operation assigns to. -/
def Op.targetVector {n : Nat} (h : Heap K n) : Op K n → Option Nat
  | .vector op => op.target h.vectors
  | _ => none

theorem frame_scalars {n : Nat} (h : Heap K n) (op : Op K n) :
    Frame (fun j => op.targetScalar h = some j) h.scalars (h.step op).1.scalars := by
  cases op with
  | scalar op => exact frame_step _ _ _
  | vector op => exact Frame.refl _ _
  | mul a b => exact frame_result _ _ _ _
  | pow a b => exact frame_result _ _ _ _
  | component a b => exact frame_result _ _ _ _
  | powMulti a b => exact frame_result _ _ _ _
  | outer a b => exact Frame.refl _ _

theorem frame_vectors {n : Nat} (h : Heap K n) (op : Op K n) :
    Frame (fun j => op.targetVector h = some j) h.vectors (h.step op).1.vectors := by
  cases op with
  | scalar op => exact Frame.refl _ _
  | vector op => exact frame_step _ _ _
  | mul a b => exact Frame.refl _ _
  | pow a b => exact Frame.refl _ _
  | component a b => exact Frame.refl _ _
  | powMulti a b => exact Frame.refl _ _
  | outer a b => exact frame_result _ _ _ _

theorem sep_scalars {n : Nat} {h : Heap K n} (s : Sep h.scalars) (op : Op K n) : Sep (h.step op).1.scalars := by
  cases op with
  | scalar op => exact s.step _ _
  | vector op => exact s
  | mul a b => exact s.result _ _
  | pow a b => exact s.result _ _
  | component a b => exact s.result _ _
  | powMulti a b => exact s.result _ _
  | outer a b => exact s

theorem sep_vectors {n : Nat} {h : Heap K n} (s : Sep h.vectors) (op : Op K n) : Sep (h.step op).1.vectors := by
  cases op with
  | scalar op => exact s
  | vector op => exact s.step _ _
  | mul a b => exact s
  | pow a b => exact s
  | component a b => exact s
  | powMulti a b => exact s
  | outer a b => exact s.result _ _

theorem after_append {n : Nat} (h : Heap K n) (ops more : List (Op K n)) : h.after (ops ++ more) = (h.after ops).after more := by
  simp [Heap.after]

theorem sep_after {n : Nat} (ops : List (Op K n)) : ∀ {h : Heap K n}, Sep h.scalars → Sep h.vectors →
    Sep (h.after ops).scalars ∧ Sep (h.after ops).vectors := by
  induction ops with
  | nil => exact fun s t => ⟨s, t⟩
  | cons op ops ih => exact fun s t => ih (sep_scalars s op) (sep_vectors t op)

theorem frame_after {n : Nat} (ops : List (Op K n)) : ∀ (h : Heap K n),
    Frame (fun _ => True) h.scalars (h.after ops).scalars ∧ Frame (fun _ => True) h.vectors (h.after ops).vectors := by
  induction ops with
  | nil => exact fun h => ⟨Frame.refl _ _, Frame.refl _ _⟩
  | cons op ops ih =>
    exact fun h => ⟨((frame_scalars h op).mono (fun _ _ => trivial)).trans (ih _).1,
      ((frame_vectors h op).mono (fun _ _ => trivial)).trans (ih _).2⟩

omit [AddCommGroup V] in
theorem Sep.view {h : Mem V} (s : Sep h) {a : Nat} {p : Ref V} (hp : h.polys[a]? = some p) :
    ∃ c, h.cells[p.cell]? = some c ∧ h.view a = .ok ⟨⟨p.basis, c, p.r, p.m⟩, ⟨p.basis, p.code, p.r, p.m⟩⟩ := by
  have hlt := s.lt p.cell (List.mem_append_right _ (List.mem_map_of_mem (List.mem_of_getElem? hp)))
  refine ⟨h.cells[p.cell], List.getElem?_eq_getElem hlt, ?_⟩
  unfold Mem.view
  rw [hp]
  simp only [List.getElem?_eq_getElem hlt]

omit [AddCommGroup V] in
theorem Frame.call {w : Nat → Prop} {h h' : Mem V} (f : Frame w h h') (s : Sep h) (s' : Sep h') {a : Nat} (ha : a < h.polys.length) :
    (h'.view a).map View.code = (h.view a).map View.code := by
  have hp : h.polys[a]? = some h.polys[a] := List.getElem?_eq_getElem ha
  obtain ⟨c, _, h2⟩ := s.view hp
  obtain ⟨c', _, h2'⟩ := s'.view (f.polys a _ hp)
  rw [h2, h2']
  rfl

omit [AddCommGroup V] in
theorem Frame.view {w : Nat → Prop} {h h' : Mem V} (f : Frame w h h') (s : Sep h) (s' : Sep h') {a : Nat} (ha : a < h.polys.length)
    (hw : ¬ w (h.polys[a].cell)) : h'.view a = h.view a := by
  have hp : h.polys[a]? = some h.polys[a] := List.getElem?_eq_getElem ha
  obtain ⟨c, h1, h2⟩ := s.view hp
  obtain ⟨c', h1', h2'⟩ := s'.view (f.polys a _ hp)
  rw [f.cells _ (s.lt _ (List.mem_append_right _ (List.mem_map_of_mem (List.mem_of_getElem? hp)))) hw, h1] at h1'
  cases h1'
  rw [h2, h2']

omit [AddCommGroup V] in
theorem Frame.cell {w : Nat → Prop} {h h' : Mem V} (f : Frame w h h') (s : Sep h) {l : Nat} (hl : l < h.arrays.length)
    (hw : ¬ w (h.arrays[l])) : h'.cell l = h.cell l := by
  have hp : h.arrays[l]? = some h.arrays[l] := List.getElem?_eq_getElem hl
  unfold Mem.cell
  rw [hp, f.arrays l _ hp]
  simp only
  rw [f.cells _ (s.lt _ (List.mem_append_left _ (List.mem_of_getElem? hp))) hw]

omit [AddCommGroup V] in
theorem Sep.poly_ne {h : Mem V} (s : Sep h) {a b : Nat} (ha : a < h.polys.length) (hb : b < h.polys.length) (hab : a ≠ b) :
    h.polys[a].cell ≠ h.polys[b].cell := by
  have hnd := (List.nodup_append.1 s.nodup).2.1
  intro he
  apply hab
  have ha' : a < (h.polys.map Ref.cell).length := by simpa using ha
  have hb' : b < (h.polys.map Ref.cell).length := by simpa using hb
  refine (hnd.getElem_inj_iff (hi := ha') (hj := hb')).1 ?_
  simpa using he

omit [AddCommGroup V] in
theorem Sep.array_ne {h : Mem V} (s : Sep h) {a b : Nat} (ha : a < h.arrays.length) (hb : b < h.arrays.length) (hab : a ≠ b) :
    h.arrays[a] ≠ h.arrays[b] := by
  have hnd := (List.nodup_append.1 s.nodup).1
  exact fun he => hab ((hnd.getElem_inj_iff (hi := ha) (hj := hb)).1 he)

omit [AddCommGroup V] in
theorem Sep.array_ne_poly {h : Mem V} (s : Sep h) {l a : Nat} (hl : l < h.arrays.length) (ha : a < h.polys.length) :
    h.arrays[l] ≠ h.polys[a].cell :=
  (List.nodup_append.1 s.nodup).2.2 _ (List.getElem_mem hl) _ (List.mem_map_of_mem (List.getElem_mem ha))

omit [Field K] [DecidableEq K] [AddCommGroup V] [Module K V] in
/-- The array of a polynomial is the target of no operation except assignments to its coefficients. -/
theorem target_poly {h : Mem V} (s : Sep h) (op : UOp K V) {a : Nat} (ha : a < h.polys.length) (hop : ∀ i v, op ≠ .coeffWrite a i v) :
    op.target h ≠ some h.polys[a].cell := by
  cases op with
  | write l i v =>
    intro he
    simp only [UOp.target] at he
    obtain ⟨hl, he⟩ := List.getElem?_eq_some_iff.1 he
    exact s.array_ne_poly hl ha he
  | coeffWrite b i v =>
    intro he
    simp only [UOp.target, Option.map_eq_some_iff] at he
    obtain ⟨p, hp, he⟩ := he
    obtain ⟨hb, hp⟩ := List.getElem?_eq_some_iff.1 hp
    subst hp
    exact s.poly_ne hb ha (fun e => hop i v (by rw [e])) he
  | _ => simp [UOp.target]

omit [Field K] [DecidableEq K] [AddCommGroup V] [Module K V] in
/-- An array of the program is the target of no operation except assignments to it. -/
theorem target_array {h : Mem V} (s : Sep h) (op : UOp K V) {l : Nat} (hl : l < h.arrays.length) (hop : ∀ i v, op ≠ .write l i v) :
    op.target h ≠ some h.arrays[l] := by
  cases op with
  | write j i v =>
    intro he
    simp only [UOp.target] at he
    obtain ⟨hj, he⟩ := List.getElem?_eq_some_iff.1 he
    exact s.array_ne hj hl (fun e => hop i v (by rw [e])) he
  | coeffWrite b i v =>
    intro he
    simp only [UOp.target, Option.map_eq_some_iff] at he
    obtain ⟨p, hp, he⟩ := he
    obtain ⟨hb, hp⟩ := List.getElem?_eq_some_iff.1 hp
    subst hp
    exact s.array_ne_poly hl hb he.symm
  | _ => simp [UOp.target]

end Verif.PolyHeap
