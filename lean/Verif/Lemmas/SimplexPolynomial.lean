import Verif.Spec.SimplexPolynomial
import Verif.Lemmas.Simplex
import Verif.Lemmas.PolyRepPow
import Verif.Lemmas.PolyDeriv
/-!
# Polynomials on a simplex: reduction to the unit simplex
-/

namespace Verif.SPoly
open Verif Verif.Poly Verif.Simplex Verif.Spec

variable {K V : Type} [Field K] [DecidableEq K] [AddCommGroup V] [Module K V] {m : Nat}

/-- The map from the unit simplex. -/
def up (v : Vertices K m m) : Affine K m m := (E v, v 0)

/-- The map to the unit simplex. -/
noncomputable def down (v : Vertices K m m) : Affine K m m := ((E v)⁻¹, -((E v)⁻¹.mulVec (v 0)))

theorem fromUnit_eq (v : Vertices K m m) : affineFromUnit v = .ok (up v) := by unfold affineFromUnit; simp; rfl

theorem toUnit_eq (v : Vertices K m m) (hd : edgeDet v ≠ 0) : affineToUnit v = .ok (down v) := by
  unfold affineToUnit
  rw [fromUnit_eq]
  simp only [Py.bind_ok, inverseAffine, up]
  rw [if_neg (show (E v).det ≠ 0 from hd)]
  rfl

theorem toUnit_error (v : Vertices K m m) (hd : edgeDet v = 0) : ∃ e, affineToUnit v = .error e := by
  unfold affineToUnit
  rw [fromUnit_eq]
  simp only [Py.bind_ok, inverseAffine, up]
  rw [if_pos (show (E v).det = 0 from hd)]
  exact ⟨_, rfl⟩

theorem up_down (v : Vertices K m m) (hd : edgeDet v ≠ 0) (x : Fin m → K) : createAffineMap (up v) (createAffineMap (down v) x) = x := by
  have hu : IsUnit (E v).det := isUnit_iff_ne_zero.2 hd
  simp only [up, down, createAffineMap, Matrix.mulVec_add, Matrix.mulVec_neg, Matrix.mulVec_mulVec, Matrix.mul_nonsing_inv _ hu, Matrix.one_mulVec]
  abel

theorem down_up (v : Vertices K m m) (hd : edgeDet v ≠ 0) (x : Fin m → K) : createAffineMap (down v) (createAffineMap (up v) x) = x := by
  have hu : IsUnit (E v).det := isUnit_iff_ne_zero.2 hd
  simp only [up, down, createAffineMap, Matrix.mulVec_add, Matrix.mulVec_mulVec, Matrix.nonsing_inv_mul _ hu, Matrix.one_mulVec]
  abel

theorem new_basis {b : Basis} {c : List V} {r : Nat} {m : Nat} {q : Obj V} (h : Obj.new b c (some r) m = .ok q) :
    q.basis = b ∧ q.coeff = c ∧ q.r = r ∧ q.m = m := by
  unfold Obj.new at h
  by_cases h0 : c.length > 0
  · by_cases hm : m > 0
    · simp only [h0, hm, decide_true, pyAssert_true, Py.bind_ok, if_true] at h
      cases hg : getDegreeFromDimension c.length m with
      | error e => rw [hg] at h; simp at h
      | ok d =>
        rw [hg] at h
        simp only [Py.bind_ok] at h
        by_cases hr : r = d
        · simp only [hr, decide_true, pyAssert_true, Py.bind_ok, Py.pure_eq, Except.ok.injEq] at h
          subst h; simp [hr]
        · simp [hr, pyAssert_false] at h
    · simp only [h0, decide_true, pyAssert_true, Py.bind_ok] at h
      rw [if_neg hm] at h
      by_cases h1 : c.length = 1
      · simp only [h1, decide_true, pyAssert_true, Py.bind_ok, Py.pure_eq, Except.ok.injEq] at h
        subst h; simp
      · simp [h1, pyAssert_false] at h
  · simp [h0, pyAssert_false] at h

theorem snew_eq (b : Basis) (c : List V) (v : Vertices K m m) (hd : edgeDet v ≠ 0) (r : Option Nat) :
    SObj.new b c v r = (Obj.new b c r m).bind (fun q => .ok ⟨q, v, down v⟩) := by
  unfold SObj.new
  cases Obj.new b c r m with
  | error e => rfl
  | ok q => simp only [Py.bind_ok, toUnit_eq v hd]; rfl

theorem snew_ok {b : Basis} {c : List V} {v : Vertices K m m} (hd : edgeDet v ≠ 0) {r : Option Nat} {q : Obj V} (h : Obj.new b c r m = .ok q) :
    SObj.new b c v r = .ok ⟨q, v, down v⟩ := by
  rw [snew_eq b c v hd, h]; rfl

/-- Representation on a simplex is representation of the composed function on the unit simplex. -/
theorem repOn_iff {p : SObj K V m} {v : Vertices K m m} (hd : edgeDet v ≠ 0) {f : (Fin m → K) → V} :
    RepresentsOn p v f ↔ p.vertices = v ∧ p.phi = down v ∧ Represents p.poly m (fun u => f (createAffineMap (up v) u)) := by
  constructor
  · rintro ⟨h1, h2⟩
    rw [snew_eq _ _ v hd] at h1
    cases h : Obj.new p.poly.basis p.poly.coeff (some p.poly.r) m with
    | error e => rw [h] at h1; cases h1
    | ok q =>
      rw [h] at h1
      obtain rfl := Except.ok.inj h1
      simp only at h h2 ⊢
      have hq := new_basis h
      refine ⟨trivial, trivial, hq.2.2.2, ?_, fun u => ?_⟩
      · unfold Obj.Valid; rw [hq.2.2.2]; exact h
      · have := h2 (createAffineMap (up v) u)
        unfold SObj.call at this
        rw [down_up v hd] at this
        exact this
  · rintro ⟨h1, h2, h3⟩
    have hv := h3.valid
    unfold Obj.Valid at hv
    rw [h3.dim] at hv
    refine ⟨?_, fun x => ?_⟩
    · rw [snew_ok hd hv]
      cases p
      simp only at h1 h2 ⊢
      rw [h1, h2]
    · unfold SObj.call
      rw [h2, h3.value, up_down v hd]

/-- An object of the unit simplex as an object on the simplex. -/
theorem repOn_mk {q : Obj V} {v : Vertices K m m} (hd : edgeDet v ≠ 0) {g : (Fin m → K) → V} (h : Represents q m g) :
    RepresentsOn (⟨q, v, down v⟩ : SObj K V m) v (fun x => g (createAffineMap (down v) x)) := by
  rw [repOn_iff hd]
  refine ⟨rfl, rfl, ?_⟩
  simp only [down_up v hd]
  exact h

theorem repOn_mk' {q : Obj V} {v : Vertices K m m} (hd : edgeDet v ≠ 0) {f : (Fin m → K) → V}
    (h : Represents q m (fun u => f (createAffineMap (up v) u))) : RepresentsOn (⟨q, v, down v⟩ : SObj K V m) v f :=
  (repOn_iff hd).2 ⟨rfl, rfl, h⟩

theorem Represents.new_eq {q : Obj V} {g : (Fin m → K) → V} (h : Represents q m g) : Obj.new q.basis q.coeff (some q.r) m = .ok q := by
  have := h.valid
  unfold Obj.Valid at this
  rw [h.dim] at this
  exact this

theorem Represents.snew {q : Obj V} {g : (Fin m → K) → V} (h : Represents q m g) {v : Vertices K m m} (hd : edgeDet v ≠ 0) {b : Basis} {r : Nat}
    (hb : q.basis = b) (hr : q.r = r) : SObj.new b q.coeff v (some r) = .ok ⟨q, v, down v⟩ := by
  subst hb hr
  exact snew_ok hd (Represents.new_eq h)

theorem degreeElevate_repOn {p : SObj K V m} {v : Vertices K m m} (hd : edgeDet v ≠ 0) {f : (Fin m → K) → V} (h : RepresentsOn p v f) (s : Nat)
    [CharZero K] (hs : p.poly.r ≤ s) (hf : Fits s m) :
    ∃ q, p.degreeElevate s = .ok q ∧ RepresentsOn q v f ∧ q.poly.basis = p.poly.basis ∧ q.poly.r = s := by
  obtain ⟨h1, h2, h3⟩ := (repOn_iff hd).1 h
  unfold SObj.degreeElevate
  rw [decide_eq_true hs]
  simp only [pyAssert_true, Py.bind_ok]
  by_cases hc : s = p.poly.r
  · rw [if_pos hc, h1]
    exact ⟨_, Represents.snew h3 hd rfl rfl, repOn_mk' hd h3, rfl, hc.symm⟩
  · rw [if_neg hc]
    obtain ⟨q, a1, a2, a3, a4⟩ := degreeElevate_rep h3 s hs hf
    rw [a1, h1]
    simp only [Py.bind_ok]
    exact ⟨_, Represents.snew a2 hd a3 a4, repOn_mk' hd a2, a3, a4⟩

theorem zipWith_obj {p q : Obj V} {b : Basis} (op : V → V → V) (hp : p.basis = b) (hq : q.basis = b) (hm : p.m = m) (hm' : q.m = m) {r : Nat}
    (hr : p.r = r) (hr' : q.r = r) : Poly.combine K op p q = Obj.new b (List.zipWith op p.coeff q.coeff) (some r) m := by
  unfold Poly.combine Poly.combineSame
  simp [hp, hq, hm, hm', hr, hr']

theorem combine_repOn [CharZero K] (op : V → V → V)
    (hop : ∀ {p q : Obj V} {f g : (Fin m → K) → V}, Represents p m f → Represents q m g → p.basis = q.basis →
      ∃ s, Poly.combine K op p q = .ok s ∧ Represents s m (fun x => op (f x) (g x)) ∧ s.basis = p.basis ∧ s.r = max p.r q.r)
    {p q : SObj K V m} {v : Vertices K m m} (hd : edgeDet v ≠ 0) {f g : (Fin m → K) → V}
    (hp : RepresentsOn p v f) (hq : RepresentsOn q v g) (hb : p.poly.basis = q.poly.basis) :
    ∃ s, combine op p q = .ok s ∧ RepresentsOn s v (fun x => op (f x) (g x)) ∧ s.poly.basis = p.poly.basis ∧
      s.poly.r = max p.poly.r q.poly.r := by
  have same : ∀ {p q : SObj K V m} {f g : (Fin m → K) → V}, RepresentsOn p v f → RepresentsOn q v g → p.poly.basis = q.poly.basis →
      p.poly.r = q.poly.r → ∃ s, combineSame op p q = .ok s ∧ RepresentsOn s v (fun x => op (f x) (g x)) ∧ s.poly.basis = p.poly.basis ∧
      s.poly.r = p.poly.r := by
    intro p q f g hp hq hb hr
    obtain ⟨h1, h2, h3⟩ := (repOn_iff hd).1 hp
    obtain ⟨k1, k2, k3⟩ := (repOn_iff hd).1 hq
    unfold combineSame
    rw [decide_eq_true ⟨hb, h1.trans k1.symm⟩]
    simp only [pyAssert_true, Py.bind_ok]
    rw [if_pos hr]
    obtain ⟨s, a1, a2, a3, a4⟩ := hop h3 k3 hb
    rw [zipWith_obj op rfl hb.symm h3.dim k3.dim rfl hr.symm] at a1
    rw [h1, snew_ok hd a1]
    exact ⟨_, rfl, repOn_mk' hd a2, a3, by rw [a4, ← hr, max_self]⟩
  have hv : p.vertices = q.vertices := ((repOn_iff hd).1 hp).1.trans ((repOn_iff hd).1 hq).1.symm
  have hfp := ((repOn_iff hd).1 hp).2.2.fits
  have hfq := ((repOn_iff hd).1 hq).2.2.fits
  unfold combine
  rw [decide_eq_true ⟨hb, hv⟩]
  simp only [pyAssert_true, Py.bind_ok]
  by_cases hr : p.poly.r = q.poly.r
  · rw [if_pos hr]
    obtain ⟨s, a1, a2, a3, a4⟩ := same hp hq hb hr
    exact ⟨s, a1, a2, a3, by rw [a4, ← hr, max_self]⟩
  · rw [if_neg hr]
    by_cases hgt : p.poly.r > q.poly.r
    · rw [if_pos hgt]
      obtain ⟨q', b1, b2, b3, b4⟩ := degreeElevate_repOn hd hq p.poly.r hgt.le hfp
      rw [b1]
      obtain ⟨s, a1, a2, a3, a4⟩ := same hp b2 (hb.trans b3.symm) b4.symm
      exact ⟨s, a1, a2, a3, by rw [a4, max_eq_left hgt.le]⟩
    · rw [if_neg hgt]
      obtain ⟨p', b1, b2, b3, b4⟩ := degreeElevate_repOn hd hp q.poly.r (not_lt.1 hgt) hfq
      rw [b1]
      obtain ⟨s, a1, a2, a3, a4⟩ := same b2 hq (b3.trans hb) b4
      exact ⟨s, a1, a2, a3.trans b3, by rw [a4, b4, max_eq_right (not_lt.1 hgt)]⟩

theorem add_repOn [CharZero K] {p q : SObj K V m} {v : Vertices K m m} (hd : edgeDet v ≠ 0) {f g : (Fin m → K) → V}
    (hp : RepresentsOn p v f) (hq : RepresentsOn q v g) (hb : p.poly.basis = q.poly.basis) :
    ∃ s, p.add q = .ok s ∧ RepresentsOn s v (fun x => f x + g x) ∧ s.poly.basis = p.poly.basis ∧ s.poly.r = max p.poly.r q.poly.r :=
  combine_repOn (· + ·) (fun hp hq hb => add_rep hp hq hb) hd hp hq hb

theorem sub_repOn [CharZero K] {p q : SObj K V m} {v : Vertices K m m} (hd : edgeDet v ≠ 0) {f g : (Fin m → K) → V}
    (hp : RepresentsOn p v f) (hq : RepresentsOn q v g) (hb : p.poly.basis = q.poly.basis) :
    ∃ s, p.sub q = .ok s ∧ RepresentsOn s v (fun x => f x - g x) ∧ s.poly.basis = p.poly.basis ∧ s.poly.r = max p.poly.r q.poly.r :=
  combine_repOn (· - ·) (fun hp hq hb => sub_rep hp hq hb) hd hp hq hb

theorem smul_repOn [CharZero K] {p : SObj K V m} {v : Vertices K m m} (hd : edgeDet v ≠ 0) {f : (Fin m → K) → V} (hp : RepresentsOn p v f) (c : K) :
    ∃ s, p.smul c = .ok s ∧ RepresentsOn s v (fun x => c • f x) ∧ s.poly.basis = p.poly.basis ∧ s.poly.r = p.poly.r := by
  obtain ⟨h1, h2, h3⟩ := (repOn_iff hd).1 hp
  obtain ⟨s, a1, a2, a3, a4⟩ := smul_rep h3 c
  unfold Obj.smul at a1
  rw [h3.dim] at a1
  unfold SObj.smul
  rw [h1, snew_ok hd a1]
  exact ⟨_, rfl, repOn_mk' hd a2, a3, a4⟩

end Verif.SPoly
