import Verif.Lemmas.PolyUnique
/-!
# C28: coefficients determine the polynomial
-/

namespace Verif.Props
open Verif Verif.Poly

variable {K V : Type} [Field K] [DecidableEq K] [CharZero K] [AddCommGroup V] [Module K V]

/-- C28: two objects in the same basis and of the same degree that have the same values have the same coefficients. -/
theorem C28_coefficients_unique {m : Nat} {p q : Obj V} {f : (Fin m → K) → V} (hp : Represents p m f) (hq : Represents q m f)
    (hb : p.basis = q.basis) (hr : p.r = q.r) : p.coeff = q.coeff := by rw [rep_unique hp hq hb hr]

/-- C28: comparing coefficients and comparing values coincide, for each of the three bases. -/
theorem C28_equal_iff {m : Nat} {p q : Obj V} {f g : (Fin m → K) → V} (hp : Represents p m f) (hq : Represents q m g)
    (hb : p.basis = q.basis) (hr : p.r = q.r) : p.coeff = q.coeff ↔ ∀ x, f x = g x := by
  constructor
  · intro h x
    have : p = q := by
      have h1 := hp.dim; have h2 := hq.dim
      cases p; cases q
      simp only at hb hr h h1 h2
      subst h1 hb hr h; rw [h2]
    have hv := hp.value x
    rw [this, hq.value x] at hv
    exact (Except.ok.inj hv).symm
  · intro h
    exact C28_coefficients_unique (f := f) hp (by rw [funext h]; exact hq) hb hr

/-- C28: two polynomials of different degrees (and possibly different bases) with the same values have the same coefficients after
degree elevation to a common basis and degree. -/
theorem C28_after_elevation {m : Nat} {p q : Obj V} {f : (Fin m → K) → V} (hp : Represents p m f) (hq : Represents q m f)
    (hb : p.basis = q.basis) (s : Nat) (h1 : p.r ≤ s) (h2 : q.r ≤ s) (hs : Fits s m) :
    p.degreeElevate K s = q.degreeElevate K s := by
  obtain ⟨a, a1, a2, a3, a4⟩ := degreeElevate_rep hp s h1 hs
  obtain ⟨b, b1, b2, b3, b4⟩ := degreeElevate_rep hq s h2 hs
  rw [a1, b1, rep_unique a2 b2 (by rw [a3, b3, hb]) (by rw [a4, b4])]

example : ∃ f, Represents (⟨.bernstein, [1, 2, 3, 4, 5, 6], 2, 2⟩ : Obj ℚ) 2 (f : (Fin 2 → ℚ) → ℚ) :=
  Obj.Valid.rep (p := ⟨.bernstein, [1, 2, 3, 4, 5, 6], 2, 2⟩) (by rfl)

end Verif.Props
