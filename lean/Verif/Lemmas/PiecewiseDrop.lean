import Verif.Lemmas.PiecewiseCont
/-!
# Spaces with left out degrees of freedom
-/

namespace Verif.PP
open Verif Verif.Poly Verif.Simplex Verif.SPoly Verif.L2G Verif.Spec

variable {K V : Type} [Field K] [DecidableEq K] [CharZero K] [AddCommGroup V] [DecidableEq V] [Module K V] {m r : Nat} {Tr : Type}

/-- The restriction to a simplex of the support has the last coefficient in the place of the degrees of freedom that are left out. -/
theorem restrict_rd {p : PObj K V m Tr} (h : WellFormed p) {M : L2G.Map} {t : ℕ → List ℕ → ℤ} (hM : p.tau = M.tau)
    (ht : TauSpec p.cont m p.r p.triangles p.boundary p.keepLast M p.coeff.length t) {j : ℕ} (hj : j ∈ p.support) {v : Vertices K m m}
    (hv : cell p.triangles p.vertices j = .ok v) (hd : edgeDet v ≠ 0) (hf : Fits p.r m) :
    p.restrictToSimplex j = .ok ⟨mkObj p.basis m p.r (rd p.coeff t j), v, down v⟩ := by
  have hj' := h.support j hj
  unfold PObj.restrictToSimplex
  rw [decide_eq_true hj', pyAssert_true, Py.bind_ok, hv, Py.bind_ok, if_neg (not_not.2 hj), fillLoop_tab m p.r _ (rd p.coeff t j)]
  · rw [Py.bind_ok]
    exact snew_ok hd (new_mk _ _ _ _ hf)
  · intro ν h1 h2
    rw [hM, ht.tau j hj', Py.bind_ok]
    exact pyGet_rd h.coeff (ht.range j hj' ν ⟨h1, h2⟩)

theorem rd_eq_loc_iff {coeff : List V} (hc : coeff ≠ []) {t : ℕ → List ℕ → ℤ} {j : ℕ} {ν : List ℕ} :
    rd coeff t j ν = loc coeff t j ν ↔ (t j ν = -1 → coeff.getLast hc = 0) := by
  unfold rd loc
  by_cases h : t j ν = -1
  · rw [if_pos h, if_pos h, List.getLastD_eq_getLast?, List.getLast?_eq_some_getLast hc]
    simp [h]
  · rw [if_neg h, if_neg h]
    simp [h]

/-- The restriction is right exactly if it does not involve left out degrees of freedom, or the last coefficient is zero. -/
theorem restrict_right_iff {p : PObj K V m Tr} (h : WellFormed p) {F : ℕ → (Fin m → K) → V} (hF : Denotes p F) {j : ℕ} (hj : j ∈ p.support) :
    ∃ v s, cell p.triangles p.vertices j = .ok v ∧ p.restrictToSimplex j = .ok s ∧
      (RepresentsOn s v (F j) ↔ ((∀ ν, IsIndex m p.r ν → p.tau j ν ≠ .ok (-1)) ∨ p.coeff.getLast h.coeff = 0)) := by
  obtain ⟨M, t, hg, hM, ht⟩ := h.data
  have hj' := h.support j hj
  obtain ⟨v, hv, hd⟩ := h.space.cells j hj'
  have hf : Fits p.r m := by
    obtain ⟨v', l, h1, h2, -⟩ := h.polys j hj
    obtain rfl : v' = v := Except.ok.inj (h1.symm.trans hv)
    exact (basisSimplex_spec hd h2).1
  refine ⟨v, _, hv, restrict_rd h hM ht hj hv hd hf, ?_⟩
  have hrep : RepresentsOn (⟨mkObj p.basis m p.r (rd p.coeff t j), v, down v⟩ : SObj K V m) v
      (fun x => val p.basis m p.r (rd p.coeff t j) (createAffineMap (down v) x)) := repOn_mk hd (rep_mk _ _ _ _ hf)
  have hFv : ∀ x, F j x = val p.basis m p.r (loc p.coeff t j) (createAffineMap (down v) x) := fun x => denotes_val h hF hM ht hj' hv x
  have hiff : RepresentsOn (⟨mkObj p.basis m p.r (rd p.coeff t j), v, down v⟩ : SObj K V m) v (F j) ↔
      ∀ ν, IsIndex m p.r ν → rd p.coeff t j ν = loc p.coeff t j ν := by
    constructor
    · intro h1 ν hν
      refine val_inj (K := K) (b := p.basis) (m := m) (r := p.r) (fun u => ?_) hν.1 hν.2
      have h2 := Except.ok.inj ((hrep.value (createAffineMap (up v) u)).symm.trans (h1.value _))
      simp only [hFv, down_up v hd] at h2
      exact h2
    · intro h1
      have : F j = fun x => val p.basis m p.r (rd p.coeff t j) (createAffineMap (down v) x) := by
        funext x
        rw [hFv, val_congr h1]
      rw [this]
      exact hrep
  rw [hiff]
  constructor
  · intro h1
    by_cases h2 : p.coeff.getLast h.coeff = 0
    · exact Or.inr h2
    · left
      intro ν hν h3
      rw [hM, ht.tau j hj'] at h3
      exact h2 ((rd_eq_loc_iff h.coeff).1 (h1 ν hν) (Except.ok.inj h3))
  · rintro (h1 | h1) ν hν
    · exact (rd_eq_loc_iff h.coeff).2 (fun h2 => absurd (by rw [hM, ht.tau j hj', h2]) (h1 ν hν))
    · exact (rd_eq_loc_iff h.coeff).2 (fun _ => h1)

end Verif.PP
