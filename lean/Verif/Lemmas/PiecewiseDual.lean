import Verif.Model.PiecewiseDual
import Verif.Spec.Calculus
import Verif.Lemmas.PiecewiseDrop
import Verif.Lemmas.SimplexDual
/-!
# Dual bases of piecewise polynomial spaces and weak derivatives
-/

namespace Verif.PP
open Verif Verif.Poly Verif.Simplex Verif.SPoly Verif.L2G Verif.Spec

section
variable {m r : ℕ} {cont : Bool} {triangles : List (List ℕ)} {boundary : Option (List (List ℕ))} {keepLast : Bool} {M : L2G.Map} {N : ℕ} {t : ℕ → List ℕ → ℤ}

theorem find_spec (ht : TauSpec cont m r triangles boundary keepLast M N t) {pick : List (Int × List ℕ) → Option (Int × List ℕ)} (hpick : AnyElement pick) :
    ∃ find, dofFinder pick cont M triangles.length r m = .ok find ∧ ∀ i : ℕ, i < N → ∃ j ν, j < triangles.length ∧ IsIndex m r ν ∧ t j ν = i ∧
      find i = .ok ((j : ℤ), ν) := by
  have hdef : ∀ j : ℕ, j < triangles.length → ∀ ν, IsIndex m r ν → ∃ v, M.tau j ν = .ok v := fun j hj ν _ => ⟨_, ht.tau j hj ν⟩
  unfold dofFinder
  cases cont with
  | true =>
    obtain ⟨pre, h1, h2, -, -⟩ := C44_preimage M.tau triangles.length m r M.numDofs hdef
    rw [if_pos rfl, h1, Py.bind_ok]
    refine ⟨_, rfl, fun i hi => ?_⟩
    obtain ⟨j, ν, hj, hν, hi'⟩ := ht.surj i hi
    obtain ⟨l, hl, hmem⟩ := h2 [(i : ℤ)] (by
      intro k hk
      obtain rfl : k = i := by simpa using hk
      exact ⟨by omega, by rw [ht.num]; omega, j, hj, ν, hν, by rw [ht.tau j hj, hi']⟩)
    have hin : ((j : ℤ), ν) ∈ l := (hmem j ν).2 ⟨by omega, by omega, hν, i, by simp, by rw [ht.tau j hj, hi']⟩
    have hne : l ≠ [] := List.ne_nil_of_mem hin
    obtain ⟨a, ha, hpa⟩ := hpick l hne
    obtain ⟨h3, h4, h5, k, hk, h6⟩ := (hmem a.1 a.2).1 ha
    obtain rfl : k = i := by simpa using hk
    have hlt : a.1.toNat < triangles.length := by omega
    have hcast : ((a.1.toNat : ℕ) : ℤ) = a.1 := Int.toNat_of_nonneg h3
    refine ⟨a.1.toNat, a.2, hlt, h5, ?_, ?_⟩
    · have := ht.tau a.1.toNat hlt a.2
      rw [hcast, h6] at this
      exact (Except.ok.inj this).symm
    · simp only [hl, Py.bind_ok, decide_eq_true (List.length_pos_iff.2 hne), pyAssert_true, hpa, hcast]
  | false =>
    obtain ⟨inv, h1, -, h2⟩ := C43_inverse M.tau triangles.length m r M.numDofs hdef
    rw [if_neg (by simp)]
    refine ⟨inv, h1, fun i hi => ?_⟩
    rcases h2 i (by omega) (by rw [ht.num]; omega) with ⟨j, ν, hj, hν, h3, h4⟩ | ⟨h3, -⟩
    · refine ⟨j, ν, hj, hν, ?_, h4⟩
      rw [ht.tau j hj] at h3
      exact Except.ok.inj h3
    · obtain ⟨j, ν, hj, hν, hi'⟩ := ht.surj i hi
      exact absurd (by rw [ht.tau j hj, hi']) (h3 j hj ν hν)

end

section
variable {K V : Type} [Field K] [DecidableEq K] [CharZero K] [AddCommGroup V] [DecidableEq V] [Module K V] {m r : Nat} {Tr : Type}

omit [Field K] [DecidableEq K] [CharZero K] [DecidableEq V] [Module K V] in
/-- The coefficient of a degree of freedom that is part of the space. -/
theorem loc_of_tau {coeff : List V} {t : ℕ → List ℕ → ℤ} {j i : ℕ} {ν : List ℕ} (h : t j ν = i) (hi : i < coeff.length) : loc coeff t j ν = coeff[i] := by
  unfold loc
  rw [if_neg (by omega), h, Int.toNat_natCast, List.getD_eq_getElem?_getD, List.getElem?_eq_getElem hi, Option.getD_some]

omit [CharZero K] in
theorem mapM_range {β : Type} {N : ℕ} {f : ℕ → Py β} (h : ∀ i, i < N → ∃ b, f i = .ok b) :
    ∃ l : List β, (List.range N).mapM f = .ok l ∧ l.length = N ∧ ∀ i, i < N → ∃ b, l[i]? = some b ∧ f i = .ok b := by
  obtain ⟨l, hl⟩ := mapM_exists (f := f) (l := List.range N) (fun i hi => h i (by simpa using hi))
  obtain ⟨h1, h2⟩ := mapM_getElem hl
  exact ⟨l, hl, by simpa using h1, fun i hi => h2 i i (by simp [hi])⟩

theorem mapM_of_getElem {α β : Type} {f : α → Py β} : ∀ {l : List α} {l' : List β}, l.length = l'.length →
    (∀ (i : ℕ) a b, l[i]? = some a → l'[i]? = some b → f a = .ok b) → l.mapM f = .ok l'
  | [], [], _, _ => rfl
  | a :: l, b :: l', hl, h => by
    rw [List.mapM_cons, h 0 a b rfl rfl, Py.bind_ok, mapM_of_getElem (l := l) (l' := l') (by simpa using hl) (fun i a b h1 h2 => h (i + 1) a b h1 h2)]
    rfl
  | [], _ :: _, hl, _ => by simp at hl
  | _ :: _, [], hl, _ => by simp at hl

/-! ## Weak derivatives -/

omit [Field K] [DecidableEq K] [CharZero K] [AddCommGroup V] [DecidableEq V] [Module K V] in
theorem weakLoop_eq {tau : Int → List Nat → Py Int} {t : ℕ → List ℕ → ℤ} {j N : ℕ} (ht : ∀ ν, tau j ν = .ok (t j ν))
    {val : ℕ → List ℕ → Py V} {e : List ℕ → V} : ∀ (mis : List (List ℕ)) (k : ℕ) (coeff : List V),
    (∀ ν ∈ mis, ∃ i : ℕ, i < N ∧ t j ν = i) → coeff.length = N →
    (∀ i ν, mis[i]? = some ν → val (k + i) ν = .ok (e ν)) →
    weakLoop tau j val mis k coeff = .ok (stores coeff (mis.map (fun ν => ((t j ν).toNat, e ν))))
  | [], k, coeff, _, _, _ => rfl
  | ν :: mis, k, coeff, h1, h2, h3 => by
    obtain ⟨i, hi, hi'⟩ := h1 ν (by simp)
    unfold weakLoop
    rw [ht, Py.bind_ok, if_neg (by omega), show val k ν = .ok (e ν) from h3 0 ν (by simp), Py.bind_ok, hi', pySet_nat (by omega), Py.bind_ok,
      weakLoop_eq ht mis (k + 1) _ (fun ν' h => h1 ν' (by simp [h])) (by simpa using h2) (fun i' ν' h => by
        have := h3 (i' + 1) ν' (by simpa using h)
        rwa [show k + (i' + 1) = k + 1 + i' by omega] at this)]
    simp [stores, hi']

theorem weak_spec {p : PObj K V m Tr} (h : WellFormed p) (hfull : Full p) (hf : Fits (p.r - 1) m) {empty : ℕ → List V} (hempty : ∀ n, (empty n).length = n)
    {val' : ℕ → ℕ → List ℕ → Py V} {step : L2G.Map → ℕ → List V → ℕ → Py (List V)} {c : ℕ → List ℕ → V}
    (hstep : ∀ M coeff j, j < p.triangles.length → step M (p.r - 1) coeff j = weakLoop M.tau j (val' j) (MI.generateAll m (p.r - 1)) 0 coeff)
    (hval : ∀ j, j < p.triangles.length → ∀ (k : ℕ) ν, (MI.mis m (p.r - 1))[k]? = some ν → val' j k ν = .ok (c j ν))
    {F' : ℕ → (Fin m → K) → V}
    (hF' : ∀ j, j < p.triangles.length → ∀ v, cell p.triangles p.vertices j = .ok v → edgeDet v ≠ 0 → ∀ x,
      val p.basis m (p.r - 1) (c j) (createAffineMap (down v) x) = F' j x)
    (hoff : ∀ j, j < p.triangles.length → j ∉ p.support → ∀ x, F' j x = 0) :
    ∃ s, weakDerivative empty step p = .ok s ∧ WellFormed s ∧ s.basis = p.basis ∧ s.cont = false ∧ s.triangles = p.triangles ∧ s.vertices = p.vertices ∧
      s.boundary = p.boundary ∧ s.keepLast = p.keepLast ∧ s.r = p.r - 1 ∧ s.support = p.support ∧ s.tree = p.tree ∧ Denotes s F' := by
  have hsp : IsSpace false p.triangles p.vertices (p.r - 1) p.boundary := ⟨h.space.mesh, h.space.cells, h.space.boundary, fun h => by cases h⟩
  obtain ⟨M, N, t, hg, ht⟩ := genMap_spec hsp p.keepLast
  have hg' : discMap p.triangles (p.r - 1) p.boundary p.keepLast = .ok M := hg
  unfold weakDerivative
  simp only [hg', Py.bind_ok]
  rw [ht.toNat]
  obtain ⟨L, hL, hLl, hLn, hLe⟩ := assemble_init ht hfull h.space.mesh.ne (e := c) (S := List.range p.triangles.length)
    (step := step M (p.r - 1)) (by
      intro j hj ν hν j' hj' ν' hν' hsame
      unfold SameDof at hsame
      rw [if_neg (by simp)] at hsame
      rw [hsame.1, hsame.2])
    (fun j hj => by simpa using hj)
    (fun j hj coeff hcl => by
      have hj : j < p.triangles.length := by simpa using hj
      rw [hstep M coeff j hj, MI.generateAll_eq_mis]
      refine weakLoop_eq (N := N) (fun ν => ht.tau j hj ν) _ 0 coeff (fun ν hν => ht.full hfull hj ((mem_mis_iff m _ ν).1 hν)) hcl ?_
      intro i ν hi
      rw [Nat.zero_add]
      exact hval j hj i ν hi)
    (hempty N) (fun j hj hj' => absurd (by simpa using hj) hj')
  rw [hL, Py.bind_ok]
  have hzero : ∀ j, j < p.triangles.length → j ∉ p.support → ∀ ν, IsIndex m (p.r - 1) ν → c j ν = 0 := by
    intro j hj hj' ν hν
    obtain ⟨v, hv, hd⟩ := h.space.cells j hj
    refine val_inj (K := K) (b := p.basis) (m := m) (r := p.r - 1) (d := fun _ => 0) (fun u => ?_) hν.1 hν.2
    have := hF' j hj v hv hd (createAffineMap (up v) u)
    rw [down_up v hd, hoff j hj hj'] at this
    rw [this, val_zero]
  obtain ⟨q, q1, q2, q3, q4, q5, q6, q7, q8, q9, q10, q11, q12, q13⟩ := new_given (Tr := Tr) (mkTree := fun _ => .ok p.tree) h.basis hsp hg (hLl ▸ ht) hLn h.support
    (fun j hj hj' ν hν => by rw [hLe j hj ν hν]; exact hzero j hj hj' ν hν)
    (tree := p.tree) (Or.inr hf)
  refine ⟨q, q1, q2, q3, q4, q7, q8, q9, q10, q11, q12, q13, denotes_of q2 q6 (t := t) ?_ ?_⟩
  · rw [q4, q11, q7, q9, q10, q5, hLl]; exact ht
  · intro j hj v hv hd x
    rw [q7] at hj
    rw [q7, q8] at hv
    rw [q3, q11, q5, ← hF' j hj v hv hd x]
    exact val_congr (fun ν hν => hLe j hj ν hν) _

end

end Verif.PP
