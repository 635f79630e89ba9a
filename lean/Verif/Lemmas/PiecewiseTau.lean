import Verif.Spec.Piecewise
import Verif.Props.LocalToGlobal
/-!
# The local-to-global maps of both kinds of spaces
-/

namespace Verif.PP
open Verif Verif.Poly Verif.Simplex Verif.SPoly Verif.L2G Verif.Spec

/-- Two pairs of a simplex and a multi-index denote the same degree of freedom. -/
def SameDof (cont : Bool) (r : ℕ) (triangles : List (List ℕ)) (j : ℕ) (ν : List ℕ) (j' : ℕ) (ν' : List ℕ) : Prop :=
  if cont then latticePoint r (triangles.getD j []) ν = latticePoint r (triangles.getD j' []) ν' else j = j' ∧ ν = ν'

/-- The properties of a local-to-global map that are used for piecewise polynomials. -/
structure TauSpec (cont : Bool) (m r : ℕ) (triangles : List (List ℕ)) (boundary : Option (List (List ℕ))) (keepLast : Bool) (M : L2G.Map) (N : ℕ)
    (t : ℕ → List ℕ → ℤ) : Prop where
  tau : ∀ j : ℕ, j < triangles.length → ∀ ν, M.tau j ν = .ok (t j ν)
  num : M.numDofs = N
  range : ∀ j, j < triangles.length → ∀ ν, IsIndex m r ν → t j ν = -1 ∨ ∃ i : ℕ, i < N ∧ t j ν = i
  drop : ∀ j, j < triangles.length → ∀ ν, IsIndex m r ν →
    (t j ν = -1 ↔ keepLast = false ∧ OnBoundary (boundary.getD []) r (triangles.getD j []) ν)
  same : ∀ j, j < triangles.length → ∀ ν, IsIndex m r ν → ∀ j', j' < triangles.length → ∀ ν', IsIndex m r ν' →
    SameDof cont r triangles j ν j' ν' → t j ν = t j' ν'
  inj : ∀ j, j < triangles.length → ∀ ν, IsIndex m r ν → ∀ j', j' < triangles.length → ∀ ν', IsIndex m r ν' →
    t j ν = t j' ν' → t j ν ≠ -1 → SameDof cont r triangles j ν j' ν'
  surj : ∀ i : ℕ, i < N → ∃ j ν, j < triangles.length ∧ IsIndex m r ν ∧ t j ν = i

theorem tauSpec_of_rules {I : Type} [DecidableEq I] {R : Rules I} {cont : Bool} {m r : ℕ} {triangles : List (List ℕ)}
    {boundary : Option (List (List ℕ))} {keepLast : Bool} {M : L2G.Map}
    (hR : R.Ok (evs triangles.length (MI.mis m r)))
    (h2 : ∀ j : ℕ, j < triangles.length → ∀ nu, M.tau j nu = .ok (if nu ∈ MI.mis m r ∧ R.skip (j, nu) = false then
        ((R.pos (evs triangles.length (MI.mis m r)) (j, nu) : ℕ) : ℤ) else -1))
    (h4 : M.numDofs = ((R.F (evs triangles.length (MI.mis m r)) ++ R.B (evs triangles.length (MI.mis m r))).length : ℤ))
    (hskip : ∀ j, j < triangles.length → ∀ ν, IsIndex m r ν →
      (R.skip (j, ν) = false ↔ (keepLast = true ∨ ¬ OnBoundary (boundary.getD []) r (triangles.getD j []) ν)))
    (hid : ∀ j, j < triangles.length → ∀ ν, IsIndex m r ν → ∀ j', j' < triangles.length → ∀ ν', IsIndex m r ν' →
      (R.id (j, ν) = R.id (j', ν') ↔ SameDof cont r triangles j ν j' ν')) :
    ∃ N t, TauSpec cont m r triangles boundary keepLast M N t := by
  refine ⟨_, _, ⟨h2, h4, ?_, ?_, ?_, ?_, ?_⟩⟩
  · intro j hj ν hν
    by_cases hs : R.skip (j, ν) = false
    · exact Or.inr ⟨_, pos_lt (mem_evs_iff.2 ⟨hj, hν⟩) hs, by rw [if_pos ⟨(mem_mis_iff m r ν).2 hν, hs⟩]⟩
    · exact Or.inl (if_neg (fun h => hs h.2))
  · intro j hj ν hν
    have h := hskip j hj ν hν
    by_cases hs : R.skip (j, ν) = false
    · rw [if_pos ⟨(mem_mis_iff m r ν).2 hν, hs⟩]
      constructor
      · intro h'; omega
      · rintro ⟨h5, h6⟩
        rcases h.1 hs with h7 | h7
        · rw [h5] at h7; cases h7
        · exact absurd h6 h7
    · rw [if_neg (fun h => hs h.2)]
      refine ⟨fun _ => ?_, fun _ => rfl⟩
      by_contra hc
      refine hs (h.2 ?_)
      by_cases hk : keepLast = true
      · exact Or.inl hk
      · exact Or.inr (fun ho => hc ⟨by simpa using hk, ho⟩)
  · intro j hj ν hν j' hj' ν' hν' hsame
    have h1 := (hid j hj ν hν j' hj' ν' hν').2 hsame
    have h3 := hR.skip _ (mem_evs_iff.2 ⟨hj, hν⟩) _ (mem_evs_iff.2 ⟨hj', hν'⟩) h1
    by_cases hs : R.skip (j, ν) = false
    · rw [if_pos ⟨(mem_mis_iff m r ν).2 hν, hs⟩, if_pos ⟨(mem_mis_iff m r ν').2 hν', by rw [← h3]; exact hs⟩,
        (pos_eq_iff (mem_evs_iff.2 ⟨hj, hν⟩) hs).2 h1]
    · rw [if_neg (fun h => hs h.2), if_neg (fun h => hs (by rw [h3]; exact h.2))]
  · intro j hj ν hν j' hj' ν' hν' heq hne
    by_cases hs : R.skip (j, ν) = false
    · rw [if_pos ⟨(mem_mis_iff m r ν).2 hν, hs⟩] at heq
      by_cases hs' : R.skip (j', ν') = false
      · rw [if_pos ⟨(mem_mis_iff m r ν').2 hν', hs'⟩] at heq
        exact (hid j hj ν hν j' hj' ν' hν').1 ((pos_eq_iff (mem_evs_iff.2 ⟨hj, hν⟩) hs).1 (by exact_mod_cast heq))
      · rw [if_neg (fun h => hs' h.2)] at heq
        omega
    · exact absurd (if_neg (fun h => hs h.2)) hne
  · intro i hi
    obtain ⟨e, he, hs, hp⟩ := pos_surj hR hi
    have he' := mem_evs_iff.1 he
    exact ⟨e.1, e.2, he'.1, he'.2, by rw [if_pos ⟨(mem_mis_iff m r e.2).2 he'.2, hs⟩, ← hp]⟩

variable {K : Type} [Field K] [DecidableEq K] {m r : ℕ} {cont : Bool} {triangles : List (List ℕ)} {vertices : List (Fin m → K)}
  {boundary : Option (List (List ℕ))}

theorem genMap_spec (h : IsSpace cont triangles vertices r boundary) (keepLast : Bool) :
    ∃ M N t, genMap cont triangles r boundary keepLast = .ok M ∧ TauSpec cont m r triangles boundary keepLast M N t := by
  obtain ⟨bset, hb1, hb2⟩ := mem_boundarySet h.boundary
  have hm := h.mesh
  cases cont with
  | false =>
    obtain ⟨M, h1, h2, -, h4, -⟩ := discMap_ok (r := r) hm hb1 keepLast
    obtain ⟨N, t, ht⟩ := tauSpec_of_rules (cont := false) (boundary := boundary) (keepLast := keepLast) (discRules_ok triangles r bset keepLast _) h2 h4
      (fun j hj ν hν => by rw [getD_triangles hj]; exact (disc_skip hm hb2 keepLast hj hν).1)
      (fun j hj ν hν j' hj' ν' hν' => by simp [discRules, SameDof])
    exact ⟨M, N, t, h1, ht⟩
  | true =>
    obtain ⟨hd, hr⟩ := h.continuous rfl
    obtain ⟨M, h1, h2, -, h4, -⟩ := contMap_ok hr hm hd hb1 keepLast
    obtain ⟨N, t, ht⟩ := tauSpec_of_rules (cont := true) (boundary := boundary) (keepLast := keepLast) (contRules_ok hm hd bset keepLast) h2 h4
      (fun j hj ν hν => by rw [getD_triangles hj]; exact (cont_skip hr hm hb2 keepLast hj hν).1)
      (fun j hj ν hν j' hj' ν' hν' => by
        have hT := hm.simplex _ (List.getElem_mem hj)
        have hT' := hm.simplex _ (List.getElem_mem hj')
        simp only [contRules, SameDof, if_true]
        rw [getD_triangles hj, getD_triangles hj']
        exact pts_eq_iff hT.2 (by rw [hT.1, hν.1]) hT'.2 (by rw [hT'.1, hν'.1]))
    exact ⟨M, N, t, h1, ht⟩

theorem isIndex_iff {ν : List ℕ} : IsIndex m r ν ↔ ∃ μ ∈ S m r, ν = List.ofFn μ := by
  constructor
  · rintro ⟨h1, h2⟩
    obtain ⟨μ, rfl⟩ := eq_ofFn h1
    exact ⟨μ, mem_S.2 (by rwa [List.sum_ofFn] at h2), rfl⟩
  · rintro ⟨μ, h, rfl⟩
    exact ⟨by simp, by rw [List.sum_ofFn]; exact mem_S.1 h⟩

/-- In a space without dropped degrees of freedom all numbers are indices. -/
theorem TauSpec.full {keepLast : Bool} {M : L2G.Map} {N : ℕ} {t : ℕ → List ℕ → ℤ}
    (h : TauSpec cont m r triangles boundary keepLast M N t) (hf : keepLast = true ∨ boundary.getD [] = []) {j : ℕ} (hj : j < triangles.length)
    {ν : List ℕ} (hν : IsIndex m r ν) : ∃ i : ℕ, i < N ∧ t j ν = i := by
  rcases h.range j hj ν hν with h1 | h1
  · obtain ⟨h2, h3⟩ := (h.drop j hj ν hν).1 h1
    rcases hf with hf | hf
    · rw [h2] at hf; cases hf
    · rw [hf] at h3
      obtain ⟨b, hb, -⟩ := h3
      simp at hb
  · exact h1

/-- No degree of freedom is dropped. -/
def NoDrop (m r : ℕ) (triangles : List (List ℕ)) (boundary : Option (List (List ℕ))) (keepLast : Bool) : Prop :=
  keepLast = true ∨ ∀ T ∈ triangles, ∀ ν, IsIndex m r ν → ¬ OnBoundary (boundary.getD []) r T ν

theorem NoDrop.of_full {keepLast : Bool} (hf : keepLast = true ∨ boundary.getD [] = []) : NoDrop m r triangles boundary keepLast := by
  rcases hf with hf | hf
  · exact Or.inl hf
  · refine Or.inr fun T _ ν _ ho => ?_
    rw [hf] at ho
    obtain ⟨b, hb, -⟩ := ho
    simp at hb

theorem TauSpec.full' {keepLast : Bool} {M : L2G.Map} {N : ℕ} {t : ℕ → List ℕ → ℤ}
    (h : TauSpec cont m r triangles boundary keepLast M N t) (hf : NoDrop m r triangles boundary keepLast) {j : ℕ} (hj : j < triangles.length)
    {ν : List ℕ} (hν : IsIndex m r ν) : ∃ i : ℕ, i < N ∧ t j ν = i := by
  rcases h.range j hj ν hν with h1 | h1
  · obtain ⟨h2, h3⟩ := (h.drop j hj ν hν).1 h1
    rcases hf with hf | hf
    · rw [h2] at hf; cases hf
    · rw [getD_triangles hj] at h3
      exact absurd h3 (hf _ (List.getElem_mem hj) ν hν)
  · exact h1

end Verif.PP
