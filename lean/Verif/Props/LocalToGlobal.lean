import Verif.Lemmas.LocalToGlobalRules
/-!
# C43, C44, C45: the numbering of degrees of freedom
-/

namespace Verif.L2G
open Verif Verif.Spec

variable {n r : ℕ} {triangles : List (List ℕ)} {boundary : Option (List (List ℕ))} {bset : List (List ℕ)}

theorem disc_skip (hm : IsMesh n triangles)
    (hb : ∀ t, t ∈ bset ↔ t ≠ [] ∧ t.Pairwise (· < ·) ∧ ∃ b ∈ boundary.getD [], ∀ x ∈ t, x ∈ b) (keep : Bool) {j : ℕ}
    (hj : j < triangles.length) {ν : List ℕ} (hν : IsIndex n r ν) :
    ((discRules triangles r bset keep).skip (j, ν) = false ↔ (keep = true ∨ ¬ OnBoundary (boundary.getD []) r triangles[j] ν)) ∧
    ((discRules triangles r bset keep).bnd (j, ν) = false ↔ (keep = false ∨ ¬ OnBoundary (boundary.getD []) r triangles[j] ν)) := by
  have hT := hm.simplex _ (List.getElem_mem hj)
  have h := carrier_mem_iff hb (r := r) (mi := ν) hT.2 (by rw [hT.1, hν.1]) hν.2
  simp only [discRules, getD_triangles hj]
  rw [← h]
  cases keep <;> simp

theorem cont_skip (hr : r ≠ 0) (hm : IsMesh n triangles)
    (hb : ∀ t, t ∈ bset ↔ t ≠ [] ∧ t.Pairwise (· < ·) ∧ ∃ b ∈ boundary.getD [], ∀ x ∈ t, x ∈ b) (keep : Bool) {j : ℕ}
    (hj : j < triangles.length) {ν : List ℕ} (hν : IsIndex n r ν) :
    ((contRules triangles n r bset keep).skip (j, ν) = false ↔ (keep = true ∨ ¬ OnBoundary (boundary.getD []) r triangles[j] ν)) ∧
    ((∀ b ∈ boundary.getD [], ¬ ∀ v ∈ triangles[j], v ∈ b) →
      ((contRules triangles n r bset keep).bnd (j, ν) = false ↔ (keep = false ∨ ¬ OnBoundary (boundary.getD []) r triangles[j] ν))) := by
  have hT := hm.simplex _ (List.getElem_mem hj)
  have hl : triangles[j].length = ν.length + 1 := by rw [hT.1, hν.1]
  have h := carrier_mem_iff hb (r := r) (mi := ν) hT.2 hl hν.2
  unfold carrier at h
  rw [if_pos (Nat.pos_of_ne_zero hr)] at h
  simp only [contRules, getD_triangles hj]
  rw [← h]
  refine ⟨by cases keep <;> simp, fun hf => ?_⟩
  cases keep with
  | false => simp
  | true =>
    have : (pts r triangles[j] ν).length = n + 1 → (pts r triangles[j] ν).map Prod.fst ∉ bset := by
      intro h1 h2
      obtain ⟨-, -, b, h3, h4⟩ := (hb _).1 h2
      exact hf b h3 (fun v hv => h4 v ((mem_fst_pts_full hT.2 hl hν.1 h1 v).2 hv))
    by_cases h1 : (pts r triangles[j] ν).length = n + 1
    · simp [this h1]
    · simp [h1]

theorem mem_evs_iff {e : ℕ × List ℕ} : e ∈ evs triangles.length (MI.mis n r) ↔ e.1 < triangles.length ∧ IsIndex n r e.2 := by
  rw [mem_evs, mem_mis_iff]

/-- **C43** The local-to-global map of a discontinuous space: the pairs of a simplex and a multi-index that are not on a boundary simplex get numbers
below the returned number `N` of degrees of freedom, each number belongs to exactly one pair, the value is -1 for the multi-indices that are
on a boundary simplex and for everything that is not a multi-index of the space, and a simplex index out of range is rejected. -/
theorem C43_bijection (hm : IsMesh n triangles) (hb : AreSimplices (boundary.getD [])) :
    ∃ M, ∃ N : ℕ, discMap triangles r boundary false = .ok M ∧ M.numDofs = N ∧ M.numInterior = none ∧
      (∀ (j : ℕ) (hj : j < triangles.length) (ν : List ℕ), IsIndex n r ν → ¬ OnBoundary (boundary.getD []) r triangles[j] ν →
        ∃ i : ℕ, i < N ∧ M.tau j ν = .ok (i : ℤ)) ∧
      (∀ i : ℕ, i < N → ∃! p : ℕ × List ℕ, p.1 < triangles.length ∧ M.tau p.1 p.2 = .ok (i : ℤ)) ∧
      (∀ (j : ℕ) (hj : j < triangles.length) (ν : List ℕ), ¬ IsIndex n r ν ∨ OnBoundary (boundary.getD []) r triangles[j] ν →
        M.tau j ν = .ok (-1)) ∧
      (∀ (j : ℤ) (ν : List ℕ), j < 0 ∨ (triangles.length : ℤ) ≤ j → M.tau j ν = .error .assertion) := by
  obtain ⟨bset, hb1, hb2⟩ := mem_boundarySet hb
  obtain ⟨M, h1, h2, h3, h4, h5⟩ := discMap_ok (r := r) hm hb1 false
  have hR := discRules_ok triangles r bset false (evs triangles.length (MI.mis n r))
  refine ⟨M, _, h1, h4, h5, ?_, ?_, ?_, h3⟩
  · intro j hj ν hν hnb
    have hs := (disc_skip hm hb2 false hj hν).1.2 (Or.inr hnb)
    refine ⟨_, pos_lt (mem_evs_iff.2 ⟨hj, hν⟩) hs, ?_⟩
    rw [h2 j hj, if_pos ⟨(mem_mis_iff n r ν).2 hν, hs⟩]
  · intro i hi
    obtain ⟨e, he, hs, hp⟩ := pos_surj hR hi
    have he' := mem_evs_iff.1 he
    refine ⟨e, ⟨he'.1, ?_⟩, ?_⟩
    · rw [h2 e.1 he'.1, if_pos ⟨(mem_mis_iff n r e.2).2 he'.2, hs⟩, ← hp]
    · rintro ⟨j, ν⟩ ⟨hj, hv⟩
      rw [h2 j hj] at hv
      by_cases hc : ν ∈ MI.mis n r ∧ (discRules triangles r bset false).skip (j, ν) = false
      · rw [if_pos hc] at hv
        have hv' : (discRules triangles r bset false).pos (evs triangles.length (MI.mis n r)) (j, ν) = i := by
          exact_mod_cast Except.ok.inj hv
        exact (pos_eq_iff (mem_evs_iff.2 ⟨hj, (mem_mis_iff n r ν).1 hc.1⟩) hc.2).1 (by rw [hv', hp])
      · rw [if_neg hc] at hv
        have := Except.ok.inj hv
        omega
  · intro j hj ν hν
    rw [h2 j hj, if_neg]
    rintro ⟨h6, h7⟩
    rcases hν with hν | hν
    · exact hν ((mem_mis_iff n r ν).1 h6)
    · rcases (disc_skip hm hb2 false hj ((mem_mis_iff n r ν).1 h6)).1.1 h7 with h8 | h8
      · cases h8
      · exact h8 hν

/-- **C43** An empty mesh raises IndexError. -/
theorem C43_empty (r : ℕ) (boundary : Option (List (List ℕ))) (keep : Bool) : discMap [] r boundary keep = .error .index := rfl

/-! ## The inverse map -/

theorem inverseDict_ok {α : Type} (tau : α → Py Int) : ∀ (args : List α) (d : List (Int × α)),
    (∀ a ∈ args, ∃ v, tau a = .ok v) →
    ∃ d', args.foldlM (fun d a => do
        let dof ← tau a
        if dof = -1 then return d
        else return dset d dof a) d = (.ok d' : Py (List (Int × α))) ∧
      (∀ i a, dget? d' i = some a → dget? d i = some a ∨ (a ∈ args ∧ tau a = .ok i ∧ i ≠ -1)) ∧
      (∀ i, (dget? d i).isSome → (dget? d' i).isSome) ∧
      (∀ a ∈ args, ∀ i, tau a = .ok i → i ≠ -1 → (dget? d' i).isSome)
  | [], d, _ => ⟨d, rfl, fun i a h => Or.inl h, fun i h => h, fun a ha => by simp at ha⟩
  | a :: args, d, h => by
    obtain ⟨v, hv⟩ := h a (by simp)
    by_cases h1 : v = -1
    · obtain ⟨d', h2, h3, h4, h5⟩ := inverseDict_ok tau args d (fun b hb => h b (by simp [hb]))
      refine ⟨d', ?_, ?_, h4, ?_⟩
      · rw [List.foldlM_cons, hv, Py.bind_ok, if_pos h1, Py.pure_eq, Py.bind_ok, h2]
      · intro i b hb
        rcases h3 i b hb with h6 | h6
        · exact Or.inl h6
        · exact Or.inr ⟨by simp [h6.1], h6.2⟩
      · intro b hb i hi hne
        rcases List.mem_cons.1 hb with rfl | hb
        · rw [hv] at hi
          exact absurd ((Except.ok.inj hi).symm.trans h1) hne
        · exact h5 b hb i hi hne
    · obtain ⟨d', h2, h3, h4, h5⟩ := inverseDict_ok tau args (dset d v a) (fun b hb => h b (by simp [hb]))
      refine ⟨d', ?_, ?_, ?_, ?_⟩
      · rw [List.foldlM_cons, hv, Py.bind_ok, if_neg h1, Py.pure_eq, Py.bind_ok, h2]
      · intro i b hb
        rcases h3 i b hb with h6 | h6
        · rw [dget?_dset] at h6
          by_cases h7 : v = i
          · rw [if_pos h7] at h6
            rw [← Option.some.inj h6, ← h7]
            exact Or.inr ⟨by simp, hv, h1⟩
          · rw [if_neg h7] at h6
            exact Or.inl h6
        · exact Or.inr ⟨by simp [h6.1], h6.2⟩
      · intro i hi
        refine h4 i ?_
        rw [dget?_dset]
        split
        · rfl
        · exact hi
      · intro b hb i hi hne
        rcases List.mem_cons.1 hb with rfl | hb
        · rw [hv] at hi
          refine h4 i ?_
          rw [dget?_dset, if_pos (Except.ok.inj hi)]
          rfl
        · exact h5 b hb i hi hne

theorem inverse_general {α : Type} (tau : α → Py Int) (args : List α) (numDofs : ℤ) (h : ∀ a ∈ args, ∃ v, tau a = .ok v) :
    ∃ d, inverseDict tau args = .ok d ∧
      (∀ i : ℤ, i < 0 ∨ numDofs ≤ i → inverseOf numDofs d i = .error .assertion) ∧
      (∀ i : ℤ, 0 ≤ i → i < numDofs →
        (∃ a ∈ args, tau a = .ok i ∧ inverseOf numDofs d i = .ok a) ∨
        ((∀ a ∈ args, tau a ≠ .ok i) ∧ inverseOf numDofs d i = .error .key)) := by
  obtain ⟨d, h1, h2, -, h3⟩ := inverseDict_ok tau args [] h
  refine ⟨d, h1, ?_, ?_⟩
  · intro i hi
    unfold inverseOf
    by_cases h0 : i < 0
    · have : decide (i ≥ 0) = false := by simpa using h0
      rw [this]; rfl
    · have e1 : decide (i ≥ 0) = true := by simpa using h0
      have e2 : decide (i < numDofs) = false := by simp; omega
      rw [e1, e2]; rfl
  · intro i h0 hN
    have e1 : decide (i ≥ 0) = true := by simpa using h0
    have e2 : decide (i < numDofs) = true := by simpa using hN
    have e3 : inverseOf numDofs d i = keyE (dget? d i) := by
      unfold inverseOf
      rw [e1, e2]; rfl
    rw [e3]
    cases hd : dget? d i with
    | none =>
      right
      refine ⟨fun a ha hta => ?_, rfl⟩
      have := h3 a ha i hta (by omega)
      rw [hd] at this
      cases this
    | some a =>
      left
      rcases h2 i a hd with h4 | h4
      · simp [dget?] at h4
      · exact ⟨a, h4.1, h4.2.1, rfl⟩

theorem mem_pairs (T : ℕ) (mis : List (List ℕ)) (a : ℤ × List ℕ) : a ∈ pairs T mis ↔ ∃ j : ℕ, j < T ∧ a.1 = j ∧ a.2 ∈ mis := by
  obtain ⟨j, ν⟩ := a
  simp only [pairs, List.mem_flatMap, List.mem_range, List.mem_map, Prod.mk.injEq]
  constructor
  · rintro ⟨k, h1, mi, h2, h3, h4⟩
    exact ⟨k, h1, h3.symm, by rw [← h4]; exact h2⟩
  · rintro ⟨k, h1, h2, h3⟩
    exact ⟨k, h1, ν, h3, h2.symm, rfl⟩

/-- **C43** The inverse map of any map `tau` that is defined on all pairs: for a number `i` in range it returns a pair of a simplex and a
multi-index with the number `i`, or raises KeyError if there is no such pair; a number out of range is rejected. -/
theorem C43_inverse (tau : ℤ → List ℕ → Py ℤ) (T m r : ℕ) (numDofs : ℤ) (h : ∀ j : ℕ, j < T → ∀ ν, IsIndex m r ν → ∃ v, tau j ν = .ok v) :
    ∃ inv, inverseMap tau T numDofs r m = .ok inv ∧
      (∀ i : ℤ, i < 0 ∨ numDofs ≤ i → inv i = .error .assertion) ∧
      (∀ i : ℤ, 0 ≤ i → i < numDofs →
        (∃ j : ℕ, ∃ ν, j < T ∧ IsIndex m r ν ∧ tau j ν = .ok i ∧ inv i = .ok ((j : ℤ), ν)) ∨
        ((∀ j : ℕ, j < T → ∀ ν, IsIndex m r ν → tau j ν ≠ .ok i) ∧ inv i = .error .key)) := by
  obtain ⟨d, h1, h2, h3⟩ := inverse_general (fun a : ℤ × List ℕ => tau a.1 a.2) (pairs T (MI.generateAll m r)) numDofs (by
    intro a ha
    obtain ⟨j, hj, hj', hν⟩ := (mem_pairs _ _ _).1 ha
    rw [MI.generateAll_eq_mis, mem_mis_iff] at hν
    rw [hj']
    exact h j hj _ hν)
  refine ⟨inverseOf numDofs d, ?_, h2, ?_⟩
  · unfold inverseMap
    rw [h1]
    rfl
  · intro i h0 hN
    rcases h3 i h0 hN with ⟨a, ha, h4, h5⟩ | ⟨h4, h5⟩
    · left
      obtain ⟨j, hj, hj', hν⟩ := (mem_pairs _ _ _).1 ha
      rw [MI.generateAll_eq_mis, mem_mis_iff] at hν
      refine ⟨j, a.2, hj, hν, by rw [← hj']; exact h4, by rw [h5, ← hj']⟩
    · right
      refine ⟨fun j hj ν hν => ?_, h5⟩
      refine h4 ((j : ℤ), ν) ((mem_pairs _ _ _).2 ⟨j, hj, rfl, ?_⟩)
      rw [MI.generateAll_eq_mis, mem_mis_iff]
      exact hν

/-- **C43** For the map of a discontinuous space the inverse is a two-sided inverse. -/
theorem C43_inverse_bijection (hm : IsMesh n triangles) (hb : AreSimplices (boundary.getD [])) :
    ∃ M inv, discMap triangles r boundary false = .ok M ∧ inverseMap M.tau triangles.length M.numDofs r n = .ok inv ∧
      (∀ (j : ℕ) (hj : j < triangles.length) (ν : List ℕ), IsIndex n r ν → ¬ OnBoundary (boundary.getD []) r triangles[j] ν →
        ∃ i : ℤ, M.tau j ν = .ok i ∧ inv i = .ok ((j : ℤ), ν)) ∧
      (∀ i : ℤ, 0 ≤ i → i < M.numDofs → ∃ p, inv i = .ok p ∧ M.tau p.1 p.2 = .ok i) := by
  obtain ⟨M, N, h1, h2, -, h4, h5, h6, -⟩ := C43_bijection (r := r) hm hb
  obtain ⟨inv, g1, -, g2⟩ := C43_inverse M.tau triangles.length n r M.numDofs (by
    intro j hj ν hν
    by_cases hc : OnBoundary (boundary.getD []) r triangles[j] ν
    · exact ⟨_, h6 j hj ν (Or.inr hc)⟩
    · obtain ⟨i, -, hi⟩ := h4 j hj ν hν hc
      exact ⟨_, hi⟩)
  have key : ∀ i : ℤ, 0 ≤ i → i < M.numDofs → ∃ j : ℕ, ∃ ν, j < triangles.length ∧ M.tau j ν = .ok i ∧ inv i = .ok ((j : ℤ), ν) := by
    intro i h0 hN
    rcases g2 i h0 hN with ⟨j, ν, hj, -, hv, hi⟩ | ⟨hno, -⟩
    · exact ⟨j, ν, hj, hv, hi⟩
    · exfalso
      obtain ⟨p, ⟨hp1, hp2⟩, -⟩ := h5 i.toNat (by omega)
      rw [Int.toNat_of_nonneg h0] at hp2
      refine hno p.1 hp1 p.2 ?_ hp2
      by_contra hc
      rw [h6 p.1 hp1 p.2 (Or.inl hc)] at hp2
      have := Except.ok.inj hp2
      omega
  refine ⟨M, inv, h1, g1, ?_, ?_⟩
  · intro j hj ν hν hnb
    obtain ⟨i, hi, hv⟩ := h4 j hj ν hν hnb
    refine ⟨i, hv, ?_⟩
    obtain ⟨j', ν', hj', hv', hinv⟩ := key i (by omega) (by omega)
    have := (h5 i hi).unique (y₁ := (j, ν)) (y₂ := (j', ν')) ⟨hj, hv⟩ ⟨hj', hv'⟩
    obtain ⟨rfl, rfl⟩ := Prod.mk.inj this
    exact hinv
  · intro i h0 hN
    obtain ⟨j, ν, -, hv, hinv⟩ := key i h0 hN
    exact ⟨_, hinv, hv⟩

/-! ## Continuous spaces -/

/-- **C44** The local-to-global map of a continuous space of degree `r ≥ 1`: the pairs of a simplex and a multi-index that are not on a boundary
simplex get numbers below the returned number `N` of degrees of freedom; two of them get the same number exactly if they denote the same point;
all numbers below `N` are used; the value is -1 for the multi-indices on a boundary simplex and for everything that is not a multi-index of the
space, and a simplex index out of range is rejected. -/
theorem C44_numbering (hr : r ≠ 0) (hm : IsMesh n triangles) (hd : NoDuplicates triangles) (hb : AreSimplices (boundary.getD [])) :
    ∃ M, ∃ N : ℕ, contMap triangles r boundary false = .ok M ∧ M.numDofs = N ∧ M.numInterior = none ∧
      (∀ (j : ℕ) (hj : j < triangles.length) (ν : List ℕ), IsIndex n r ν → ¬ OnBoundary (boundary.getD []) r triangles[j] ν →
        ∃ i : ℕ, i < N ∧ M.tau j ν = .ok (i : ℤ)) ∧
      (∀ (j : ℕ) (hj : j < triangles.length) (ν : List ℕ) (j' : ℕ) (hj' : j' < triangles.length) (ν' : List ℕ),
        IsIndex n r ν → ¬ OnBoundary (boundary.getD []) r triangles[j] ν → IsIndex n r ν' → ¬ OnBoundary (boundary.getD []) r triangles[j'] ν' →
        (M.tau j ν = M.tau j' ν' ↔ latticePoint r triangles[j] ν = latticePoint r triangles[j'] ν')) ∧
      (∀ i : ℕ, i < N → ∃ (j : ℕ) (hj : j < triangles.length) (ν : List ℕ), IsIndex n r ν ∧
        ¬ OnBoundary (boundary.getD []) r triangles[j] ν ∧ M.tau j ν = .ok (i : ℤ)) ∧
      (∀ (j : ℕ) (hj : j < triangles.length) (ν : List ℕ), ¬ IsIndex n r ν ∨ OnBoundary (boundary.getD []) r triangles[j] ν →
        M.tau j ν = .ok (-1)) ∧
      (∀ (j : ℤ) (ν : List ℕ), j < 0 ∨ (triangles.length : ℤ) ≤ j → M.tau j ν = .error .assertion) := by
  obtain ⟨bset, hb1, hb2⟩ := mem_boundarySet hb
  obtain ⟨M, h1, h2, h3, h4, h5⟩ := contMap_ok hr hm hd hb1 false
  have hR := contRules_ok (r := r) hm hd bset false
  refine ⟨M, _, h1, h4, h5, ?_, ?_, ?_, ?_, h3⟩
  · intro j hj ν hν hnb
    have hs := (cont_skip hr hm hb2 false hj hν).1.2 (Or.inr hnb)
    refine ⟨_, pos_lt (mem_evs_iff.2 ⟨hj, hν⟩) hs, ?_⟩
    rw [h2 j hj, if_pos ⟨(mem_mis_iff n r ν).2 hν, hs⟩]
  · intro j hj ν j' hj' ν' hν hnb hν' hnb'
    have hs := (cont_skip hr hm hb2 false hj hν).1.2 (Or.inr hnb)
    have hs' := (cont_skip hr hm hb2 false hj' hν').1.2 (Or.inr hnb')
    have hT := hm.simplex _ (List.getElem_mem hj)
    have hT' := hm.simplex _ (List.getElem_mem hj')
    rw [h2 j hj, if_pos ⟨(mem_mis_iff n r ν).2 hν, hs⟩, h2 j' hj', if_pos ⟨(mem_mis_iff n r ν').2 hν', hs'⟩,
      ← pts_eq_iff hT.2 (by rw [hT.1, hν.1]) hT'.2 (by rw [hT'.1, hν'.1])]
    have h6 := pos_eq_iff (e' := (j', ν')) (mem_evs_iff.2 ⟨hj, hν⟩) hs
    have h7 : (contRules triangles n r bset false).id (j, ν) = (contRules triangles n r bset false).id (j', ν') ↔
        pts r triangles[j] ν = pts r triangles[j'] ν' := by
      simp only [contRules, getD_triangles hj, getD_triangles hj']
    rw [← h7, ← h6]
    constructor
    · intro h
      exact_mod_cast Except.ok.inj h
    · intro h
      rw [h]
  · intro i hi
    obtain ⟨e, he, hs, hp⟩ := pos_surj hR hi
    have he' := mem_evs_iff.1 he
    refine ⟨e.1, he'.1, e.2, he'.2, ?_, ?_⟩
    · rcases (cont_skip hr hm hb2 false he'.1 he'.2).1.1 hs with h8 | h8
      · cases h8
      · exact h8
    · rw [h2 e.1 he'.1, if_pos ⟨(mem_mis_iff n r e.2).2 he'.2, hs⟩, ← hp]
  · intro j hj ν hν
    rw [h2 j hj, if_neg]
    rintro ⟨h6, h7⟩
    rcases hν with hν | hν
    · exact hν ((mem_mis_iff n r ν).1 h6)
    · rcases (cont_skip hr hm hb2 false hj ((mem_mis_iff n r ν).1 h6)).1.1 h7 with h8 | h8
      · cases h8
      · exact h8 hν

/-- **C44** Degree zero is rejected, an empty mesh raises IndexError. -/
theorem C44_errors (triangles : List (List ℕ)) (r : ℕ) (boundary : Option (List (List ℕ))) (keep : Bool) :
    contMap triangles 0 boundary keep = .error .assertion ∧ contMap [] (r + 1) boundary keep = .error .index := ⟨rfl, rfl⟩

/-! ## The preimage map -/

theorem preimageDict_ok {α : Type} [DecidableEq α] (tau : α → Py Int) : ∀ (args : List α) (d : List (Int × List α)),
    (∀ a ∈ args, ∃ v, tau a = .ok v) →
    ∃ d', args.foldlM (fun d a => do
        let dof ← tau a
        if dof = -1 then return d
        else
          match dget? d dof with
          | some s => return dset d dof (s ∪ [a])
          | none => return dset d dof [a]) d = (.ok d' : Py (List (Int × List α))) ∧
      (∀ i a, (∃ s, dget? d' i = some s ∧ a ∈ s) ↔ (∃ s, dget? d i = some s ∧ a ∈ s) ∨ (a ∈ args ∧ tau a = .ok i ∧ i ≠ -1)) ∧
      (∀ i, (dget? d' i).isSome ↔ (dget? d i).isSome ∨ ∃ a ∈ args, tau a = .ok i ∧ i ≠ -1)
  | [], d, _ => ⟨d, rfl, fun i a => by simp, fun i => by simp⟩
  | a :: args, d, h => by
    obtain ⟨v, hv⟩ := h a (by simp)
    by_cases h1 : v = -1
    · obtain ⟨d', h2, h3, h4⟩ := preimageDict_ok tau args d (fun b hb => h b (by simp [hb]))
      refine ⟨d', ?_, ?_, ?_⟩
      · rw [List.foldlM_cons, hv, Py.bind_ok, if_pos h1, Py.pure_eq, Py.bind_ok, h2]
      · intro i b
        rw [h3, List.mem_cons]
        refine or_congr_right ⟨fun h => ⟨Or.inr h.1, h.2⟩, ?_⟩
        rintro ⟨h5 | h5, h6, h7⟩
        · rw [h5, hv] at h6
          exact absurd ((Except.ok.inj h6).symm.trans h1) h7
        · exact ⟨h5, h6, h7⟩
      · intro i
        rw [h4]
        refine or_congr_right ⟨?_, ?_⟩
        · rintro ⟨b, hb, h5⟩
          exact ⟨b, by simp [hb], h5⟩
        · rintro ⟨b, hb, h6, h7⟩
          rcases List.mem_cons.1 hb with h5 | h5
          · rw [h5, hv] at h6
            exact absurd ((Except.ok.inj h6).symm.trans h1) h7
          · exact ⟨b, h5, h6, h7⟩
    · have hstep : ∃ s', (match dget? d v with
          | some s => (return dset d v (s ∪ [a]) : Py (List (Int × List α)))
          | none => return dset d v [a]) = .ok (dset d v s') ∧ ∀ b, b ∈ s' ↔ (∃ s, dget? d v = some s ∧ b ∈ s) ∨ b = a := by
        cases hd : dget? d v with
        | none => exact ⟨[a], rfl, fun b => by simp⟩
        | some s => exact ⟨s ∪ [a], rfl, fun b => by simp⟩
      obtain ⟨s', hs1, hs2⟩ := hstep
      obtain ⟨d', h2, h3, h4⟩ := preimageDict_ok tau args (dset d v s') (fun b hb => h b (by simp [hb]))
      refine ⟨d', ?_, ?_, ?_⟩
      · rw [List.foldlM_cons, hv, Py.bind_ok, if_neg h1, hs1, Py.bind_ok, h2]
      · intro i b
        rw [h3, dget?_dset, List.mem_cons]
        by_cases h5 : v = i
        · subst h5
          simp only [if_true, Option.some.injEq, exists_eq_left', hs2]
          constructor
          · rintro ((h6 | h6) | h6)
            · exact Or.inl h6
            · exact Or.inr ⟨Or.inl h6, by rw [h6]; exact hv, h1⟩
            · exact Or.inr ⟨Or.inr h6.1, h6.2⟩
          · rintro (h6 | ⟨h6 | h6, h7⟩)
            · exact Or.inl (Or.inl h6)
            · exact Or.inl (Or.inr h6)
            · exact Or.inr ⟨h6, h7⟩
        · rw [if_neg h5]
          refine or_congr_right ⟨fun h => ⟨Or.inr h.1, h.2⟩, ?_⟩
          rintro ⟨h6 | h6, h7, h8⟩
          · rw [h6, hv] at h7
            exact absurd (Except.ok.inj h7) h5
          · exact ⟨h6, h7, h8⟩
      · intro i
        rw [h4, dget?_dset]
        by_cases h5 : v = i
        · subst h5
          simp only [if_true, Option.isSome_some, true_or, true_iff]
          exact Or.inr ⟨a, by simp, hv, h1⟩
        · rw [if_neg h5]
          refine or_congr_right ⟨?_, ?_⟩
          · rintro ⟨b, hb, h6⟩
            exact ⟨b, by simp [hb], h6⟩
          · rintro ⟨b, hb, h7, h8⟩
            rcases List.mem_cons.1 hb with h6 | h6
            · rw [h6, hv] at h7
              exact absurd (Except.ok.inj h7) h5
            · exact ⟨b, h6, h7, h8⟩

theorem preimageOf_ok {α : Type} [DecidableEq α] (numDofs : ℤ) (d : List (ℤ × List α)) : ∀ (si : List ℤ) (acc : List α),
    (∀ i ∈ si, 0 ≤ i ∧ i < numDofs ∧ (dget? d i).isSome) →
    ∃ l, si.foldlM (fun value i => do
        pyAssert (decide (i ≥ 0))
        pyAssert (decide (i < numDofs))
        let s ← keyE (dget? d i)
        return value ∪ s) acc = (.ok l : Py (List α)) ∧ ∀ a, a ∈ l ↔ a ∈ acc ∨ ∃ i ∈ si, ∃ s, dget? d i = some s ∧ a ∈ s
  | [], acc, _ => ⟨acc, rfl, fun a => by simp⟩
  | i :: si, acc, h => by
    obtain ⟨h1, h2, h3⟩ := h i (by simp)
    obtain ⟨s, hs⟩ := Option.isSome_iff_exists.1 h3
    obtain ⟨l, h4, h5⟩ := preimageOf_ok numDofs d si (acc ∪ s) (fun k hk => h k (by simp [hk]))
    have e1 : decide (i ≥ 0) = true := by simpa using h1
    have e2 : decide (i < numDofs) = true := by simpa using h2
    refine ⟨l, ?_, ?_⟩
    · rw [List.foldlM_cons, e1, e2, hs]
      exact h4
    · intro a
      rw [h5, List.mem_union_iff]
      simp only [List.mem_cons, exists_eq_or_imp, hs, Option.some.injEq, exists_eq_left']
      tauto

theorem preimageOf_error {α : Type} [DecidableEq α] (numDofs : ℤ) (d : List (ℤ × List α)) (i : ℤ) :
    (i < 0 ∨ numDofs ≤ i → preimageOf numDofs d [i] = .error .assertion) ∧
    (0 ≤ i → i < numDofs → dget? d i = none → preimageOf numDofs d [i] = .error .key) := by
  constructor
  · intro hi
    unfold preimageOf
    by_cases h0 : i < 0
    · have : decide (i ≥ 0) = false := by simpa using h0
      rw [List.foldlM_cons, this]; rfl
    · have e1 : decide (i ≥ 0) = true := by simpa using h0
      have e2 : decide (i < numDofs) = false := by simp; omega
      rw [List.foldlM_cons, e1, e2]; rfl
  · intro h0 hN hd
    have e1 : decide (i ≥ 0) = true := by simpa using h0
    have e2 : decide (i < numDofs) = true := by simpa using hN
    unfold preimageOf
    rw [List.foldlM_cons, e1, e2, hd]
    rfl

theorem preimage_general {α : Type} [DecidableEq α] (tau : α → Py Int) (args : List α) (numDofs : ℤ) (h : ∀ a ∈ args, ∃ v, tau a = .ok v) :
    ∃ d, preimageDict tau args = .ok d ∧
      (∀ si : List ℤ, (∀ i ∈ si, 0 ≤ i ∧ i < numDofs ∧ ∃ a ∈ args, tau a = .ok i) →
        ∃ l, preimageOf numDofs d si = .ok l ∧ ∀ a, a ∈ l ↔ a ∈ args ∧ ∃ i ∈ si, tau a = .ok i) ∧
      (∀ i : ℤ, i < 0 ∨ numDofs ≤ i → preimageOf numDofs d [i] = .error .assertion) ∧
      (∀ i : ℤ, 0 ≤ i → i < numDofs → (∀ a ∈ args, tau a ≠ .ok i) → preimageOf numDofs d [i] = .error .key) := by
  obtain ⟨d, h1, h2, h3⟩ := preimageDict_ok tau args [] h
  refine ⟨d, h1, ?_, fun i => (preimageOf_error numDofs d i).1, ?_⟩
  · intro si hsi
    obtain ⟨l, h4, h5⟩ := preimageOf_ok numDofs d si [] (by
      intro i hi
      obtain ⟨h6, h7, a, h8, h9⟩ := hsi i hi
      exact ⟨h6, h7, (h3 i).2 (Or.inr ⟨a, h8, h9, by omega⟩)⟩)
    refine ⟨l, h4, ?_⟩
    intro a
    rw [h5]
    constructor
    · rintro (h6 | ⟨i, hi, h6⟩)
      · simp at h6
      · rcases (h2 i a).1 h6 with ⟨s, h7, -⟩ | h7
        · simp [dget?] at h7
        · exact ⟨h7.1, i, hi, h7.2.1⟩
    · rintro ⟨ha, i, hi, hta⟩
      have := (hsi i hi).1
      exact Or.inr ⟨i, hi, (h2 i a).2 (Or.inr ⟨ha, hta, by omega⟩)⟩
  · intro i h0 hN hno
    refine (preimageOf_error numDofs d i).2 h0 hN ?_
    cases hd : dget? d i with
    | none => rfl
    | some s =>
      exfalso
      rcases (h3 i).1 (by rw [hd]; rfl) with h4 | ⟨a, ha, h4, -⟩
      · simp [dget?] at h4
      · exact hno a ha h4

/-- **C44** The preimage map of any map `tau` that is defined on all pairs: for a set of numbers that occur it returns exactly the pairs with
one of these numbers; a number out of range is rejected and a number that no pair has raises KeyError. -/
theorem C44_preimage (tau : ℤ → List ℕ → Py ℤ) (T m r : ℕ) (numDofs : ℤ) (h : ∀ j : ℕ, j < T → ∀ ν, IsIndex m r ν → ∃ v, tau j ν = .ok v) :
    ∃ pre, preimageMap tau T numDofs r m = .ok pre ∧
      (∀ si : List ℤ, (∀ i ∈ si, 0 ≤ i ∧ i < numDofs ∧ ∃ j : ℕ, j < T ∧ ∃ ν, IsIndex m r ν ∧ tau j ν = .ok i) →
        ∃ l, pre si = .ok l ∧ ∀ (j : ℤ) (ν : List ℕ), (j, ν) ∈ l ↔ 0 ≤ j ∧ j < T ∧ IsIndex m r ν ∧ ∃ i ∈ si, tau j ν = .ok i) ∧
      (∀ i : ℤ, i < 0 ∨ numDofs ≤ i → pre [i] = .error .assertion) ∧
      (∀ i : ℤ, 0 ≤ i → i < numDofs → (∀ j : ℕ, j < T → ∀ ν, IsIndex m r ν → tau j ν ≠ .ok i) → pre [i] = .error .key) := by
  have hmem : ∀ (j : ℤ) (ν : List ℕ), (j, ν) ∈ pairs T (MI.generateAll m r) ↔ 0 ≤ j ∧ j < T ∧ IsIndex m r ν := by
    intro j ν
    rw [mem_pairs, MI.generateAll_eq_mis]
    constructor
    · rintro ⟨k, hk, h1, h2⟩
      simp only at h1 h2
      rw [mem_mis_iff] at h2
      exact ⟨by omega, by omega, h2⟩
    · rintro ⟨h1, h2, h3⟩
      exact ⟨j.toNat, by omega, by simp only; omega, (mem_mis_iff m r ν).2 h3⟩
  obtain ⟨d, h1, h2, h3, h4⟩ := preimage_general (fun a : ℤ × List ℕ => tau a.1 a.2) (pairs T (MI.generateAll m r)) numDofs (by
    rintro ⟨j, ν⟩ ha
    obtain ⟨h1, h2, h3⟩ := (hmem j ν).1 ha
    obtain ⟨k, rfl⟩ := Int.eq_ofNat_of_zero_le h1
    exact h k (by exact_mod_cast h2) ν h3)
  refine ⟨preimageOf numDofs d, ?_, ?_, h3, ?_⟩
  · unfold preimageMap
    rw [h1]
    rfl
  · intro si hsi
    obtain ⟨l, h5, h6⟩ := h2 si (by
      intro i hi
      obtain ⟨h7, h8, j, hj, ν, hν, h9⟩ := hsi i hi
      exact ⟨h7, h8, ((j : ℤ), ν), (hmem _ _).2 ⟨by omega, by omega, hν⟩, h9⟩)
    refine ⟨l, h5, ?_⟩
    intro j ν
    rw [h6, hmem]
    tauto
  · intro i h0 hN hno
    refine h4 i h0 hN ?_
    rintro ⟨j, ν⟩ ha
    obtain ⟨g1, g2, g3⟩ := (hmem j ν).1 ha
    obtain ⟨k, rfl⟩ := Int.eq_ofNat_of_zero_le g1
    exact hno k (by exact_mod_cast g2) ν g3

/-! ## Boundary degrees of freedom last -/

/-- **C45** Discontinuous spaces with `keep_boundary_dofs_last`: all pairs are numbered bijectively by `0, …, N - 1`, the numbers below the returned
number of interior degrees of freedom belong exactly to the pairs that are not on a boundary simplex, these have the same numbers as
in the space where the boundary pairs are left out, and they are in the same order as in the numbering without boundary. -/
theorem C45_discontinuous (hm : IsMesh n triangles) (hb : AreSimplices (boundary.getD [])) :
    ∃ M Mdrop M0, ∃ N Nint : ℕ, discMap triangles r boundary true = .ok M ∧ discMap triangles r boundary false = .ok Mdrop ∧
      discMap triangles r none false = .ok M0 ∧ M.numDofs = N ∧ M.numInterior = some (Nint : ℤ) ∧ Nint ≤ N ∧ Mdrop.numDofs = Nint ∧
      (∀ (j : ℕ) (hj : j < triangles.length) (ν : List ℕ), IsIndex n r ν → ∃ i : ℕ, i < N ∧ M.tau j ν = .ok (i : ℤ) ∧
        (i < Nint ↔ ¬ OnBoundary (boundary.getD []) r triangles[j] ν)) ∧
      (∀ i : ℕ, i < N → ∃! p : ℕ × List ℕ, p.1 < triangles.length ∧ M.tau p.1 p.2 = .ok (i : ℤ)) ∧
      (∀ (j : ℕ) (hj : j < triangles.length) (ν : List ℕ), IsIndex n r ν → ¬ OnBoundary (boundary.getD []) r triangles[j] ν →
        M.tau j ν = Mdrop.tau j ν) ∧
      (∀ (j : ℕ) (hj : j < triangles.length) (ν : List ℕ) (j' : ℕ) (hj' : j' < triangles.length) (ν' : List ℕ), IsIndex n r ν →
        ¬ OnBoundary (boundary.getD []) r triangles[j] ν → IsIndex n r ν' → ¬ OnBoundary (boundary.getD []) r triangles[j'] ν' →
        ∃ a b a0 b0, M.tau j ν = .ok a ∧ M.tau j' ν' = .ok b ∧ M0.tau j ν = .ok a0 ∧ M0.tau j' ν' = .ok b0 ∧ (a < b ↔ a0 < b0)) := by
  obtain ⟨bset, hb1, hb2⟩ := mem_boundarySet hb
  obtain ⟨M, h1, h2, h3, h4, h5⟩ := discMap_ok (r := r) hm hb1 true
  obtain ⟨Md, d1, d2, d3, d4, d5⟩ := discMap_ok (r := r) hm hb1 false
  obtain ⟨M0, m1, m2, m3, m4, m5⟩ := discMap_ok (r := r) hm (boundary := none) (bset := []) rfl false
  have hR := discRules_ok triangles r bset true (evs triangles.length (MI.mis n r))
  have hs : ∀ e, (discRules triangles r bset true).skip e = false := fun e => rfl
  obtain ⟨hF, hpos⟩ := pos_congr (R := discRules triangles r bset true) (R' := discRules triangles r bset false)
    (P := evs triangles.length (MI.mis n r)) (fun e _ => rfl) (fun e _ => by simp [discRules])
  have hBd : (discRules triangles r bset false).B (evs triangles.length (MI.mis n r)) = [] := by
    rw [List.eq_nil_iff_forall_not_mem]
    intro i hi
    obtain ⟨e, -, -, h6, -⟩ := (mem_B _ _ i).1 hi
    cases h6
  refine ⟨M, Md, M0, _, _, h1, d1, m1, h4, h5, by simp, by rw [d4, hBd, List.append_nil, hF], ?_, ?_, ?_, ?_⟩
  · intro j hj ν hν
    refine ⟨_, pos_lt (mem_evs_iff.2 ⟨hj, hν⟩) (hs _), by rw [h2 j hj, if_pos ⟨(mem_mis_iff n r ν).2 hν, hs _⟩], ?_⟩
    rw [pos_lt_F hR (mem_evs_iff.2 ⟨hj, hν⟩) (hs _), (disc_skip hm hb2 true hj hν).2]
    simp
  · intro i hi
    obtain ⟨e, he, -, hp⟩ := pos_surj hR hi
    have he' := mem_evs_iff.1 he
    refine ⟨e, ⟨he'.1, ?_⟩, ?_⟩
    · rw [h2 e.1 he'.1, if_pos ⟨(mem_mis_iff n r e.2).2 he'.2, hs _⟩, ← hp]
    · rintro ⟨j, ν⟩ ⟨hj, hv⟩
      rw [h2 j hj] at hv
      by_cases hc : ν ∈ MI.mis n r ∧ (discRules triangles r bset true).skip (j, ν) = false
      · rw [if_pos hc] at hv
        have hv' : (discRules triangles r bset true).pos (evs triangles.length (MI.mis n r)) (j, ν) = i := by
          exact_mod_cast Except.ok.inj hv
        exact (pos_eq_iff (mem_evs_iff.2 ⟨hj, (mem_mis_iff n r ν).1 hc.1⟩) hc.2).1 (by rw [hv', hp])
      · rw [if_neg hc] at hv
        have := Except.ok.inj hv
        omega
  · intro j hj ν hν hnb
    rw [h2 j hj, if_pos ⟨(mem_mis_iff n r ν).2 hν, hs _⟩, d2 j hj,
      if_pos ⟨(mem_mis_iff n r ν).2 hν, (disc_skip hm hb2 false hj hν).1.2 (Or.inr hnb)⟩,
      hpos (j, ν) (mem_evs_iff.2 ⟨hj, hν⟩) (hs _) ((disc_skip hm hb2 true hj hν).2.2 (Or.inr hnb))]
  · intro j hj ν j' hj' ν' hν hnb hν' hnb'
    have h0 : ∀ e ∈ evs triangles.length (MI.mis n r), (discRules triangles r [] false).skip e = false ∧
        (discRules triangles r [] false).bnd e = false := fun e _ => by simp [discRules]
    refine ⟨_, _, _, _, by rw [h2 j hj, if_pos ⟨(mem_mis_iff n r ν).2 hν, hs _⟩], by rw [h2 j' hj', if_pos ⟨(mem_mis_iff n r ν').2 hν', hs _⟩],
      by rw [m2 j hj, if_pos ⟨(mem_mis_iff n r ν).2 hν, (h0 _ (mem_evs_iff.2 ⟨hj, hν⟩)).1⟩],
      by rw [m2 j' hj', if_pos ⟨(mem_mis_iff n r ν').2 hν', (h0 _ (mem_evs_iff.2 ⟨hj', hν'⟩)).1⟩], ?_⟩
    have := pos_order hR (R0 := discRules triangles r [] false) (fun e _ => rfl) h0 (mem_evs_iff.2 ⟨hj, hν⟩) (hs _)
      ((disc_skip hm hb2 true hj hν).2.2 (Or.inr hnb)) (mem_evs_iff.2 ⟨hj', hν'⟩) (hs _) ((disc_skip hm hb2 true hj' hν').2.2 (Or.inr hnb'))
    exact_mod_cast this

/-- **C45** Continuous spaces with `keep_boundary_dofs_last`, if no boundary simplex contains a simplex of the mesh: every pair gets a number, two pairs
get the same number exactly if they denote the same point, all numbers `0, …, N - 1` are used, the numbers below the returned number of interior
degrees of freedom belong exactly to the pairs that are not on a boundary simplex, these have the same numbers as in the space where the
boundary pairs are left out, and they are in the same order as in the numbering without boundary. -/
theorem C45_continuous (hr : r ≠ 0) (hm : IsMesh n triangles) (hd : NoDuplicates triangles) (hb : AreSimplices (boundary.getD []))
    (hfull : ∀ b ∈ boundary.getD [], ∀ T ∈ triangles, ¬ ∀ v ∈ T, v ∈ b) :
    ∃ M Mdrop M0, ∃ N Nint : ℕ, contMap triangles r boundary true = .ok M ∧ contMap triangles r boundary false = .ok Mdrop ∧
      contMap triangles r none false = .ok M0 ∧ M.numDofs = N ∧ M.numInterior = some (Nint : ℤ) ∧ Nint ≤ N ∧ Mdrop.numDofs = Nint ∧
      (∀ (j : ℕ) (hj : j < triangles.length) (ν : List ℕ), IsIndex n r ν → ∃ i : ℕ, i < N ∧ M.tau j ν = .ok (i : ℤ) ∧
        (i < Nint ↔ ¬ OnBoundary (boundary.getD []) r triangles[j] ν)) ∧
      (∀ (j : ℕ) (hj : j < triangles.length) (ν : List ℕ) (j' : ℕ) (hj' : j' < triangles.length) (ν' : List ℕ), IsIndex n r ν →
        IsIndex n r ν' → (M.tau j ν = M.tau j' ν' ↔ latticePoint r triangles[j] ν = latticePoint r triangles[j'] ν')) ∧
      (∀ i : ℕ, i < N → ∃ (j : ℕ) (ν : List ℕ), j < triangles.length ∧ IsIndex n r ν ∧ M.tau j ν = .ok (i : ℤ)) ∧
      (∀ (j : ℕ) (hj : j < triangles.length) (ν : List ℕ), IsIndex n r ν → ¬ OnBoundary (boundary.getD []) r triangles[j] ν →
        M.tau j ν = Mdrop.tau j ν) ∧
      (∀ (j : ℕ) (hj : j < triangles.length) (ν : List ℕ) (j' : ℕ) (hj' : j' < triangles.length) (ν' : List ℕ), IsIndex n r ν →
        ¬ OnBoundary (boundary.getD []) r triangles[j] ν → IsIndex n r ν' → ¬ OnBoundary (boundary.getD []) r triangles[j'] ν' →
        ∃ a b a0 b0, M.tau j ν = .ok a ∧ M.tau j' ν' = .ok b ∧ M0.tau j ν = .ok a0 ∧ M0.tau j' ν' = .ok b0 ∧ (a < b ↔ a0 < b0)) := by
  obtain ⟨bset, hb1, hb2⟩ := mem_boundarySet hb
  obtain ⟨M, h1, h2, h3, h4, h5⟩ := contMap_ok hr hm hd hb1 true
  obtain ⟨Md, d1, d2, d3, d4, d5⟩ := contMap_ok hr hm hd hb1 false
  obtain ⟨M0, m1, m2, m3, m4, m5⟩ := contMap_ok hr hm hd (boundary := none) (bset := []) rfl false
  have hR := contRules_ok (r := r) hm hd bset true
  have hs : ∀ e, (contRules triangles n r bset true).skip e = false := fun e => rfl
  have hfj : ∀ (j : ℕ) (hj : j < triangles.length), ∀ b ∈ boundary.getD [], ¬ ∀ v ∈ triangles[j], v ∈ b :=
    fun j hj b hb' => hfull b hb' _ (List.getElem_mem hj)
  obtain ⟨hF, hpos⟩ := pos_congr (R := contRules triangles n r bset true) (R' := contRules triangles n r bset false)
    (P := evs triangles.length (MI.mis n r)) (fun e _ => rfl) (fun e he => by
      have he' := mem_evs_iff.1 he
      have c1 := cont_skip hr hm hb2 true he'.1 he'.2
      have c2 := cont_skip hr hm hb2 false he'.1 he'.2
      rw [c1.1, c1.2 (hfj _ he'.1), c2.1, c2.2 (hfj _ he'.1)]
      simp)
  have hBd : (contRules triangles n r bset false).B (evs triangles.length (MI.mis n r)) = [] := by
    rw [List.eq_nil_iff_forall_not_mem]
    intro i hi
    obtain ⟨e, -, -, h6, -⟩ := (mem_B _ _ i).1 hi
    cases h6
  refine ⟨M, Md, M0, _, _, h1, d1, m1, h4, h5, by simp, by rw [d4, hBd, List.append_nil, hF], ?_, ?_, ?_, ?_, ?_⟩
  · intro j hj ν hν
    refine ⟨_, pos_lt (mem_evs_iff.2 ⟨hj, hν⟩) (hs _), by rw [h2 j hj, if_pos ⟨(mem_mis_iff n r ν).2 hν, hs _⟩], ?_⟩
    rw [pos_lt_F hR (mem_evs_iff.2 ⟨hj, hν⟩) (hs _), (cont_skip hr hm hb2 true hj hν).2 (hfj j hj)]
    simp
  · intro j hj ν j' hj' ν' hν hν'
    have hT := hm.simplex _ (List.getElem_mem hj)
    have hT' := hm.simplex _ (List.getElem_mem hj')
    rw [h2 j hj, if_pos ⟨(mem_mis_iff n r ν).2 hν, hs _⟩, h2 j' hj', if_pos ⟨(mem_mis_iff n r ν').2 hν', hs _⟩,
      ← pts_eq_iff hT.2 (by rw [hT.1, hν.1]) hT'.2 (by rw [hT'.1, hν'.1])]
    have h6 := pos_eq_iff (e := (j, ν)) (e' := (j', ν')) (mem_evs_iff.2 ⟨hj, hν⟩) (hs _)
    have h7 : (contRules triangles n r bset true).id (j, ν) = (contRules triangles n r bset true).id (j', ν') ↔
        pts r triangles[j] ν = pts r triangles[j'] ν' := by
      simp only [contRules, getD_triangles hj, getD_triangles hj']
    rw [← h7, ← h6]
    constructor
    · intro h
      exact_mod_cast Except.ok.inj h
    · intro h
      rw [h]
  · intro i hi
    obtain ⟨e, he, -, hp⟩ := pos_surj hR hi
    have he' := mem_evs_iff.1 he
    exact ⟨e.1, e.2, he'.1, he'.2, by rw [h2 e.1 he'.1, if_pos ⟨(mem_mis_iff n r e.2).2 he'.2, hs _⟩, ← hp]⟩
  · intro j hj ν hν hnb
    rw [h2 j hj, if_pos ⟨(mem_mis_iff n r ν).2 hν, hs _⟩, d2 j hj,
      if_pos ⟨(mem_mis_iff n r ν).2 hν, (cont_skip hr hm hb2 false hj hν).1.2 (Or.inr hnb)⟩,
      hpos (j, ν) (mem_evs_iff.2 ⟨hj, hν⟩) (hs _) (((cont_skip hr hm hb2 true hj hν).2 (hfj j hj)).2 (Or.inr hnb))]
  · intro j hj ν j' hj' ν' hν hnb hν' hnb'
    have h0 : ∀ e ∈ evs triangles.length (MI.mis n r), (contRules triangles n r [] false).skip e = false ∧
        (contRules triangles n r [] false).bnd e = false := fun e _ => by simp [contRules]
    refine ⟨_, _, _, _, by rw [h2 j hj, if_pos ⟨(mem_mis_iff n r ν).2 hν, hs _⟩], by rw [h2 j' hj', if_pos ⟨(mem_mis_iff n r ν').2 hν', hs _⟩],
      by rw [m2 j hj, if_pos ⟨(mem_mis_iff n r ν).2 hν, (h0 _ (mem_evs_iff.2 ⟨hj, hν⟩)).1⟩],
      by rw [m2 j' hj', if_pos ⟨(mem_mis_iff n r ν').2 hν', (h0 _ (mem_evs_iff.2 ⟨hj', hν'⟩)).1⟩], ?_⟩
    have := pos_order hR (R0 := contRules triangles n r [] false) (fun e _ => rfl) h0 (mem_evs_iff.2 ⟨hj, hν⟩) (hs _)
      (((cont_skip hr hm hb2 true hj hν).2 (hfj j hj)).2 (Or.inr hnb)) (mem_evs_iff.2 ⟨hj', hν'⟩) (hs _)
      (((cont_skip hr hm hb2 true hj' hν').2 (hfj j' hj')).2 (Or.inr hnb'))
    exact_mod_cast this

/-! ## Examples -/

/-- Two triangles sharing an edge, with different local vertex orders. -/
theorem example_mesh : IsMesh 2 [[0, 1, 2], [3, 2, 1]] ∧ NoDuplicates [[0, 1, 2], [3, 2, 1]] ∧ AreSimplices [[0, 1]] ∧
    (∀ b ∈ [[0, 1]], ∀ T ∈ [[0, 1, 2], [3, 2, 1]], ¬ ∀ v ∈ T, v ∈ b) := by
  refine ⟨⟨by simp, by simp⟩, ?_, by simp [AreSimplices], by simp⟩
  unfold NoDuplicates
  rw [List.pairwise_cons]
  refine ⟨?_, by simp⟩
  intro T hT h
  rw [List.mem_singleton.1 hT] at h
  have := (h 0).1 (by simp)
  simp at this

/-- The middle of the edge `{1, 2}` has the multi-index `(1, 1)` in the first and `(1, 1)` in the second triangle; the vertex 1 has `(2, 0)` in the
first and `(0, 2)` in the second. -/
example : latticePoint 2 [0, 1, 2] [1, 1] = latticePoint 2 [3, 2, 1] [1, 1] ∧ latticePoint 2 [0, 1, 2] [2, 0] = latticePoint 2 [3, 2, 1] [0, 2] := by
  constructor <;>
  · rw [← pts_eq_iff (by simp) rfl (by simp) rfl]
    decide

/-- In this mesh the continuous quadratic functions have 9 degrees of freedom, 6 without those on the edge `{0, 1}`. -/
example : (do let m ← contDictionaries [[0, 1, 2], [3, 2, 1]] 2 none false; return m.numDofs) = (.ok 9 : Py Int) ∧
    (do let m ← contDictionaries [[0, 1, 2], [3, 2, 1]] 2 (some [[0, 1]]) false; return m.numDofs) = (.ok 6 : Py Int) ∧
    (do let m ← discDictionaries [[0, 1, 2], [3, 2, 1]] 2 (some [[0, 1]]) true; return (m.numDofs, m.numInterior)) =
      (.ok (12, some 8) : Py (Int × Option Int)) := by
  refine ⟨by rfl, by rfl, by rfl⟩

/-- **C45** The hypothesis on the boundary simplices is necessary: with a boundary simplex that contains a simplex of the mesh, its
inner degrees of freedom are numbered among those that are not on the boundary. -/
theorem C45_full_dimensional : ∃ M, contMap [[0, 1]] 2 (some [[0, 1]]) true = .ok M ∧ M.numInterior = some 1 ∧ M.tau 0 [1] = .ok 0 ∧
    OnBoundary [[0, 1]] 2 [0, 1] [1] := by
  refine ⟨_, rfl, rfl, rfl, [0, 1], by simp, fun v hv _ => hv⟩

/-- **C44** Without the hypothesis on duplicates the inner degrees of freedom of the two copies have different numbers. -/
theorem C44_duplicates : ∃ M, contMap [[0, 1], [0, 1]] 2 none false = .ok M ∧ M.tau 0 [1] = .ok 1 ∧ M.tau 1 [1] = .ok 3 := by
  exact ⟨_, rfl, rfl, rfl⟩

end Verif.L2G
