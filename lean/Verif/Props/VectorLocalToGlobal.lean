import Verif.Props.LocalToGlobal
/-!
# C46: vector valued local-to-global maps
-/

namespace Verif.L2G
open Verif Verif.Spec

/-- The documented number of the component `k` of the scalar degree of freedom `i`: interleaved or one component after the other. -/
def vectorIndex (interleaved : Bool) (n N i k : ℕ) : ℕ := if interleaved then n * i + k else k * N + i

/-- Different scalar degrees of freedom or components have different numbers. -/
theorem vectorIndex_inj {interleaved : Bool} {n N i k i' k' : ℕ} (hi : i < N) (hi' : i' < N) (hk : k < n) (hk' : k' < n)
    (h : vectorIndex interleaved n N i k = vectorIndex interleaved n N i' k') : i = i' ∧ k = k' := by
  cases interleaved with
  | true =>
    simp only [vectorIndex, if_true] at h
    have h1 : k = k' := by
      have := congrArg (· % n) h
      simpa [Nat.mod_eq_of_lt hk, Nat.mod_eq_of_lt hk'] using this
    subst h1
    exact ⟨Nat.eq_of_mul_eq_mul_left (by omega) (Nat.add_right_cancel h), rfl⟩
  | false =>
    simp only [vectorIndex, Bool.false_eq_true, if_false] at h
    have h1 : i = i' := by
      have := congrArg (· % N) h
      simpa [Nat.mod_eq_of_lt hi, Nat.mod_eq_of_lt hi'] using this
    subst h1
    exact ⟨rfl, Nat.eq_of_mul_eq_mul_right (by omega) (Nat.add_right_cancel h)⟩

theorem vectorIndex_lt {interleaved : Bool} {n N i k : ℕ} (hi : i < N) (hk : k < n) : vectorIndex interleaved n N i k < n * N := by
  cases interleaved with
  | true =>
    simp only [vectorIndex, if_true]
    calc n * i + k < n * i + n := by omega
      _ = n * (i + 1) := by ring
      _ ≤ n * N := Nat.mul_le_mul_left _ (by omega)
  | false =>
    simp only [vectorIndex, Bool.false_eq_true, if_false]
    calc k * N + i < k * N + N := by omega
      _ = (k + 1) * N := by ring
      _ ≤ n * N := Nat.mul_le_mul_right _ (by omega)

/-- All numbers are used. -/
theorem vectorIndex_surj (interleaved : Bool) {n N I : ℕ} (h : I < n * N) : ∃ i < N, ∃ k < n, vectorIndex interleaved n N i k = I := by
  cases interleaved with
  | true =>
    have hn : 0 < n := by
      rcases Nat.eq_zero_or_pos n with h0 | h0
      · rw [h0] at h; omega
      · exact h0
    refine ⟨I / n, Nat.div_lt_of_lt_mul h, I % n, Nat.mod_lt _ hn, ?_⟩
    simp only [vectorIndex, if_true]
    exact Nat.div_add_mod I n
  | false =>
    have hN : 0 < N := by
      rcases Nat.eq_zero_or_pos N with h0 | h0
      · rw [h0] at h; omega
      · exact h0
    refine ⟨I % N, Nat.mod_lt _ hN, I / N, Nat.div_lt_of_lt_mul (by rw [Nat.mul_comm]; exact h), ?_⟩
    simp only [vectorIndex, Bool.false_eq_true, if_false]
    rw [Nat.mul_comm]
    exact Nat.div_add_mod I N

/-- **C46** The vector valued map made from any scalar map: the component `k` of a pair with the scalar number `i` has the documented number, pairs
without scalar number (-1) have none, the numbers of degrees of freedom are multiplied by the number of components, and simplex or component
indices out of range are rejected. -/
theorem C46_values (gen : List (List ℕ) → ℕ → Option (List (List ℕ)) → Bool → Py Map) (triangles : List (List ℕ)) (r : ℕ)
    (boundary : Option (List (List ℕ))) (keepLast interleaved : Bool) (n : ℕ) (hn : 1 < n) (s : Map)
    (hs : gen triangles r boundary keepLast = .ok s) (N : ℕ) (hN : s.numDofs = N) :
    ∃ V, vectorMap gen triangles r n boundary keepLast interleaved = .ok V ∧ V.numDofs = (n * N : ℕ) ∧
      V.numInterior = s.numInterior.map ((n : ℤ) * ·) ∧
      (∀ j : ℕ, j < triangles.length → ∀ (ν : List ℕ) (i k : ℕ), k < n → s.tau j ν = .ok (i : ℤ) →
        V.tau j ν k = .ok ((vectorIndex interleaved n N i k : ℕ) : ℤ)) ∧
      (∀ j : ℕ, j < triangles.length → ∀ (ν : List ℕ) (k : ℕ), k < n → s.tau j ν = .ok (-1) → V.tau j ν k = .ok (-1)) ∧
      (∀ (j : ℤ) (ν : List ℕ) (k : ℤ), j < 0 ∨ (triangles.length : ℤ) ≤ j ∨ k < 0 ∨ (n : ℤ) ≤ k → V.tau j ν k = .error .assertion) := by
  have hn' : decide ((n : ℤ) > 1) = true := by simp; omega
  refine ⟨{ tau := vectorTau triangles.length n interleaved s, numDofs := n * s.numDofs, numInterior := s.numInterior.map ((n : ℤ) * ·) },
    ?_, ?_, rfl, ?_, ?_, ?_⟩
  · unfold vectorMap
    rw [hn', hs]
    rfl
  · simp only [hN]
    push_cast
    rfl
  · intro j hj ν i k hk hv
    simp only [vectorTau]
    rw [show decide ((j : ℤ) ≥ 0) = true by simp, show decide ((j : ℤ) < triangles.length) = true by simpa using hj,
      show decide ((k : ℤ) ≥ 0) = true by simp, show decide ((k : ℤ) < n) = true by simpa using hk]
    simp only [pyAssert_true, Py.bind_ok, hv, hN]
    rw [if_neg (by omega)]
    cases interleaved <;> simp [vectorIndex]
  · intro j hj ν k hk hv
    simp only [vectorTau]
    rw [show decide ((j : ℤ) ≥ 0) = true by simp, show decide ((j : ℤ) < triangles.length) = true by simpa using hj,
      show decide ((k : ℤ) ≥ 0) = true by simp, show decide ((k : ℤ) < n) = true by simpa using hk]
    simp only [pyAssert_true, Py.bind_ok, hv]
    rfl
  · intro j ν k h
    simp only [vectorTau]
    by_cases h1 : j < 0
    · rw [show decide (j ≥ 0) = false by simpa using h1]; rfl
    · rw [show decide (j ≥ 0) = true by simpa using h1]
      by_cases h2 : j < triangles.length
      · rw [show decide (j < (triangles.length : ℤ)) = true by simpa using h2]
        by_cases h3 : k < 0
        · rw [show decide (k ≥ 0) = false by simpa using h3]; rfl
        · rw [show decide (k ≥ 0) = true by simpa using h3, show decide (k < (n : ℤ)) = false by simp; omega]; rfl
      · rw [show decide (j < (triangles.length : ℤ)) = false by simpa using h2]; rfl

/-- **C46** One component is rejected (also 0 or a negative number), and an exception of the scalar version is passed on. -/
theorem C46_errors (gen : List (List ℕ) → ℕ → Option (List (List ℕ)) → Bool → Py Map) (triangles : List (List ℕ)) (r : ℕ)
    (boundary : Option (List (List ℕ))) (keepLast interleaved : Bool) (n : ℤ) :
    (n ≤ 1 → vectorMap gen triangles r n boundary keepLast interleaved = .error .assertion) ∧
    (∀ e, 1 < n → gen triangles r boundary keepLast = .error e → vectorMap gen triangles r n boundary keepLast interleaved = .error e) := by
  constructor
  · intro h
    unfold vectorMap
    rw [show decide (n > 1) = false by simpa using h]
    rfl
  · intro e h he
    unfold vectorMap
    rw [show decide (n > 1) = true by simpa using h, he]
    rfl

variable {d r : ℕ} {triangles : List (List ℕ)} {boundary : Option (List (List ℕ))}

/-- **C46** Discontinuous spaces: the triples of a simplex, a multi-index that is not on a boundary simplex and a component are numbered
bijectively by `0, …, n N - 1`, for both orderings. -/
theorem C46_discontinuous (hm : IsMesh d triangles) (hb : AreSimplices (boundary.getD [])) (n : ℕ) (hn : 1 < n) (interleaved : Bool) :
    ∃ V, ∃ N : ℕ, vectorMap discMap triangles r n boundary false interleaved = .ok V ∧ V.numDofs = (n * N : ℕ) ∧
      (∀ (j : ℕ) (hj : j < triangles.length) (ν : List ℕ) (k : ℕ), k < n → IsIndex d r ν → ¬ OnBoundary (boundary.getD []) r triangles[j] ν →
        ∃ i : ℕ, i < n * N ∧ V.tau j ν k = .ok (i : ℤ)) ∧
      (∀ i : ℕ, i < n * N → ∃! p : ℕ × List ℕ × ℕ, (p.1 < triangles.length ∧ p.2.2 < n) ∧ V.tau p.1 p.2.1 p.2.2 = .ok (i : ℤ)) ∧
      (∀ (j : ℕ) (hj : j < triangles.length) (ν : List ℕ) (k : ℕ), k < n →
        ¬ IsIndex d r ν ∨ OnBoundary (boundary.getD []) r triangles[j] ν → V.tau j ν k = .ok (-1)) := by
  obtain ⟨M, N, h1, h2, -, h4, h5, h6, -⟩ := C43_bijection (r := r) hm hb
  obtain ⟨V, v1, v2, -, v3, v4, -⟩ := C46_values discMap triangles r boundary false interleaved n hn M h1 N h2
  refine ⟨V, N, v1, v2, ?_, ?_, ?_⟩
  · intro j hj ν k hk hν hnb
    obtain ⟨i, hi, hv⟩ := h4 j hj ν hν hnb
    exact ⟨_, vectorIndex_lt hi hk, v3 j hj ν i k hk hv⟩
  · intro I hI
    obtain ⟨i, hi, k, hk, hik⟩ := vectorIndex_surj interleaved hI
    obtain ⟨⟨j, ν⟩, ⟨hj, hv⟩, huniq⟩ := h5 i hi
    refine ⟨(j, ν, k), ⟨⟨hj, hk⟩, ?_⟩, ?_⟩
    · simp only
      rw [v3 j hj ν i k hk hv, hik]
    · rintro ⟨j', ν', k'⟩ ⟨⟨hj', hk'⟩, hv'⟩
      simp only at hj' hk' hv'
      by_cases hc : IsIndex d r ν' ∧ ¬ OnBoundary (boundary.getD []) r triangles[j'] ν'
      · obtain ⟨i', hi', hw⟩ := h4 j' hj' ν' hc.1 hc.2
        rw [v3 j' hj' ν' i' k' hk' hw] at hv'
        have hv'' : vectorIndex interleaved n N i' k' = I := by exact_mod_cast Except.ok.inj hv'
        obtain ⟨rfl, rfl⟩ := vectorIndex_inj hi' hi hk' hk (hv''.trans hik.symm)
        have := huniq (j', ν') ⟨hj', hw⟩
        obtain ⟨rfl, rfl⟩ := Prod.mk.inj this
        rfl
      · have hc' : ¬ IsIndex d r ν' ∨ OnBoundary (boundary.getD []) r triangles[j'] ν' := by tauto
        rw [v4 j' hj' ν' k' hk' (h6 j' hj' ν' hc')] at hv'
        have := Except.ok.inj hv'
        omega
  · intro j hj ν k hk h
    exact v4 j hj ν k hk (h6 j hj ν h)

/-- **C46** Continuous spaces: two triples have the same number exactly if the components are the same and the pairs denote the same point; the
numbers used are `0, …, n N - 1`. -/
theorem C46_continuous (hr : r ≠ 0) (hm : IsMesh d triangles) (hd : NoDuplicates triangles) (hb : AreSimplices (boundary.getD [])) (n : ℕ)
    (hn : 1 < n) (interleaved : Bool) :
    ∃ V, ∃ N : ℕ, vectorMap contMap triangles r n boundary false interleaved = .ok V ∧ V.numDofs = (n * N : ℕ) ∧
      (∀ (j : ℕ) (hj : j < triangles.length) (ν : List ℕ) (k : ℕ), k < n → IsIndex d r ν → ¬ OnBoundary (boundary.getD []) r triangles[j] ν →
        ∃ i : ℕ, i < n * N ∧ V.tau j ν k = .ok (i : ℤ)) ∧
      (∀ (j : ℕ) (hj : j < triangles.length) (ν : List ℕ) (k : ℕ) (j' : ℕ) (hj' : j' < triangles.length) (ν' : List ℕ) (k' : ℕ), k < n → k' < n →
        IsIndex d r ν → ¬ OnBoundary (boundary.getD []) r triangles[j] ν → IsIndex d r ν' → ¬ OnBoundary (boundary.getD []) r triangles[j'] ν' →
        (V.tau j ν k = V.tau j' ν' k' ↔ k = k' ∧ latticePoint r triangles[j] ν = latticePoint r triangles[j'] ν')) ∧
      (∀ i : ℕ, i < n * N → ∃ (j : ℕ) (hj : j < triangles.length) (ν : List ℕ) (k : ℕ), k < n ∧ IsIndex d r ν ∧
        ¬ OnBoundary (boundary.getD []) r triangles[j] ν ∧ V.tau j ν k = .ok (i : ℤ)) ∧
      (∀ (j : ℕ) (hj : j < triangles.length) (ν : List ℕ) (k : ℕ), k < n →
        ¬ IsIndex d r ν ∨ OnBoundary (boundary.getD []) r triangles[j] ν → V.tau j ν k = .ok (-1)) := by
  obtain ⟨M, N, h1, h2, -, h4, h5, h6, h7, -⟩ := C44_numbering hr hm hd hb
  obtain ⟨V, v1, v2, -, v3, v4, -⟩ := C46_values contMap triangles r boundary false interleaved n hn M h1 N h2
  refine ⟨V, N, v1, v2, ?_, ?_, ?_, ?_⟩
  · intro j hj ν k hk hν hnb
    obtain ⟨i, hi, hv⟩ := h4 j hj ν hν hnb
    exact ⟨_, vectorIndex_lt hi hk, v3 j hj ν i k hk hv⟩
  · intro j hj ν k j' hj' ν' k' hk hk' hν hnb hν' hnb'
    obtain ⟨i, hi, hv⟩ := h4 j hj ν hν hnb
    obtain ⟨i', hi', hv'⟩ := h4 j' hj' ν' hν' hnb'
    rw [← h5 j hj ν j' hj' ν' hν hnb hν' hnb', v3 j hj ν i k hk hv, v3 j' hj' ν' i' k' hk' hv', hv, hv']
    constructor
    · intro h
      have h' : vectorIndex interleaved n N i k = vectorIndex interleaved n N i' k' := by exact_mod_cast Except.ok.inj h
      obtain ⟨e1, e2⟩ := vectorIndex_inj hi hi' hk hk' h'
      exact ⟨e2, by rw [e1]⟩
    · rintro ⟨e2, e1⟩
      have e1' : i = i' := by exact_mod_cast Except.ok.inj e1
      rw [e1', e2]
  · intro I hI
    obtain ⟨i, hi, k, hk, hik⟩ := vectorIndex_surj interleaved hI
    obtain ⟨j, hj, ν, hν, hnb, hv⟩ := h6 i hi
    exact ⟨j, hj, ν, k, hk, hν, hnb, by rw [v3 j hj ν i k hk hv, hik]⟩
  · intro j hj ν k hk h
    exact v4 j hj ν k hk (h7 j hj ν h)

/-! ## Inverse and preimage maps -/

theorem mem_triples (T : ℕ) (mis : List (List ℕ)) (n : ℕ) (a : ℤ × List ℕ × ℤ) :
    a ∈ triples T mis n ↔ (0 ≤ a.1 ∧ a.1 < T) ∧ a.2.1 ∈ mis ∧ 0 ≤ a.2.2 ∧ a.2.2 < n := by
  obtain ⟨j, ν, k⟩ := a
  simp only [triples, List.mem_flatMap, List.mem_range, List.mem_map, Prod.mk.injEq]
  constructor
  · rintro ⟨j', h1, mi, h2, k', h3, h4, h5, h6⟩
    subst h5
    exact ⟨⟨by omega, by omega⟩, h2, by omega, by omega⟩
  · rintro ⟨⟨h1, h2⟩, h3, h4, h5⟩
    exact ⟨j.toNat, by omega, ν, h3, k.toNat, by omega, by omega, rfl, by omega⟩

/-- **C46** The inverse of a vector valued map that is defined on all triples: for a number in range it returns a triple with this number, or raises
KeyError if there is none; a number out of range is rejected. -/
theorem C46_inverse (tau : ℤ → List ℕ → ℤ → Py ℤ) (T m r n : ℕ) (numDofs : ℤ)
    (h : ∀ j k : ℕ, j < T → k < n → ∀ ν, IsIndex m r ν → ∃ v, tau j ν k = .ok v) :
    ∃ inv, inverseVectorMap tau T numDofs r m n = .ok inv ∧
      (∀ i : ℤ, i < 0 ∨ numDofs ≤ i → inv i = .error .assertion) ∧
      (∀ i : ℤ, 0 ≤ i → i < numDofs →
        (∃ j k : ℕ, ∃ ν, j < T ∧ k < n ∧ IsIndex m r ν ∧ tau j ν k = .ok i ∧ inv i = .ok ((j : ℤ), ν, (k : ℤ))) ∨
        ((∀ j k : ℕ, j < T → k < n → ∀ ν, IsIndex m r ν → tau j ν k ≠ .ok i) ∧ inv i = .error .key)) := by
  obtain ⟨d, h1, h2, h3⟩ := inverse_general (fun a : ℤ × List ℕ × ℤ => tau a.1 a.2.1 a.2.2) (triples T (MI.generateAll m r) n) numDofs (by
    rintro ⟨j, ν, k⟩ ha
    obtain ⟨⟨h1, h2⟩, h3, h4, h5⟩ := (mem_triples _ _ _ _).1 ha
    rw [MI.generateAll_eq_mis, mem_mis_iff] at h3
    simp only at h1 h2 h3 h4 h5
    obtain ⟨j, rfl⟩ := Int.eq_ofNat_of_zero_le h1
    obtain ⟨k, rfl⟩ := Int.eq_ofNat_of_zero_le h4
    exact h j k (by omega) (by omega) ν h3)
  refine ⟨inverseOf numDofs d, ?_, h2, ?_⟩
  · unfold inverseVectorMap
    rw [h1]
    rfl
  · intro i h0 hN
    rcases h3 i h0 hN with ⟨⟨j, ν, k⟩, ha, h4, h5⟩ | ⟨h4, h5⟩
    · left
      obtain ⟨⟨g1, g2⟩, g3, g4, g5⟩ := (mem_triples _ _ _ _).1 ha
      rw [MI.generateAll_eq_mis, mem_mis_iff] at g3
      simp only at g1 g2 g3 g4 g5
      obtain ⟨j, rfl⟩ := Int.eq_ofNat_of_zero_le g1
      obtain ⟨k, rfl⟩ := Int.eq_ofNat_of_zero_le g4
      exact ⟨j, k, ν, by omega, by omega, g3, h4, h5⟩
    · right
      refine ⟨fun j k hj hk ν hν => ?_, h5⟩
      refine h4 ((j : ℤ), ν, (k : ℤ)) ((mem_triples _ _ _ _).2 ⟨⟨by simp only; omega, by simp only; omega⟩, ?_, by simp only; omega, by simp only; omega⟩)
      rw [MI.generateAll_eq_mis, mem_mis_iff]
      exact hν

/-- **C46** The preimage map of a vector valued map that is defined on all triples: exactly the triples with one of the given numbers. -/
theorem C46_preimage (tau : ℤ → List ℕ → ℤ → Py ℤ) (T m r n : ℕ) (numDofs : ℤ)
    (h : ∀ j k : ℕ, j < T → k < n → ∀ ν, IsIndex m r ν → ∃ v, tau j ν k = .ok v) :
    ∃ pre, preimageVectorMap tau T numDofs r m n = .ok pre ∧
      (∀ si : List ℤ, (∀ i ∈ si, 0 ≤ i ∧ i < numDofs ∧ ∃ j k : ℕ, j < T ∧ k < n ∧ ∃ ν, IsIndex m r ν ∧ tau j ν k = .ok i) →
        ∃ l, pre si = .ok l ∧ ∀ (j : ℤ) (ν : List ℕ) (k : ℤ), (j, ν, k) ∈ l ↔
          (0 ≤ j ∧ j < T) ∧ IsIndex m r ν ∧ (0 ≤ k ∧ k < n) ∧ ∃ i ∈ si, tau j ν k = .ok i) ∧
      (∀ i : ℤ, i < 0 ∨ numDofs ≤ i → pre [i] = .error .assertion) ∧
      (∀ i : ℤ, 0 ≤ i → i < numDofs → (∀ j k : ℕ, j < T → k < n → ∀ ν, IsIndex m r ν → tau j ν k ≠ .ok i) → pre [i] = .error .key) := by
  have hmem : ∀ (j : ℤ) (ν : List ℕ) (k : ℤ), (j, ν, k) ∈ triples T (MI.generateAll m r) n ↔
      (0 ≤ j ∧ j < T) ∧ IsIndex m r ν ∧ 0 ≤ k ∧ k < n := by
    intro j ν k
    rw [mem_triples, MI.generateAll_eq_mis, mem_mis_iff]
  obtain ⟨d, h1, h2, h3, h4⟩ := preimage_general (fun a : ℤ × List ℕ × ℤ => tau a.1 a.2.1 a.2.2) (triples T (MI.generateAll m r) n) numDofs (by
    rintro ⟨j, ν, k⟩ ha
    obtain ⟨⟨g1, g2⟩, g3, g4, g5⟩ := (hmem j ν k).1 ha
    obtain ⟨j, rfl⟩ := Int.eq_ofNat_of_zero_le g1
    obtain ⟨k, rfl⟩ := Int.eq_ofNat_of_zero_le g4
    exact h j k (by omega) (by omega) ν g3)
  refine ⟨preimageOf numDofs d, ?_, ?_, h3, ?_⟩
  · unfold preimageVectorMap
    rw [h1]
    rfl
  · intro si hsi
    obtain ⟨l, h5, h6⟩ := h2 si (by
      intro i hi
      obtain ⟨h7, h8, j, k, hj, hk, ν, hν, h9⟩ := hsi i hi
      exact ⟨h7, h8, ((j : ℤ), ν, (k : ℤ)), (hmem _ _ _).2 ⟨⟨by omega, by omega⟩, hν, by omega, by omega⟩, h9⟩)
    refine ⟨l, h5, ?_⟩
    intro j ν k
    rw [h6, hmem]
    tauto
  · intro i h0 hN hno
    refine h4 i h0 hN ?_
    rintro ⟨j, ν, k⟩ ha
    obtain ⟨⟨g1, g2⟩, g3, g4, g5⟩ := (hmem j ν k).1 ha
    obtain ⟨j, rfl⟩ := Int.eq_ofNat_of_zero_le g1
    obtain ⟨k, rfl⟩ := Int.eq_ofNat_of_zero_le g4
    exact hno j k (by omega) (by omega) ν g3

/-- **C46** For a discontinuous space the inverse is a two-sided inverse. -/
theorem C46_inverse_bijection (hm : IsMesh d triangles) (hb : AreSimplices (boundary.getD [])) (n : ℕ) (hn : 1 < n) (interleaved : Bool) :
    ∃ V inv, vectorMap discMap triangles r n boundary false interleaved = .ok V ∧
      inverseVectorMap V.tau triangles.length V.numDofs r d n = .ok inv ∧
      (∀ (j : ℕ) (hj : j < triangles.length) (ν : List ℕ) (k : ℕ), k < n → IsIndex d r ν → ¬ OnBoundary (boundary.getD []) r triangles[j] ν →
        ∃ i : ℤ, V.tau j ν k = .ok i ∧ inv i = .ok ((j : ℤ), ν, (k : ℤ))) ∧
      (∀ i : ℤ, 0 ≤ i → i < V.numDofs → ∃ p, inv i = .ok p ∧ V.tau p.1 p.2.1 p.2.2 = .ok i) := by
  obtain ⟨V, N, h1, h2, h4, h5, h6⟩ := C46_discontinuous (r := r) hm hb n hn interleaved
  obtain ⟨inv, g1, -, g2⟩ := C46_inverse V.tau triangles.length d r n V.numDofs (by
    intro j k hj hk ν hν
    by_cases hc : OnBoundary (boundary.getD []) r triangles[j] ν
    · exact ⟨_, h6 j hj ν k hk (Or.inr hc)⟩
    · obtain ⟨i, -, hi⟩ := h4 j hj ν k hk hν hc
      exact ⟨_, hi⟩)
  have key : ∀ i : ℤ, 0 ≤ i → i < V.numDofs → ∃ j k : ℕ, ∃ ν, j < triangles.length ∧ k < n ∧ V.tau j ν k = .ok i ∧
      inv i = .ok ((j : ℤ), ν, (k : ℤ)) := by
    intro i h0 hN
    rcases g2 i h0 hN with ⟨j, k, ν, hj, hk, -, hv, hi⟩ | ⟨hno, -⟩
    · exact ⟨j, k, ν, hj, hk, hv, hi⟩
    · exfalso
      obtain ⟨p, ⟨⟨hp1, hp2⟩, hp3⟩, -⟩ := h5 i.toNat (by omega)
      rw [Int.toNat_of_nonneg h0] at hp3
      refine hno p.1 p.2.2 hp1 hp2 p.2.1 ?_ hp3
      by_contra hc
      rw [h6 p.1 hp1 p.2.1 p.2.2 hp2 (Or.inl hc)] at hp3
      have := Except.ok.inj hp3
      omega
  refine ⟨V, inv, h1, g1, ?_, ?_⟩
  · intro j hj ν k hk hν hnb
    obtain ⟨i, hi, hv⟩ := h4 j hj ν k hk hν hnb
    refine ⟨i, hv, ?_⟩
    obtain ⟨j', k', ν', hj', hk', hv', hinv⟩ := key i (by omega) (by omega)
    have := (h5 i hi).unique (y₁ := (j, ν, k)) (y₂ := (j', ν', k')) ⟨⟨hj, hk⟩, hv⟩ ⟨⟨hj', hk'⟩, hv'⟩
    obtain ⟨rfl, hh⟩ := Prod.mk.inj this
    obtain ⟨rfl, rfl⟩ := Prod.mk.inj hh
    exact hinv
  · intro i h0 hN
    obtain ⟨j, k, ν, -, -, hv, hinv⟩ := key i h0 hN
    exact ⟨_, hinv, hv⟩

/-! ## Boundary degrees of freedom last -/

/-- **C61** With `keep_boundary_dofs_last` and the interleaved ordering the numbers below the returned number of interior degrees of freedom belong
exactly to the triples that are not on a boundary simplex (discontinuous spaces). -/
theorem C61_interleaved_discontinuous (hm : IsMesh d triangles) (hb : AreSimplices (boundary.getD [])) (n : ℕ) (hn : 1 < n) :
    ∃ V, ∃ N Nint : ℕ, vectorMap discMap triangles r n boundary true true = .ok V ∧ V.numDofs = N ∧ V.numInterior = some (Nint : ℤ) ∧
      ∀ (j : ℕ) (hj : j < triangles.length) (ν : List ℕ) (k : ℕ), k < n → IsIndex d r ν →
        ∃ i : ℕ, i < N ∧ V.tau j ν k = .ok (i : ℤ) ∧ (i < Nint ↔ ¬ OnBoundary (boundary.getD []) r triangles[j] ν) := by
  obtain ⟨M, -, -, N, Nint, h1, -, -, h2, h3, -, -, h4, -⟩ := C45_discontinuous (r := r) hm hb
  obtain ⟨V, v1, v2, v3, v4, -, -⟩ := C46_values discMap triangles r boundary true true n hn M h1 N h2
  refine ⟨V, n * N, n * Nint, v1, v2, by rw [v3, h3]; simp, ?_⟩
  intro j hj ν k hk hν
  obtain ⟨i, hi, hv, hiff⟩ := h4 j hj ν hν
  refine ⟨_, vectorIndex_lt (interleaved := true) hi hk, v4 j hj ν i k hk hv, ?_⟩
  rw [← hiff]
  simp only [vectorIndex, if_true]
  constructor
  · intro h
    by_contra hc
    have := Nat.mul_le_mul_left n (not_lt.1 hc)
    omega
  · intro h
    have := vectorIndex_lt (interleaved := true) h hk
    simpa [vectorIndex] using this

/-- **C61** The same for continuous spaces, if no boundary simplex contains a simplex of the mesh. -/
theorem C61_interleaved_continuous (hr : r ≠ 0) (hm : IsMesh d triangles) (hd : NoDuplicates triangles) (hb : AreSimplices (boundary.getD []))
    (hfull : ∀ b ∈ boundary.getD [], ∀ T ∈ triangles, ¬ ∀ v ∈ T, v ∈ b) (n : ℕ) (hn : 1 < n) :
    ∃ V, ∃ N Nint : ℕ, vectorMap contMap triangles r n boundary true true = .ok V ∧ V.numDofs = N ∧ V.numInterior = some (Nint : ℤ) ∧
      ∀ (j : ℕ) (hj : j < triangles.length) (ν : List ℕ) (k : ℕ), k < n → IsIndex d r ν →
        ∃ i : ℕ, i < N ∧ V.tau j ν k = .ok (i : ℤ) ∧ (i < Nint ↔ ¬ OnBoundary (boundary.getD []) r triangles[j] ν) := by
  obtain ⟨M, -, -, N, Nint, h1, -, -, h2, h3, -, -, h4, -⟩ := C45_continuous (r := r) hr hm hd hb hfull
  obtain ⟨V, v1, v2, v3, v4, -, -⟩ := C46_values contMap triangles r boundary true true n hn M h1 N h2
  refine ⟨V, n * N, n * Nint, v1, v2, by rw [v3, h3]; simp, ?_⟩
  intro j hj ν k hk hν
  obtain ⟨i, hi, hv, hiff⟩ := h4 j hj ν hν
  refine ⟨_, vectorIndex_lt (interleaved := true) hi hk, v4 j hj ν i k hk hv, ?_⟩
  rw [← hiff]
  simp only [vectorIndex, if_true]
  constructor
  · intro h
    by_contra hc
    have := Nat.mul_le_mul_left n (not_lt.1 hc)
    omega
  · intro h
    have := vectorIndex_lt (interleaved := true) h hk
    simpa [vectorIndex] using this

/-- **C61** With the sequential ordering the interior degrees of freedom come first in each block of `N` numbers that belongs to one component
(for both kinds of spaces, here for any scalar map with this property). -/
theorem C61_sequential_blocks (gen : List (List ℕ) → ℕ → Option (List (List ℕ)) → Bool → Py Map) (n : ℕ) (hn : 1 < n) (M : Map) (N Nint : ℕ)
    (h1 : gen triangles r boundary true = .ok M) (h2 : M.numDofs = N) (h3 : M.numInterior = some (Nint : ℤ))
    (h4 : ∀ (j : ℕ) (hj : j < triangles.length) (ν : List ℕ), IsIndex d r ν → ∃ i : ℕ, i < N ∧ M.tau j ν = .ok (i : ℤ) ∧
        (i < Nint ↔ ¬ OnBoundary (boundary.getD []) r triangles[j] ν)) :
    ∃ V, vectorMap gen triangles r n boundary true false = .ok V ∧ V.numDofs = (n * N : ℕ) ∧ V.numInterior = some ((n * Nint : ℕ) : ℤ) ∧
      ∀ (j : ℕ) (hj : j < triangles.length) (ν : List ℕ) (k : ℕ), k < n → IsIndex d r ν →
        ∃ i : ℕ, V.tau j ν k = .ok (i : ℤ) ∧ i / N = k ∧ (i % N < Nint ↔ ¬ OnBoundary (boundary.getD []) r triangles[j] ν) := by
  obtain ⟨V, v1, v2, v3, v4, -, -⟩ := C46_values gen triangles r boundary true false n hn M h1 N h2
  refine ⟨V, v1, v2, by rw [v3, h3]; simp, ?_⟩
  intro j hj ν k hk hν
  obtain ⟨i, hi, hv, hiff⟩ := h4 j hj ν hν
  refine ⟨_, v4 j hj ν i k hk hv, ?_, ?_⟩
  · simp only [vectorIndex, Bool.false_eq_true, if_false]
    rw [Nat.mul_comm, Nat.mul_add_div (by omega), Nat.div_eq_of_lt hi, Nat.add_zero]
  · simp only [vectorIndex, Bool.false_eq_true, if_false]
    rw [Nat.mul_comm, Nat.mul_add_mod, Nat.mod_eq_of_lt hi, hiff]

/-- **C61** With the sequential ordering the boundary degrees of freedom are not last: in the space of piecewise linear functions on one interval with the boundary vertex 0, two components,
the second component of the interior degree of freedom has the number 2, the first component on the boundary has 1; there are 2 interior
degrees of freedom. -/
theorem C61_sequential : ∃ V, vectorMap contMap [[0, 1]] 1 2 (some [[0]]) true false = .ok V ∧ V.numInterior = some 2 ∧
    V.tau 0 [0] 0 = .ok 1 ∧ V.tau 0 [1] 1 = .ok 2 ∧ OnBoundary [[0]] 1 [0, 1] [0] ∧ ¬ OnBoundary [[0]] 1 [0, 1] [1] := by
  refine ⟨_, rfl, rfl, rfl, rfl, ⟨[0], by simp, ?_⟩, ?_⟩
  · intro v hv h
    rcases h with h | h
    · omega
    · simp only [List.mem_cons, List.not_mem_nil, or_false] at hv
      rcases hv with rfl | rfl
      · simp
      · exact absurd rfl h
  · rintro ⟨b, hb, h⟩
    have := h 1 (by simp) (Or.inr (by decide))
    rw [List.mem_singleton.1 hb] at this
    simp at this

/-- The mesh of two triangles with different local vertex orders meets the hypotheses. -/
example : ∃ V, ∃ N : ℕ, vectorMap contMap [[0, 1, 2], [3, 2, 1]] 2 3 (some [[0, 1]]) false true = .ok V ∧ V.numDofs = (3 * N : ℕ) := by
  obtain ⟨V, N, h1, h2, -⟩ := C46_continuous (r := 2) (boundary := some [[0, 1]]) (by decide) example_mesh.1 example_mesh.2.1 example_mesh.2.2.1 3
    (by decide) true
  exact ⟨V, N, h1, h2⟩

end Verif.L2G
