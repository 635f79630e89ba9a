import Verif.Spec.PiecewiseSpace
import Verif.Lemmas.PiecewiseCont
import Verif.Lemmas.PiecewiseDual
import Mathlib.LinearAlgebra.Matrix.NonsingularInverse
/-!
# The spaces of piecewise polynomials
-/

namespace Verif.PP
open Verif Verif.Poly Verif.Simplex Verif.SPoly Verif.L2G Verif.Spec

variable {K W : Type} [Field K] [LinearOrder K] [IsStrictOrderedRing K] [AddCommGroup W] [Module K W] {m r : Nat} {Tr : Type}
  {cont keepLast : Bool} {triangles : List (List ℕ)} {vertices : List (Fin m → K)} {boundary : Option (List (List ℕ))} {M : L2G.Map} {N : ℕ} {t : ℕ → List ℕ → ℤ}

omit [LinearOrder K] [IsStrictOrderedRing K] in
theorem isPolynomial_iff {g : (Fin m → K) → W} : IsPolynomial r g ↔ IsPoly m r g := by
  constructor
  · rintro ⟨c, hc⟩
    refine ⟨fun l => c fun i => l.getD i 0, fun x => ?_⟩
    rw [hc x]
    refine Finset.sum_congr rfl fun ν _ => ?_
    congr 2
    funext i
    simp
  · rintro ⟨c, hc⟩
    exact ⟨fun ν => c (List.ofFn ν), hc⟩

/-- The Lagrange point. -/
noncomputable def nodeAt (v : Vertices K m m) (r : ℕ) (μ : Fin m → ℕ) : Fin m → K := createAffineMap (up v) (lpt K r μ)

theorem node_sum {j : ℕ} (hj : j < triangles.length) {v : Vertices K m m} (hv : cell triangles vertices j = .ok v) (hd : edgeDet v ≠ 0)
    (hn : triangles[j].Nodup) (hl : triangles[j].length = m + 1) (hr : r ≠ 0) {μ : Fin m → ℕ} (hμ : μ ∈ S m r) :
    ∑ u ∈ triangles[j].toFinset, (latticePoint r triangles[j] (List.ofFn μ) u : K) / (r : K) = 1 ∧
    nodeAt v r μ = ∑ u ∈ triangles[j].toFinset, ((latticePoint r triangles[j] (List.ofFn μ) u : K) / (r : K)) • vertices.getD u 0 := by
  have h1 := lpt_bary (K := K) hn hl hμ hr
  have h2 : ∑ u ∈ triangles[j].toFinset, (latticePoint r triangles[j] (List.ofFn μ) u : K) / (r : K) = 1 := by
    rw [List.sum_toFinset _ hn, h1, List.sum_cons, List.sum_ofFn, sub_add_cancel]
  refine ⟨h2, ?_⟩
  have h3 := face_weights hj hv hd hn h2 rfl
  rw [h1] at h3
  have h4 := List.ofFn_injective (List.cons.inj h3).2
  unfold nodeAt
  rw [h4, up_down v hd]

/-- The Lagrange points of a degree of freedom that two simplices share. -/
theorem node_common (hsp : IsSpace cont triangles vertices r boundary) (hr : r ≠ 0) {j j' : ℕ} (hj : j < triangles.length) (hj' : j' < triangles.length) {v v' : Vertices K m m}
    (hv : cell triangles vertices j = .ok v) (hd : edgeDet v ≠ 0) (hv' : cell triangles vertices j' = .ok v') (hd' : edgeDet v' ≠ 0) {μ μ' : Fin m → ℕ} (hμ : μ ∈ S m r) (hμ' : μ' ∈ S m r)
    (h : latticePoint r triangles[j] (List.ofFn μ) = latticePoint r triangles[j'] (List.ofFn μ')) :
    nodeAt v r μ = nodeAt v' r μ' ∧ InCommonFace vertices triangles[j] triangles[j'] (nodeAt v r μ) := by
  have hT := hsp.mesh.simplex _ (List.getElem_mem hj)
  have hT' := hsp.mesh.simplex _ (List.getElem_mem hj')
  obtain ⟨h1, h2⟩ := node_sum hj hv hd hT.2 hT.1 hr hμ
  obtain ⟨h3, h4⟩ := node_sum hj' hv' hd' hT'.2 hT'.1 hr hμ'
  have hoff : ∀ u, u ∉ triangles[j].toFinset ∩ triangles[j'].toFinset → latticePoint r triangles[j] (List.ofFn μ) u = 0 := by
    intro u hu
    rw [Finset.mem_inter, List.mem_toFinset, List.mem_toFinset] at hu
    by_cases h5 : u ∈ triangles[j]
    · rw [h]
      exact latticePoint_off (by simp [hT'.1]) fun h6 => hu ⟨h5, h6⟩
    · exact latticePoint_off (by simp [hT.1]) h5
  have e1 : ∑ u ∈ triangles[j].toFinset ∩ triangles[j'].toFinset, (latticePoint r triangles[j] (List.ofFn μ) u : K) / (r : K) = 1 := by
    rw [← h1]
    refine Finset.sum_subset Finset.inter_subset_left fun u _ hu => ?_
    rw [hoff u hu, Nat.cast_zero, zero_div]
  have e2 : nodeAt v r μ = ∑ u ∈ triangles[j].toFinset ∩ triangles[j'].toFinset, ((latticePoint r triangles[j] (List.ofFn μ) u : K) / (r : K)) • vertices.getD u 0 := by
    rw [h2]
    refine (Finset.sum_subset Finset.inter_subset_left fun u _ hu => ?_).symm
    rw [hoff u hu, Nat.cast_zero, zero_div, zero_smul]
  refine ⟨?_, fun u => _, fun u => by positivity, e1, e2⟩
  rw [e2, h4, ← h]
  refine Finset.sum_subset Finset.inter_subset_right fun u _ hu => ?_
  rw [hoff u hu, Nat.cast_zero, zero_div, zero_smul]

/-- The Lagrange point of a degree of freedom on the boundary. -/
theorem node_boundary (hsp : IsSpace cont triangles vertices r boundary) (hr : r ≠ 0) {j : ℕ} (hj : j < triangles.length) {v : Vertices K m m}
    (hv : cell triangles vertices j = .ok v) (hd : edgeDet v ≠ 0) {μ : Fin m → ℕ} (hμ : μ ∈ S m r) {b : List ℕ}
    (h : ∀ u ∈ triangles[j], latticePoint r triangles[j] (List.ofFn μ) u ≠ 0 → u ∈ b) : InCommonFace vertices triangles[j] b (nodeAt v r μ) := by
  have hT := hsp.mesh.simplex _ (List.getElem_mem hj)
  obtain ⟨h1, h2⟩ := node_sum hj hv hd hT.2 hT.1 hr hμ
  have hoff : ∀ u ∈ triangles[j].toFinset, u ∉ triangles[j].toFinset ∩ b.toFinset → latticePoint r triangles[j] (List.ofFn μ) u = 0 := by
    intro u hu hu'
    rw [Finset.mem_inter, List.mem_toFinset, List.mem_toFinset] at hu'
    rw [List.mem_toFinset] at hu
    by_contra h3
    exact hu' ⟨hu, h u hu h3⟩
  refine ⟨fun u => (latticePoint r triangles[j] (List.ofFn μ) u : K) / (r : K), fun u => by positivity, ?_, ?_⟩
  · rw [← h1]
    refine Finset.sum_subset Finset.inter_subset_left fun u hu hu' => ?_
    rw [hoff u hu hu', Nat.cast_zero, zero_div]
  · rw [h2]
    refine (Finset.sum_subset Finset.inter_subset_left fun u hu hu' => ?_).symm
    rw [hoff u hu hu', Nat.cast_zero, zero_div, zero_smul]

/-- Values of functions of a space on the boundary. -/
theorem val_boundary (hsp : IsSpace cont triangles vertices r boundary) (ht : TauSpec cont m r triangles boundary keepLast M N t) (hr : r ≠ 0 ∨ zeroOn keepLast boundary = [])
    {b : Basis} (hb : b ≠ .monomial) (coeff : List W) {j : ℕ} (hj : j < triangles.length) {v : Vertices K m m} (hv : cell triangles vertices j = .ok v) (hd : edgeDet v ≠ 0)
    {s : List ℕ} (hs : s ∈ zeroOn keepLast boundary) {x : Fin m → K} (hx : InCommonFace vertices triangles[j] s x) :
    val b m r (loc coeff t j) (createAffineMap (down v) x) = 0 := by
  classical
  have hr0 : r ≠ 0 := hr.resolve_right fun h => by rw [h] at hs; cases hs
  have hkl : keepLast = false := by
    cases keepLast
    · rfl
    · simp [zeroOn] at hs
  subst hkl
  have hT := hsp.mesh.simplex _ (List.getElem_mem hj)
  obtain ⟨w, -, hw1, hw2⟩ := hx
  set I := triangles[j].toFinset ∩ s.toFinset with hI
  set w' : ℕ → K := fun i => if i ∈ I then w i else 0 with hw'
  have hA : I ⊆ triangles[j].toFinset := Finset.inter_subset_left
  have e1 : ∑ i ∈ triangles[j].toFinset, w' i = 1 := by
    rw [← hw1, ← Finset.sum_subset hA (fun i _ hi => by simp [hw', hi])]
    exact Finset.sum_congr rfl (fun i hi => by simp [hw', hi])
  have e2 : x = ∑ i ∈ triangles[j].toFinset, w' i • vertices.getD i 0 := by
    rw [hw2, ← Finset.sum_subset hA (fun i _ hi => by simp [hw', hi])]
    exact Finset.sum_congr rfl (fun i hi => by simp [hw', hi])
  have e3 := face_weights hj hv hd hT.2 e1 e2
  obtain ⟨cc, hc⟩ : ∃ cc : (ℕ → ℕ) → W, ∀ ν ∈ S m r, loc coeff t j (List.ofFn ν) = cc (latticePoint r triangles[j] (List.ofFn ν)) := by
    refine ⟨fun L => if h : ∃ ν ∈ S m r, latticePoint r triangles[j] (List.ofFn ν) = L then loc coeff t j (List.ofFn h.choose) else 0, fun ν hν => ?_⟩
    have hex : ∃ ν' ∈ S m r, latticePoint r triangles[j] (List.ofFn ν') = latticePoint r triangles[j] (List.ofFn ν) := ⟨ν, hν, rfl⟩
    simp only
    rw [dif_pos hex, latticePoint_inj' hT.2 hT.1 hex.choose_spec.2]
  rw [val_face hb hT.2 hT.1 _ cc hc e3 I hA (fun v hv hv' => by simp [hw', hv'])]
  refine Finset.sum_eq_zero fun L hL => ?_
  have hL' : L ∈ Finset.piAntidiag triangles[j].toFinset r := by
    rw [Finset.mem_piAntidiag] at hL ⊢
    refine ⟨?_, fun i hi => hA (hL.2 i hi)⟩
    rw [← hL.1]
    exact (Finset.sum_subset hA (fun v _ hv => by by_contra h; exact hv (hL.2 v h))).symm
  obtain ⟨ν, h1, rfl⟩ := latticePoint_surj hT.2 hT.1 hL'
  have h3 : t j (List.ofFn ν) = -1 := by
    refine (ht.drop j hj _ (isIndex_iff.2 ⟨_, h1, rfl⟩)).2 ⟨rfl, s, hs, fun u _ hu => ?_⟩
    rw [getD_triangles hj] at hu
    have := (Finset.mem_piAntidiag.1 hL).2 u (hu.resolve_left hr0)
    rw [hI, Finset.mem_inter, List.mem_toFinset, List.mem_toFinset] at this
    exact this.2
  rw [← hc ν h1]
  unfold loc
  rw [if_pos h3, smul_zero]

/-- Coefficients of a piecewise polynomial in the Lagrange basis. -/
theorem lagrange_complete (hsp : IsSpace cont triangles vertices r boundary) (ht : TauSpec cont m r triangles boundary keepLast M N t)
    (hr : r ≠ 0 ∨ zeroOn keepLast boundary = []) {F : ℕ → (Fin m → K) → W} (hF : IsPiecewisePolynomial cont triangles vertices r (zeroOn keepLast boundary) F) :
    ∃ coeff : List W, coeff.length = N ∧ ∀ j, j < triangles.length → ∀ v, cell triangles vertices j = .ok v → ∀ x,
      val .lagrange m r (loc coeff t j) (createAffineMap (down v) x) = F j x := by
  choose v hv hd using fun j : Fin triangles.length => hsp.cells j j.2
  have hsurj : ∀ i : Fin N, ∃ (j : Fin triangles.length) (μ : Fin m → ℕ), μ ∈ S m r ∧ t j (List.ofFn μ) = i := by
    intro i
    obtain ⟨j, ν, hj, hν, h⟩ := ht.surj i i.2
    obtain ⟨μ, hμ, rfl⟩ := isIndex_iff.1 hν
    exact ⟨⟨j, hj⟩, μ, hμ, h⟩
  choose J μ hμ hJ using hsurj
  refine ⟨List.ofFn fun i => F (J i) (nodeAt (v (J i)) r (μ i)), by simp, ?_⟩
  intro j hj v' hv' x
  obtain rfl : v ⟨j, hj⟩ = v' := Except.ok.inj ((hv ⟨j, hj⟩).symm.trans hv')
  have hg : IsPoly (K := K) m r fun y => F j (createAffineMap (up (v ⟨j, hj⟩)) y) := isPoly_comp (isPolynomial_iff.1 (hF.polynomial j hj)) _
  rw [val_lagrange_values hg, up_down _ (hd _)]
  intro ν hν
  have hidx : IsIndex m r (List.ofFn ν) := isIndex_iff.2 ⟨ν, hν, rfl⟩
  show _ = F j (nodeAt (v ⟨j, hj⟩) r ν)
  rcases ht.range j hj _ hidx with h1 | ⟨i, hi, h1⟩
  · obtain ⟨h2, b, hb, h3⟩ := (ht.drop j hj _ hidx).1 h1
    have hb' : b ∈ zeroOn keepLast boundary := by rw [h2]; exact hb
    have hr' : r ≠ 0 := hr.resolve_right fun h => by rw [h] at hb'; cases hb'
    rw [getD_triangles hj] at h3
    rw [hF.zero j hj b hb' _ (node_boundary hsp hr' hj hv' (hd _) hν fun u hu hu' => h3 u hu (Or.inr hu'))]
    unfold loc
    rw [if_pos h1]
  · rw [loc_of_tau h1 (by simpa using hi), List.getElem_ofFn]
    have h2 := hJ ⟨i, hi⟩
    have h3 := ht.inj j hj _ hidx (J ⟨i, hi⟩) (J ⟨i, hi⟩).2 _ (isIndex_iff.2 ⟨_, hμ ⟨i, hi⟩, rfl⟩) (h1.trans h2.symm) (by omega)
    unfold SameDof at h3
    cases cont with
    | true =>
      obtain ⟨-, hr'⟩ := hsp.continuous rfl
      rw [if_pos rfl, getD_triangles hj, getD_triangles (J ⟨i, hi⟩).2] at h3
      obtain ⟨h4, h5⟩ := node_common hsp hr' hj (J ⟨i, hi⟩).2 (hv ⟨j, hj⟩) (hd _) (hv (J ⟨i, hi⟩)) (hd _) hν (hμ ⟨i, hi⟩) h3
      rw [hF.continuous rfl j _ hj (J ⟨i, hi⟩).2 _ h5, h4]
    | false =>
      simp only [Bool.false_eq_true, if_false] at h3
      obtain ⟨h4, h5⟩ := h3
      have h6 : ⟨j, hj⟩ = J ⟨i, hi⟩ := Fin.ext h4
      rw [← h6, ← List.ofFn_injective h5]

/-- Values of functions of a continuous space on common faces. -/
theorem val_common_face (hsp : IsSpace true triangles vertices r boundary) (ht : TauSpec true m r triangles boundary keepLast M N t)
    {b : Basis} (hb : b ≠ .monomial) (coeff : List W) {j j' : ℕ} (hj : j < triangles.length) (hj' : j' < triangles.length) {v v' : Vertices K m m}
    (hv : cell triangles vertices j = .ok v) (hd : edgeDet v ≠ 0) (hv' : cell triangles vertices j' = .ok v') (hd' : edgeDet v' ≠ 0)
    {x : Fin m → K} (hx : OnCommonFace vertices triangles[j] triangles[j'] x) :
    val b m r (loc coeff t j) (createAffineMap (down v) x) = val b m r (loc coeff t j') (createAffineMap (down v') x) := by
  classical
  have hT := hsp.mesh.simplex _ (List.getElem_mem hj)
  have hT' := hsp.mesh.simplex _ (List.getElem_mem hj')
  obtain ⟨w, hW1, hW2⟩ := hx
  set I := triangles[j].toFinset ∩ triangles[j'].toFinset with hI
  set W' : ℕ → K := fun i => if i ∈ I then w i else 0 with hW'
  have hs : ∀ {U : Type} [AddCommMonoid U] [Module K U] (A : Finset ℕ), I ⊆ A → ∀ g : ℕ → U, ∑ i ∈ A, W' i • g i = ∑ i ∈ I, w i • g i := by
    intro U _ _ A hA g
    rw [← Finset.sum_subset hA (fun i _ hi => by simp [hW', hi])]
    exact Finset.sum_congr rfl (fun i hi => by simp [hW', hi])
  have hs1 : ∀ (A : Finset ℕ), I ⊆ A → ∑ i ∈ A, W' i = 1 := by
    intro A hA
    have := hs A hA (fun _ => (1 : K))
    simp only [smul_eq_mul, mul_one] at this
    rw [this, hW1]
  have hA : I ⊆ triangles[j].toFinset := Finset.inter_subset_left
  have hA' : I ⊆ triangles[j'].toFinset := Finset.inter_subset_right
  have e1 := face_weights hj hv hd hT.2 (hs1 _ hA) (hW2.trans (hs _ hA _).symm)
  have e2 := face_weights hj' hv' hd' hT'.2 (hs1 _ hA') (hW2.trans (hs _ hA' _).symm)
  obtain ⟨cc, hcc⟩ := factor ht coeff
  refine val_common hb hT.2 hT.1 hT'.2 hT'.1 _ _ cc (fun ν hν => by rw [hcc j hj ν hν, getD_triangles hj])
    (fun ν hν => by rw [hcc j' hj' ν hν, getD_triangles hj']) e1 e2 (fun u hu hu' => ?_) (fun u hu hu' => ?_)
  · simp [hW', hI, hu']
  · simp [hW', hI, hu']

/-- The functions of a space are piecewise polynomials. -/
theorem val_isPiecewise (hsp : IsSpace cont triangles vertices r boundary) (ht : TauSpec cont m r triangles boundary keepLast M N t)
    (hr : r ≠ 0 ∨ zeroOn keepLast boundary = []) {b : Basis} (hb : b ≠ .monomial) (coeff : List W) {F : ℕ → (Fin m → K) → W}
    (hF : ∀ j, j < triangles.length → ∀ v, cell triangles vertices j = .ok v → ∀ x, F j x = val b m r (loc coeff t j) (createAffineMap (down v) x)) :
    IsPiecewisePolynomial cont triangles vertices r (zeroOn keepLast boundary) F where
  polynomial := fun j hj => by
    obtain ⟨v, hv, hd⟩ := hsp.cells j hj
    rw [isPolynomial_iff, show F j = fun x => val b m r (loc coeff t j) (createAffineMap (down v) x) from funext (hF j hj v hv)]
    exact isPoly_comp (val_isPoly b m r _) _
  continuous := fun hc j j' hj hj' x hx => by
    subst hc
    obtain ⟨v, hv, hd⟩ := hsp.cells j hj
    obtain ⟨v', hv', hd'⟩ := hsp.cells j' hj'
    rw [hF j hj v hv, hF j' hj' v' hv', val_common_face hsp ht hb coeff hj hj' hv hd hv' hd' (by obtain ⟨w, -, h⟩ := hx; exact ⟨w, h⟩)]
  zero := fun j hj s hs x hx => by
    obtain ⟨v, hv, hd⟩ := hsp.cells j hj
    rw [hF j hj v hv, val_boundary hsp ht hr hb coeff hj hv hd hs hx]

/-- The coefficients of the basis function with number `i` on the simplex `j`. -/
def ind (K : Type) [Field K] (t : ℕ → List ℕ → ℤ) (i j : ℕ) (ν : List ℕ) : K := if t j ν = i then 1 else 0

omit [LinearOrder K] [IsStrictOrderedRing K] in
theorem val_ind (ht : TauSpec cont m r triangles boundary keepLast M N t) (b : Basis) (c : Fin N → W) {j : ℕ} (hj : j < triangles.length) (y : Fin m → K) :
    val b m r (loc (List.ofFn c) t j) y = ∑ i : Fin N, val b m r (ind K t i j) y • c i := by
  unfold val
  simp_rw [Finset.sum_smul]
  rw [Finset.sum_comm]
  refine Finset.sum_congr rfl fun ν hν => ?_
  have h1 : loc (List.ofFn c) t j (List.ofFn ν) = ∑ i : Fin N, ind K t i j (List.ofFn ν) • c i := by
    rcases ht.range j hj _ (isIndex_iff.2 ⟨ν, hν, rfl⟩) with h | ⟨k, hk, h⟩
    · rw [Finset.sum_eq_zero fun i _ => ?_]
      · unfold loc; rw [if_pos h]
      · unfold ind; rw [if_neg (by omega), zero_smul]
    · rw [loc_of_tau h (by simpa using hk), List.getElem_ofFn, Finset.sum_eq_single ⟨k, hk⟩]
      · unfold ind; rw [if_pos h, one_smul]
      · intro i _ hi
        unfold ind
        rw [if_neg, zero_smul]
        intro h2
        exact hi (Fin.ext (by simp only; omega))
      · simp
  rw [h1, Finset.smul_sum]
  exact Finset.sum_congr rfl fun i _ => by rw [smul_smul, smul_eq_mul]

/-- The coefficients of a function of a space are unique. -/
theorem coeff_unique (ht : TauSpec cont m r triangles boundary keepLast M N t) {b : Basis} {c d : List W} (hc : c.length = N) (hd : d.length = N)
    (h : ∀ j, j < triangles.length → ∀ y : Fin m → K, val b m r (loc c t j) y = val b m r (loc d t j) y) : c = d := by
  refine List.ext_getElem (hc.trans hd.symm) fun i h1 h2 => ?_
  obtain ⟨j, ν, hj, hν, hi⟩ := ht.surj i (by omega)
  have := val_inj (K := K) (h j hj) hν.1 hν.2
  rwa [loc_of_tau hi h1, loc_of_tau hi h2] at this

/-- Every piecewise polynomial has coefficients in each of the bases. -/
theorem complete (hsp : IsSpace cont triangles vertices r boundary) (ht : TauSpec cont m r triangles boundary keepLast M N t)
    (hr : r ≠ 0 ∨ zeroOn keepLast boundary = []) {b : Basis} (hb : b ≠ .monomial) {F : ℕ → (Fin m → K) → W}
    (hF : IsPiecewisePolynomial cont triangles vertices r (zeroOn keepLast boundary) F) :
    ∃ coeff : List W, coeff.length = N ∧ ∀ j, j < triangles.length → ∀ v, cell triangles vertices j = .ok v → ∀ x,
      val b m r (loc coeff t j) (createAffineMap (down v) x) = F j x := by
  choose v hv hd using fun j : Fin triangles.length => hsp.cells j j.2
  -- the basis functions in terms of those of the Lagrange basis
  have hA : ∀ k : Fin N, ∃ a : Fin N → K, ∀ j, j < triangles.length → ∀ y : Fin m → K, val b m r (ind K t k j) y = ∑ i : Fin N, val .lagrange m r (ind K t i j) y * a i := by
    intro k
    have h1 : ∀ j, j < triangles.length → ∀ y : Fin m → K, val b m r (ind K t k j) y = val b m r (loc (List.ofFn (Pi.single k (1 : K))) t j) y := by
      intro j hj y
      rw [val_ind ht b _ hj, Finset.sum_eq_single k]
      · simp
      · intro i _ hi
        simp [hi]
      · simp
    obtain ⟨a, ha, h2⟩ := lagrange_complete hsp ht hr (val_isPiecewise hsp ht hr hb (List.ofFn (Pi.single k (1 : K)))
      (F := fun j x => if hj : j < triangles.length then val b m r (loc (List.ofFn (Pi.single k (1 : K))) t j) (createAffineMap (down (v ⟨j, hj⟩)) x) else 0)
      (fun j hj v' hv' x => by
        rw [dif_pos hj, Except.ok.inj ((hv ⟨j, hj⟩).symm.trans hv')]))
    subst ha
    refine ⟨fun i => a[(i : ℕ)], fun j hj y => ?_⟩
    have h3 := h2 j hj _ (hv ⟨j, hj⟩) (createAffineMap (up (v ⟨j, hj⟩)) y)
    rw [dif_pos hj, down_up _ (hd _)] at h3
    rw [h1 j hj, ← h3]
    have := val_ind ht .lagrange (fun i : Fin a.length => a[(i : ℕ)]) hj y
    rw [List.ofFn_getElem] at this
    exact this
  choose A hA using hA
  -- they are linearly independent
  have hinj : Function.Injective fun c : Fin N → K => Matrix.vecMul c (Matrix.of A) := by
    intro c d hcd
    have h1 : List.ofFn c = List.ofFn d := by
      refine coeff_unique (K := K) ht (b := b) (by simp) (by simp) fun j hj y => ?_
      rw [val_ind ht b c hj, val_ind ht b d hj]
      have h2 : ∀ c : Fin N → K, ∑ i : Fin N, val b m r (ind K t i j) y • c i = ∑ i : Fin N, val .lagrange m r (ind K t i j) y * Matrix.vecMul c (Matrix.of A) i := by
        intro c
        simp only [hA _ j hj y, Matrix.vecMul, dotProduct, Matrix.of_apply, Finset.mul_sum, smul_eq_mul, Finset.sum_mul]
        rw [Finset.sum_comm]
        exact Finset.sum_congr rfl fun i _ => Finset.sum_congr rfl fun k _ => by ring
      rw [h2, h2]
      simp only at hcd
      rw [hcd]
    exact List.ofFn_injective h1
  have hu : IsUnit (Matrix.of A) := Matrix.vecMul_injective_iff_isUnit.1 hinj
  have hB : (Matrix.of A)⁻¹ * Matrix.of A = 1 := Matrix.nonsing_inv_mul _ ((Matrix.isUnit_iff_isUnit_det _).1 hu)
  have hL : ∀ i j, j < triangles.length → ∀ y : Fin m → K, val .lagrange m r (ind K t (i : Fin N) j) y = ∑ k : Fin N, (Matrix.of A)⁻¹ i k * val b m r (ind K t k j) y := by
    intro i j hj y
    simp only [hA _ j hj y, Finset.mul_sum]
    rw [Finset.sum_comm]
    have h1 : ∀ l, ∑ k, (Matrix.of A)⁻¹ i k * (val .lagrange m r (ind K t (l : Fin N) j) y * A k l) = val .lagrange m r (ind K t l j) y * (1 : Matrix (Fin N) (Fin N) K) i l := by
      intro l
      rw [← hB, Matrix.mul_apply, Finset.mul_sum]
      exact Finset.sum_congr rfl fun k _ => by rw [Matrix.of_apply]; ring
    rw [Finset.sum_congr rfl fun l _ => h1 l, Finset.sum_eq_single i]
    · simp
    · intro l _ hl
      rw [Matrix.one_apply_ne hl.symm, mul_zero]
    · simp
  obtain ⟨d, hd', hdF⟩ := lagrange_complete hsp ht hr hF
  subst hd'
  refine ⟨List.ofFn fun k => ∑ i : Fin d.length, (Matrix.of A)⁻¹ i k • d[(i : ℕ)], by simp, fun j hj v' hv' x => ?_⟩
  rw [← hdF j hj v' hv', val_ind ht b _ hj]
  have h2 := val_ind ht .lagrange (fun i : Fin d.length => d[(i : ℕ)]) hj (createAffineMap (down v') x)
  rw [List.ofFn_getElem] at h2
  rw [h2]
  simp only [hL _ j hj, Finset.sum_smul, Finset.smul_sum]
  rw [Finset.sum_comm]
  exact Finset.sum_congr rfl fun i _ => Finset.sum_congr rfl fun k _ => by rw [smul_smul, mul_comm]

end Verif.PP
