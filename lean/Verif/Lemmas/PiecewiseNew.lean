import Verif.Lemmas.PiecewiseMul
/-!
# The constructor, sums of different degrees, unit, zero, powers and bases of piecewise polynomial spaces
-/

namespace Verif.PP
open Verif Verif.Poly Verif.Simplex Verif.SPoly Verif.L2G Verif.Spec

variable {K V : Type} [Field K] [DecidableEq K] [CharZero K] [AddCommGroup V] [DecidableEq V] [Module K V] {m r : Nat} {Tr : Type}

/-! ## Sums and differences -/

theorem full_of {p q : PObj K V m Tr} (h : SameKind p q) (hf : Full q) : Full p := by
  unfold Full at hf ⊢
  rw [h.keepLast, h.boundary]
  exact hf

theorem SameKind.symm {p q : PObj K V m Tr} (h : SameKind p q) : SameKind q p :=
  ⟨h.basis.symm, h.cont.symm, h.triangles.symm, h.vertices.symm, h.boundary.symm, h.keepLast.symm⟩

theorem SameKind.trans {U : Type} {p q : PObj K V m Tr} {s : PObj K U m Tr} (h : SameKind p q) (h' : SameKind q s) : SameKind p s :=
  ⟨h.basis.trans h'.basis, h.cont.trans h'.cont, h.triangles.trans h'.triangles, h.vertices.trans h'.vertices, h.boundary.trans h'.boundary,
    h.keepLast.trans h'.keepLast⟩

theorem combine_spec {p q : PObj K V m Tr} (hp : WellFormed p) (hq : WellFormed q) (hk : SameKind p q)
    {F G : ℕ → (Fin m → K) → V} (hF : Denotes p F) (hG : Denotes q G) (op : V → V → V) (h0 : op 0 0 = 0)
    (hval : ∀ (b : Basis) (n : ℕ) (c d : List ℕ → V) (x : Fin m → K), val b m n (fun ν => op (c ν) (d ν)) x = op (val b m n c x) (val b m n d x))
    (hcase : p.r = q.r ∨ (Full p ∧ Fits (max p.r q.r) m)) :
    (∀ s, combine op p q = .ok s → WellFormed s ∧ SameKind s p ∧ s.r = max p.r q.r ∧ Denotes s (fun j x => op (F j x) (G j x))) ∧
    (∀ e, combine op p q = .error e → e = .key) ∧
    (Full p → ((∃ s, combine op p q = .ok s) ↔ ∀ j, j < p.triangles.length → j ∉ p.support → ∀ x, op (F j x) (G j x) = 0)) ∧
    ((∀ j, j < p.triangles.length → j ∈ p.support) → ∃ s, combine op p q = .ok s) := by
  have hcomb : combine op p q = (if p.r = q.r then combineSame op p q
      else if p.r > q.r then (do
        let q' ← q.degreeElevate p.r
        combineSame op p q')
      else (do
        let p' ← p.degreeElevate q.r
        combineSame op p' q)) := by
    unfold combine
    rw [decide_eq_true hk.basis, sameMesh_ok hk.triangles hk.vertices hk.boundary, pyAssert_true, Py.bind_ok, Py.bind_ok]
  by_cases h1 : p.r = q.r
  · rw [hcomb, if_pos h1, ← h1, max_self]
    exact combineSame_spec hp hq hk h1 hF hG op h0 (hval _ _)
  · obtain ⟨hfull, hfit⟩ := hcase.resolve_left h1
    by_cases h2 : p.r > q.r
    · have hmax : max p.r q.r = p.r := max_eq_left h2.le
      rw [hmax] at hfit ⊢
      obtain ⟨q', e1, e2, e3, e4, -, -, e7⟩ := elevate_spec hq (full_of hk.symm hfull) hG h2.le (Or.inr hfit)
      rw [hcomb, if_neg h1, if_pos h2, e1, Py.bind_ok]
      exact combineSame_spec hp e2 (hk.trans e3.symm) e4.symm hF e7 op h0 (hval _ _)
    · have hmax : max p.r q.r = q.r := max_eq_right (by omega)
      rw [hmax] at hfit ⊢
      obtain ⟨p', e1, e2, e3, e4, e5, -, e7⟩ := elevate_spec hp hfull hF (s := q.r) (by omega) (Or.inr hfit)
      rw [hcomb, if_neg h1, if_neg h2, e1, Py.bind_ok]
      obtain ⟨a1, a2, a3, a4⟩ := combineSame_spec e2 hq (e3.trans hk) e4 e7 hG op h0 (hval _ _)
      rw [e3.triangles, e5, e4] at *
      refine ⟨fun s hs => ?_, a2, fun _ => a3 (full_of e3 hfull), a4⟩
      obtain ⟨b1, b2, b3, b4⟩ := a1 s hs
      exact ⟨b1, b2.trans e3, b3, b4⟩

/-! ## The constructor -/

section New
variable {b : Basis} {cont : Bool} {triangles : List (List ℕ)} {vertices : List (Fin m → K)} {boundary : Option (List (List ℕ))} {keepLast : Bool}
  {M : L2G.Map} {t : ℕ → List ℕ → ℤ}

theorem new_general (hb : b ≠ .monomial) (hsp : IsSpace cont triangles vertices r boundary)
    (hM : genMap cont triangles r boundary keepLast = .ok M) {coeff : List V}
    (ht : TauSpec cont m r triangles boundary keepLast M coeff.length t) (hc : coeff ≠ [])
    {tauO : Option (Int → List Nat → Py Int)} (htau : tauArg cont coeff.length triangles r tauO boundary keepLast = .ok M.tau)
    {supO : Option (List ℕ)} {S : List ℕ} (hS : supportArg M.tau coeff (MI.generateAll m r) triangles.length supO = .ok S)
    (hsup : ∀ j ∈ S, j < triangles.length) (hcov : ∀ j, j < triangles.length → j ∉ S → ∀ ν, IsIndex m r ν → loc coeff t j ν = 0)
    {mkTree : List ℕ → Py Tr} {treeO : Option Tr} {tree : Tr} (htree : (match treeO with | some t => .ok t | none => mkTree S : Py Tr) = .ok tree)
    {polysO : Option (List (Nat × List (SObj K K m)))}
    (hpolys : polysO = none ∧ Fits r m ∨ ∃ d, polysO = some d ∧ ∀ j ∈ S, ∃ v l, cell triangles vertices j = .ok v ∧ basisSimplex b r v = .ok l ∧
      dget? d j = some l) :
    ∃ p : PObj K V m Tr, PObj.new mkTree b cont coeff triangles vertices r tauO boundary keepLast supO treeO polysO = .ok p ∧
      WellFormed p ∧ p.basis = b ∧ p.cont = cont ∧ p.coeff = coeff ∧ p.tau = M.tau ∧ p.triangles = triangles ∧ p.vertices = vertices ∧
      p.boundary = boundary ∧ p.keepLast = keepLast ∧ p.r = r ∧ p.support = S ∧ p.tree = tree := by
  have h0 : 0 < coeff.length := List.length_pos_iff.2 hc
  obtain ⟨x, hx⟩ := hsp.vertices_ne
  have key : ∃ polys, polysArg b triangles vertices r S polysO = .ok polys ∧
      (∀ j ∈ S, ∃ v l, cell triangles vertices j = .ok v ∧ basisSimplex b r v = .ok l ∧ dget? polys j = some l) ∧
      (∀ j, j ∉ S → dget? polys j = none) := by
    rcases hpolys with ⟨rfl, hf⟩ | ⟨d, rfl, hd⟩
    · have hex : ∀ j ∈ S, ∃ l, (do
          let v ← cell triangles vertices j
          basisSimplex b r v : Py _) = .ok l := by
        intro j hj
        obtain ⟨v, hv, hd⟩ := hsp.cells j (hsup j hj)
        obtain ⟨l, hl⟩ := basisSimplex_ok b v hd hf
        exact ⟨l, by rw [hv, Py.bind_ok, hl]⟩
      obtain ⟨polys, hpolys⟩ := mapM_exists (f := fun j => do
          let b ← (do
            let v ← cell triangles vertices j
            basisSimplex b r v : Py _)
          return (j, b)) (l := S) (fun j hj => by
            obtain ⟨l, hl⟩ := hex j hj
            exact ⟨_, by rw [hl, Py.bind_ok, Py.pure_eq]⟩)
      obtain ⟨h1, h2⟩ := dget?_mapM (γ := K) hpolys
      refine ⟨polys, ?_, fun j hj => ?_, h2⟩
      · unfold polysArg
        simp only [bind_assoc] at hpolys
        exact hpolys
      · obtain ⟨l, h3, h4⟩ := h1 j hj
        obtain ⟨v, hv, hd⟩ := hsp.cells j (hsup j hj)
        rw [hv, Py.bind_ok] at h3
        exact ⟨v, l, hv, h3, h4⟩
    · obtain ⟨polys, hpolys⟩ := mapM_exists (f := fun j => do
          let b ← keyE (dget? d j)
          return (j, b)) (l := S) (fun j hj => by
            obtain ⟨v, l, -, -, h3⟩ := hd j hj
            exact ⟨_, by rw [h3]; rfl⟩)
      obtain ⟨h1, h2⟩ := dget?_mapM (γ := K) hpolys
      refine ⟨polys, hpolys, fun j hj => ?_, h2⟩
      obtain ⟨l, h3, h4⟩ := h1 j hj
      obtain ⟨v, l', h5, h6, h7⟩ := hd j hj
      rw [h7] at h3
      obtain rfl : l' = l := Except.ok.inj h3
      exact ⟨v, l', h5, h6, h4⟩
  obtain ⟨polys, e1, e2, e3⟩ := key
  refine ⟨_, ?_, new_good hb hsp hM ht hc hsup hcov tree (polys := polys) e2 e3, rfl, rfl, rfl, rfl, rfl, rfl, rfl, rfl, rfl, rfl, rfl⟩
  unfold PObj.new
  rw [htau, Py.bind_ok, getE_ok h0, hx, Py.bind_ok, Py.bind_ok, hS, Py.bind_ok]
  cases treeO with
  | none => simp only at htree ⊢; rw [htree, Py.bind_ok, e1]; rfl
  | some T => simp only at htree ⊢; obtain rfl := Except.ok.inj htree; rw [Py.bind_ok, e1]; rfl

omit [DecidableEq K] [CharZero K] in
theorem tauArg_ok (hM : genMap cont triangles r boundary keepLast = .ok M) {n : ℕ} (hn : M.numDofs = n) {tauO : Option (Int → List Nat → Py Int)}
    (h : (tauO = none ∧ (cont = true ∨ keepLast = false)) ∨ tauO = some M.tau) : tauArg cont n triangles r tauO boundary keepLast = .ok M.tau := by
  rcases h with ⟨rfl, h⟩ | rfl
  · unfold tauArg
    simp only
    rw [hM, Py.bind_ok, if_neg (by rcases h with rfl | rfl <;> simp), decide_eq_true hn, pyAssert_true]
    rfl
  · rfl

/-! ## Numbers of degrees of freedom -/

omit [Field K] [DecidableEq K] [CharZero K] in
theorem num_disc {N : ℕ} (ht : TauSpec false m 0 triangles boundary keepLast M N t) (hf : NoDrop m 0 triangles boundary keepLast) :
    N = triangles.length := by
  have hz : ∀ ν, IsIndex m 0 ν → ν = List.replicate m 0 := by
    intro ν hν
    rw [List.eq_replicate_iff]
    refine ⟨hν.1, fun a ha => ?_⟩
    have := List.le_sum_of_mem ha
    have := hν.2
    omega
  have h0 : IsIndex m 0 (List.replicate m 0) := ⟨by simp, by simp⟩
  choose f hf1 hf2 using fun j : Fin triangles.length => ht.full' hf j.2 h0
  choose g ν hg1 hg2 hg3 using fun i : Fin N => ht.surj i i.2
  apply le_antisymm
  · have := Fintype.card_le_of_injective (fun i : Fin N => (⟨g i, hg1 i⟩ : Fin triangles.length)) (by
      intro i i' h
      simp only [Fin.mk.injEq] at h
      have h1 := hg3 i
      rw [hz _ (hg2 i), h] at h1
      have h2 := hg3 i'
      rw [hz _ (hg2 i'), h1] at h2
      exact Fin.ext (by omega))
    simpa using this
  · have := Fintype.card_le_of_injective (fun j : Fin triangles.length => (⟨f j, hf1 j⟩ : Fin N)) (by
      intro j j' h
      simp only [Fin.mk.injEq] at h
      have := ht.inj j j.2 _ h0 j' j'.2 _ h0 (by rw [hf2, hf2, h]) (by rw [hf2]; omega)
      unfold SameDof at this
      simp only [Bool.false_eq_true, if_false, and_true] at this
      exact Fin.ext this)
    simpa using this

theorem IsSpace.vertex_lt (hsp : IsSpace cont triangles vertices r boundary) {j : ℕ} (hj : j < triangles.length) {i : ℕ} (hi : i ∈ triangles[j]) :
    i < vertices.length := by
  obtain ⟨v, hv, -⟩ := hsp.cells j hj
  unfold cell at hv
  rw [getE_ok hj, Py.bind_ok] at hv
  unfold cellVertices Complex.simplexVertices at hv
  obtain ⟨x, hx⟩ := hsp.vertices_ne
  rw [hx, Py.bind_ok] at hv
  cases hm : (triangles[j]).mapM (fun i => getE vertices i) with
  | error e => rw [hm] at hv; cases hv
  | ok l =>
    by_contra hlt
    obtain ⟨k, hk, rfl⟩ := List.getElem_of_mem hi
    obtain ⟨y, -, h2⟩ := (mapM_getElem hm).2 k _ (List.getElem?_eq_getElem hk)
    rw [getE_error (by omega)] at h2
    cases h2

omit [Field K] [DecidableEq K] [CharZero K] in
/-- A multi-index of degree one on a simplex of the mesh denotes one of its vertices. -/
theorem lattice_single (hm : IsMesh m triangles) : ∀ j (hj : j < triangles.length) ν, IsIndex m 1 ν →
    ∃ w ∈ triangles[j], latticePoint 1 (triangles.getD j []) ν = Pi.single w 1 := by
  classical
  intro j hj ν hν
  obtain ⟨a, ha, rfl⟩ := isIndex_iff.1 hν
  have hT := hm.simplex _ (List.getElem_mem hj)
  have h1 := latticePoint_mem hT.2 hT.1 ha
  rw [getD_triangles hj]
  rw [Finset.mem_piAntidiag] at h1
  obtain ⟨h1, h2⟩ := h1
  have : ∃ w ∈ triangles[j].toFinset, latticePoint 1 triangles[j] (List.ofFn a) w ≠ 0 := by
    by_contra hc
    push Not at hc
    rw [Finset.sum_eq_zero hc] at h1
    omega
  obtain ⟨w, hw, hw'⟩ := this
  refine ⟨w, List.mem_toFinset.1 hw, ?_⟩
  have h3 := Finset.add_sum_erase _ (latticePoint 1 triangles[j] (List.ofFn a)) hw
  rw [h1] at h3
  have h4 : latticePoint 1 triangles[j] (List.ofFn a) w = 1 := by omega
  have h5 : ∑ x ∈ (triangles[j].toFinset).erase w, latticePoint 1 triangles[j] (List.ofFn a) x = 0 := by omega
  rw [Finset.sum_eq_zero_iff] at h5
  funext u
  by_cases hu : u = w
  · subst hu; rw [h4, Pi.single_eq_same]
  · rw [Pi.single_eq_of_ne hu]
    by_cases hu' : u ∈ triangles[j].toFinset
    · exact h5 u (Finset.mem_erase.2 ⟨hu, hu'⟩)
    · by_contra hne
      exact hu' (h2 u hne)

theorem num_cont {N : ℕ} (hsp : IsSpace true triangles vertices 1 boundary) (ht : TauSpec true m 1 triangles boundary keepLast M N t)
    (hf : NoDrop m 1 triangles boundary keepLast) (hall : ∀ v, v < vertices.length → ∃ T ∈ triangles, v ∈ T) : N = vertices.length := by
  classical
  have hv := lattice_single hsp.mesh
  have hw : ∀ w : Fin vertices.length, ∃ j, ∃ hj : j < triangles.length, ∃ ν, IsIndex m 1 ν ∧ latticePoint 1 (triangles.getD j []) ν = Pi.single (w : ℕ) 1 := by
    intro w
    obtain ⟨T, hT, hwT⟩ := hall w w.2
    obtain ⟨j, hj, rfl⟩ := List.getElem_of_mem hT
    have hT' := hsp.mesh.simplex _ hT
    obtain ⟨a, ha, h1⟩ := latticePoint_surj hT'.2 hT'.1 (r := 1) (L := Pi.single (w : ℕ) 1) (by
      rw [Finset.mem_piAntidiag]
      refine ⟨?_, fun u hu => ?_⟩
      · rw [Finset.sum_pi_single', if_pos (List.mem_toFinset.2 hwT)]
      · by_cases hu' : u = w
        · subst hu'; exact List.mem_toFinset.2 hwT
        · rw [Pi.single_eq_of_ne hu'] at hu
          exact absurd rfl hu)
    exact ⟨j, hj, List.ofFn a, isIndex_iff.2 ⟨a, ha, rfl⟩, by rw [getD_triangles hj, h1]⟩
  choose j hj ν hν hL using hw
  choose f hf1 hf2 using fun w => ht.full' hf (hj w) (hν w)
  choose g μ hg1 hg2 hg3 using fun i : Fin N => ht.surj i i.2
  choose w hw1 hw2 using fun i : Fin N => hv (g i) (hg1 i) (μ i) (hg2 i)
  apply le_antisymm
  · have := Fintype.card_le_of_injective (fun i : Fin N => (⟨w i, hsp.vertex_lt (hg1 i) (hw1 i)⟩ : Fin vertices.length)) (by
      intro i i' h
      simp only [Fin.mk.injEq] at h
      have := ht.same _ (hg1 i) _ (hg2 i) _ (hg1 i') _ (hg2 i') (by
        unfold SameDof
        rw [if_pos rfl, hw2, hw2, h])
      rw [hg3, hg3] at this
      exact Fin.ext (by omega))
    simpa using this
  · have := Fintype.card_le_of_injective (fun w : Fin vertices.length => (⟨f w, hf1 w⟩ : Fin N)) (by
      intro u u' h
      simp only [Fin.mk.injEq] at h
      have := ht.inj _ (hj u) _ (hν u) _ (hj u') _ (hν u') (by rw [hf2, hf2, h]) (by rw [hf2]; omega)
      unfold SameDof at this
      rw [if_pos rfl, hL, hL] at this
      have := congrFun this u
      rw [Pi.single_eq_same] at this
      by_contra hne
      rw [Pi.single_eq_of_ne (fun h => hne (Fin.ext h))] at this
      omega)
    simpa using this

/-! ## Unit and zero -/

theorem unit_spec (hb : b ≠ .monomial) (hsp : IsSpace cont triangles vertices (if cont then 1 else 0) boundary)
    (hM : genMap cont triangles (if cont then 1 else 0) boundary keepLast = .ok M) (hf : NoDrop m (if cont then 1 else 0) triangles boundary keepLast)
    (hall : cont = true → ∀ v, v < vertices.length → ∃ T ∈ triangles, v ∈ T)
    {tauO : Option (Int → List Nat → Py Int)} (htau : (tauO = none ∧ (cont = true ∨ keepLast = false)) ∨ tauO = some M.tau)
    {mkTree : List ℕ → Py Tr} {treeO : Option Tr} {tree : Tr}
    (htree : (match treeO with | some t => .ok t | none => mkTree (List.range triangles.length) : Py Tr) = .ok tree) :
    ∃ p : PObj K K m Tr, unitPiecewise mkTree b cont triangles vertices tauO boundary keepLast treeO = .ok p ∧ WellFormed p ∧
      p.basis = b ∧ p.cont = cont ∧ p.triangles = triangles ∧ p.vertices = vertices ∧ p.boundary = boundary ∧ p.keepLast = keepLast ∧
      p.r = (if cont then 1 else 0) ∧ p.tree = tree ∧ Denotes p (fun _ _ => 1) := by
  obtain ⟨M', N, t, hM', ht⟩ := genMap_spec hsp keepLast
  obtain rfl : M = M' := Except.ok.inj (hM.symm.trans hM')
  have hN : N = if cont then vertices.length else triangles.length := by
    cases cont with
    | false => exact num_disc ht hf
    | true => exact num_cont hsp ht hf (hall rfl)
  have h0 : 0 < N := by
    have h0 : 0 < triangles.length := List.length_pos_iff.2 hsp.mesh.ne
    obtain ⟨i, hi, -⟩ := ht.full' hf h0 (ν := List.replicate m 0) ⟨by simp, by simp⟩
    omega
  unfold unitPiecewise
  rw [← hN]
  have hl : (List.replicate N (1 : K)).length = N := by simp
  obtain ⟨p, q1, q2, q3, q4, q5, q6, q7, q8, q9, q10, q11, q12, q13⟩ := new_general (coeff := List.replicate N (1 : K)) (S := List.range triangles.length) hb hsp hM
    (hl.symm ▸ ht) (by rw [← List.length_pos_iff, hl]; exact h0) (tauArg_ok hM (by rw [hl]; exact ht.num) htau) (supO := some (List.range triangles.length)) rfl
    (fun j hj => by simpa using hj) (fun j hj hj' => absurd (by simpa using hj) hj') htree (polysO := none)
    (Or.inl ⟨rfl, by unfold Fits; cases cont <;> simp⟩)
  refine ⟨p, q1, q2, q3, q4, q7, q8, q9, q10, q11, q13, denotes_of q2 q6 (t := t) ?_ ?_⟩
  · rw [q4, q11, q7, q9, q10, q5, hl]; exact ht
  · intro j hj v hv hd x
    rw [q7] at hj
    rw [q3, q11, q5, val_congr (d := fun _ => 1)]
    · revert hb
      cases b with
      | monomial => intro h; exact absurd rfl h
      | bernstein => intro _; exact val_bernstein_one _ _ _
      | lagrange => intro _; exact val_lagrange_one _ _ _
    · intro ν hν
      obtain ⟨i, hi, hi'⟩ := ht.full' hf hj hν
      unfold loc
      rw [if_neg (by omega), hi']
      simp [hi]

theorem zero_spec (hb : b ≠ .monomial) (hsp : IsSpace cont triangles vertices (if cont then 1 else 0) boundary)
    (hM : genMap cont triangles (if cont then 1 else 0) boundary keepLast = .ok M) (hf : NoDrop m (if cont then 1 else 0) triangles boundary keepLast)
    (hall : cont = true → ∀ v, v < vertices.length → ∃ T ∈ triangles, v ∈ T)
    {tauO : Option (Int → List Nat → Py Int)} (htau : (tauO = none ∧ (cont = true ∨ keepLast = false)) ∨ tauO = some M.tau)
    {mkTree : List ℕ → Py Tr} {treeO : Option Tr} {tree : Tr} (htree : (match treeO with | some t => .ok t | none => mkTree [] : Py Tr) = .ok tree) :
    ∃ p : PObj K V m Tr, zeroPiecewise V mkTree b cont triangles vertices tauO boundary keepLast treeO = .ok p ∧ WellFormed p ∧
      p.basis = b ∧ p.cont = cont ∧ p.triangles = triangles ∧ p.vertices = vertices ∧ p.boundary = boundary ∧ p.keepLast = keepLast ∧
      p.r = (if cont then 1 else 0) ∧ p.tree = tree ∧ Denotes p (fun _ _ => 0) := by
  obtain ⟨M', N, t, hM', ht⟩ := genMap_spec hsp keepLast
  obtain rfl : M = M' := Except.ok.inj (hM.symm.trans hM')
  have hN : N = if cont then vertices.length else triangles.length := by
    cases cont with
    | false => exact num_disc ht hf
    | true => exact num_cont hsp ht hf (hall rfl)
  have h0 : 0 < N := by
    have h0 : 0 < triangles.length := List.length_pos_iff.2 hsp.mesh.ne
    obtain ⟨i, hi, -⟩ := ht.full' hf h0 (ν := List.replicate m 0) ⟨by simp, by simp⟩
    omega
  unfold zeroPiecewise
  rw [← hN]
  have hl : (zeros V N).length = N := by simp [zeros]
  obtain ⟨p, q1, q2, q3, q4, q5, q6, q7, q8, q9, q10, q11, q12, q13⟩ := new_general (coeff := zeros V N) (S := []) hb hsp hM
    (hl.symm ▸ ht) (by rw [← List.length_pos_iff, hl]; exact h0) (tauArg_ok hM (by rw [hl]; exact ht.num) htau) (supO := some []) rfl
    (fun j hj => by simp at hj) (fun j hj hj' ν hν => by
      obtain ⟨i, hi, hi'⟩ := ht.full' hf hj hν
      unfold loc
      rw [if_neg (by omega), hi']
      simp [zeros, hi]) htree (polysO := none)
    (Or.inl ⟨rfl, by unfold Fits; cases cont <;> simp⟩)
  refine ⟨p, q1, q2, q3, q4, q7, q8, q9, q10, q11, q13, fun j hj x => ?_⟩
  unfold PObj.evaluateOnSimplex
  rw [q12, if_pos (by simp)]

end New

/-! ## Powers -/

theorem pow_spec {p : PObj K K m Tr} (h : WellFormed p) (hfull : Full p) {F : ℕ → (Fin m → K) → K} (hF : Denotes p F) : ∀ k : ℕ,
    (p.support = [] ∨ k = 0 ∨ Fits ((k + 1) * p.r) m →
      ∃ s, p.powNat (k + 1) = .ok s ∧ WellFormed s ∧ SameKind s p ∧ s.r = (k + 1) * p.r ∧ s.support = p.support ∧ s.tree = p.tree ∧
        Denotes s (fun j x => F j x ^ (k + 1))) ∧
    (¬ (p.support = [] ∨ k = 0 ∨ Fits ((k + 1) * p.r) m) → ∃ e, p.powNat (k + 1) = .error e)
  | 0 => by
    refine ⟨fun _ => ?_, fun h => absurd (Or.inr (Or.inl rfl)) h⟩
    obtain ⟨s, h1, h2, h3, h4, h5, h6, h7⟩ := elevate_spec h hfull hF (s := p.r) le_rfl (Or.inl rfl)
    unfold PObj.degreeElevate at h1
    rw [decide_eq_true le_rfl, pyAssert_true, Py.bind_ok, if_pos rfl] at h1
    refine ⟨s, h1, h2, h3, by rw [h4]; simp, h5, h6, ?_⟩
    simpa using h7
  | k + 1 => by
    have ih := pow_spec h hfull hF k
    have hpow : p.powNat (k + 1 + 1) = (do
        let q ← p.powNat (k + 1)
        p.mul q) := rfl
    have hmono : Fits ((k + 1 + 1) * p.r) m → Fits ((k + 1) * p.r) m := fun hf => hf.mono (Nat.mul_le_mul_right _ (by omega))
    have hadd : p.r + (k + 1) * p.r = (k + 1 + 1) * p.r := by ring
    have step : ∀ s : PObj K K m Tr, WellFormed s → SameKind s p → s.r = (k + 1) * p.r → s.support = p.support →
        Denotes s (fun j x => F j x ^ (k + 1)) → _ := fun s h2 h3 h4 h5 h7 =>
      mul_spec h h2 hfull ⟨h3.triangles, h3.vertices, h3.boundary, h3.keepLast, fun hc => by rw [h3.cont, hc], Or.inr h3.basis.symm⟩ hF h7
    have hfil : p.support.filter (fun j => decide (j ∈ p.support)) = p.support := by
      rw [List.filter_eq_self]
      intro j hj
      simpa using hj
    have hdis : (∀ j ∈ p.support, j ∉ p.support) ↔ p.support = [] := by
      constructor
      · intro h
        cases hs : p.support with
        | nil => rfl
        | cons a l => exact absurd (by rw [hs]; simp) (h a (by rw [hs]; simp))
      · intro h j hj
        rw [h] at hj
        simp at hj
    constructor
    · intro hc
      obtain ⟨s, h1, h2, h3, h4, h5, h6, h7⟩ := ih.1 (by
        rcases hc with hc | hc | hc
        · exact Or.inl hc
        · omega
        · exact Or.inr (Or.inr (hmono hc)))
      rw [hpow, h1, Py.bind_ok]
      obtain ⟨a, b1, b2, b3, b4, b5, b6, b7⟩ := (step s h2 h3 h4 h5 h7).1 (by
        rw [h5, h4, hadd, hdis]
        rcases hc with hc | hc | hc
        · exact Or.inl hc
        · omega
        · exact Or.inr hc)
      refine ⟨a, b1, b2, b3, by rw [b4, h4, hadd], by rw [b5, h5, hfil], b6, ?_⟩
      intro j hj x
      rw [b7 j hj x]
      simp only [pow_succ' (F j x) (k + 1)]
    · intro hc
      push Not at hc
      rw [hpow]
      by_cases hc' : p.support = [] ∨ k = 0 ∨ Fits ((k + 1) * p.r) m
      · obtain ⟨s, h1, h2, h3, h4, h5, h6, h7⟩ := ih.1 hc'
        rw [h1, Py.bind_ok]
        refine (step s h2 h3 h4 h5 h7).2 ?_
        rw [h5, h4, hadd, hdis]
        tauto
      · obtain ⟨e, he⟩ := ih.2 hc'
        exact ⟨e, by rw [he]; rfl⟩

/-! ## Bases -/

section Bases
variable {b : Basis} {cont : Bool} {triangles : List (List ℕ)} {vertices : List (Fin m → K)} {boundary : Option (List (List ℕ))} {keepLast : Bool}
  {M : L2G.Map} {t : ℕ → List ℕ → ℤ} {N : ℕ}

theorem basisFn_spec (hb : b ≠ .monomial) (hsp : IsSpace cont triangles vertices r boundary)
    (hM : genMap cont triangles r boundary keepLast = .ok M) (ht : TauSpec cont m r triangles boundary keepLast M N t) {i : ℕ} (hi : i < N)
    {mkTree : List ℕ → Py Tr} {treeO : Option Tr} (htree : treeO ≠ none ∨ ∀ S : List ℕ, (∀ j ∈ S, j < triangles.length) → ∃ T, mkTree S = .ok T)
    {polysO : Option (List (Nat × List (SObj K K m)))}
    (hpolys : polysO = none ∧ Fits r m ∨ ∃ d, polysO = some d ∧ ∀ j, j < triangles.length → ∃ v l, cell triangles vertices j = .ok v ∧
      basisSimplex b r v = .ok l ∧ dget? d j = some l) :
    ∃ p : PObj K K m Tr, basisFn mkTree b cont triangles vertices r i M boundary keepLast treeO polysO = .ok p ∧ WellFormed p ∧ p.basis = b ∧
      p.cont = cont ∧ p.coeff = (zeros K N).set i 1 ∧ p.tau = M.tau ∧ p.triangles = triangles ∧ p.vertices = vertices ∧ p.boundary = boundary ∧
      p.keepLast = keepLast ∧ p.r = r := by
  have hl : ((zeros K N).set i 1).length = N := by simp [zeros]
  have hne : (zeros K N).set i 1 ≠ [] := by rw [← List.length_pos_iff, hl]; omega
  unfold basisFn
  rw [ht.toNat, pySet_nat (by simpa [zeros] using hi), Py.bind_ok]
  have hS := supportArg_eq hne (hl.symm ▸ ht)
  have hT : ∃ tree, (match treeO with | some t => .ok t | none => mkTree (sup m r ((zeros K N).set i 1) t triangles.length) : Py Tr) = .ok tree := by
    cases treeO with
    | some T => exact ⟨T, rfl⟩
    | none => exact htree.resolve_left (by simp) _ (fun j hj => (mem_sup.1 hj).1)
  obtain ⟨tree, hT⟩ := hT
  obtain ⟨p, q1, q2, q3, q4, q5, q6, q7, q8, q9, q10, q11, q12, q13⟩ := new_general hb hsp hM (hl.symm ▸ ht) hne (tauO := some M.tau) rfl hS
    (fun j hj => (mem_sup.1 hj).1) (fun j hj hj' ν hν => sup_cover hj hj' hν) hT (polysO := polysO) (by
      rcases hpolys with h | ⟨d, h1, h2⟩
      · exact Or.inl h
      · exact Or.inr ⟨d, h1, fun j hj => h2 j (mem_sup.1 hj).1⟩)
  exact ⟨p, q1, q2, q3, q4, q5, q6, q7, q8, q9, q10, q11⟩

theorem basis_spec (hb : b ≠ .monomial) (hsp : IsSpace cont triangles vertices r boundary)
    (hM : genMap cont triangles r boundary keepLast = .ok M) (ht : TauSpec cont m r triangles boundary keepLast M N t) (hf : Fits r m)
    {mkTree : List ℕ → Py Tr} {treeO : Option Tr} (htree : treeO ≠ none ∨ ∀ S : List ℕ, (∀ j ∈ S, j < triangles.length) → ∃ T, mkTree S = .ok T) :
    ∃ l, piecewiseBasis mkTree b cont triangles vertices r boundary keepLast treeO = .ok l ∧ l.length = N ∧ ∀ i, i < N → ∃ p, l[i]? = some p ∧
      WellFormed p ∧ p.basis = b ∧
      p.cont = cont ∧ p.coeff = (zeros K N).set i 1 ∧ p.tau = M.tau ∧ p.triangles = triangles ∧ p.vertices = vertices ∧ p.boundary = boundary ∧
      p.keepLast = keepLast ∧ p.r = r := by
  have hex : ∀ j ∈ List.range triangles.length, ∃ l, (do
      let v ← cell triangles vertices j
      basisSimplex b r v : Py _) = .ok l := by
    intro j hj
    obtain ⟨v, hv, hd⟩ := hsp.cells j (by simpa using hj)
    obtain ⟨l, hl⟩ := basisSimplex_ok b v hd hf
    exact ⟨l, by rw [hv, Py.bind_ok, hl]⟩
  obtain ⟨polys, hpolys⟩ := mapM_exists (f := fun j => do
      let b ← (do
        let v ← cell triangles vertices j
        basisSimplex b r v : Py _)
      return (j, b)) (l := List.range triangles.length) (fun j hj => by
        obtain ⟨l, hl⟩ := hex j hj
        exact ⟨_, by rw [hl, Py.bind_ok, Py.pure_eq]⟩)
  obtain ⟨h1, -⟩ := dget?_mapM (γ := K) hpolys
  have hfn := fun (i : ℕ) (hi : i < N) => basisFn_spec (Tr := Tr) hb hsp hM ht hi htree (polysO := some polys) (Or.inr ⟨polys, rfl, fun j hj => by
    obtain ⟨l, h3, h4⟩ := h1 j (by simpa using hj)
    obtain ⟨v, hv, hd⟩ := hsp.cells j hj
    rw [hv, Py.bind_ok] at h3
    exact ⟨v, l, hv, h3, h4⟩⟩)
  obtain ⟨l, hl⟩ := mapM_exists (f := fun (i : ℕ) => basisFn mkTree b cont triangles vertices r i M boundary keepLast treeO (some polys))
    (l := List.range N) (fun i hi => by
      obtain ⟨p, hp, -⟩ := hfn i (by simpa using hi)
      exact ⟨p, hp⟩)
  obtain ⟨e1, e2⟩ := mapM_getElem hl
  refine ⟨l, ?_, by simpa using e1, fun i hi => ?_⟩
  · unfold piecewiseBasis
    simp only [bind_assoc] at hpolys
    rw [hM, Py.bind_ok, hpolys, Py.bind_ok, ht.toNat, hl]
  · obtain ⟨p, hp1, hp2⟩ := e2 i i (by simp [hi])
    obtain ⟨p', hp', hrest⟩ := hfn i hi
    obtain rfl : p' = p := Except.ok.inj (hp'.symm.trans hp2)
    exact ⟨p', hp1, hrest⟩

omit [DecidableEq K] [CharZero K] [DecidableEq V] in
theorem loc_basis (ht : TauSpec cont m r triangles boundary keepLast M N t) {i j : ℕ} (hi : i < N) (hj : j < triangles.length)
    {ν : List ℕ} (hν : IsIndex m r ν) : loc ((zeros K N).set i 1) t j ν = if t j ν = i then 1 else 0 := by
  unfold loc
  rcases ht.range j hj ν hν with h | ⟨k, hk, h⟩
  · rw [if_pos h, if_neg (by omega)]
  · rw [if_neg (by omega), h, Int.toNat_natCast, List.getD_eq_getElem?_getD, List.getElem?_set]
    by_cases hik : i = k
    · subst hik
      simp [zeros, hi]
    · rw [if_neg hik, if_neg (by omega)]
      simp [zeros, hk]

omit [DecidableEq K] [CharZero K] [DecidableEq V] in
theorem loc_sum {coeff : List V} (ht : TauSpec cont m r triangles boundary keepLast M coeff.length t) {j : ℕ} (hj : j < triangles.length)
    {ν : List ℕ} (hν : IsIndex m r ν) :
    loc coeff t j ν = ∑ i : Fin coeff.length, loc ((zeros K coeff.length).set i 1) t j ν • coeff[i] := by
  rcases ht.range j hj ν hν with h | ⟨k, hk, h⟩
  · rw [Finset.sum_eq_zero]
    · unfold loc; rw [if_pos h]
    · intro i _
      rw [loc_basis ht i.2 hj hν, if_neg (by omega), zero_smul]
  · rw [Finset.sum_eq_single (⟨k, hk⟩ : Fin coeff.length)]
    · rw [loc_basis ht hk hj hν, if_pos h, one_smul]
      unfold loc
      rw [if_neg (by omega), h, Int.toNat_natCast, List.getD_eq_getElem?_getD, List.getElem?_eq_getElem hk]
      rfl
    · intro i _ hne
      rw [loc_basis ht i.2 hj hν, if_neg, zero_smul]
      intro h'
      apply hne
      ext
      simp only
      omega
    · intro h; exact absurd (Finset.mem_univ _) h

end Bases

end Verif.PP
