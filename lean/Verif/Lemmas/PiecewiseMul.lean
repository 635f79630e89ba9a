import Verif.Lemmas.PiecewiseOps
/-!
# Restriction, degree elevation and products of piecewise polynomial objects
-/

namespace Verif.PP
open Verif Verif.Poly Verif.Simplex Verif.SPoly Verif.L2G Verif.Spec

variable {K V : Type} [Field K] [DecidableEq K] [CharZero K] [AddCommGroup V] [DecidableEq V] [Module K V] {m r : Nat} {Tr : Type}

theorem off_support {p : PObj K V m Tr} (h : WellFormed p) {M : L2G.Map} {t : ℕ → List ℕ → ℤ} (hM : p.tau = M.tau)
    (ht : TauSpec p.cont m p.r p.triangles p.boundary p.keepLast M p.coeff.length t) {j : ℕ} (hj : j < p.triangles.length) (hj' : j ∉ p.support)
    {ν : List ℕ} (hν : IsIndex m p.r ν) : loc p.coeff t j ν = 0 := by
  unfold loc
  rcases ht.range j hj ν hν with h1 | ⟨i, hi, h1⟩
  · rw [if_pos h1]
  · rw [if_neg (by omega), h1, Int.toNat_natCast, List.getD_eq_getElem?_getD, h.cover j hj hj' ν hν i (by rw [hM, ht.tau j hj, h1])]
    rfl

/-- The restriction to a simplex has the local coefficients, if no degree of freedom is left out. -/
theorem restrict_eq {p : PObj K V m Tr} (h : WellFormed p) (hfull : Full p) {M : L2G.Map} {t : ℕ → List ℕ → ℤ} (hM : p.tau = M.tau)
    (ht : TauSpec p.cont m p.r p.triangles p.boundary p.keepLast M p.coeff.length t) {j : ℕ} (hj : j < p.triangles.length) {v : Vertices K m m}
    (hv : cell p.triangles p.vertices j = .ok v) (hd : edgeDet v ≠ 0) (hf : Fits p.r m) :
    p.restrictToSimplex j = .ok ⟨mkObj p.basis m p.r (loc p.coeff t j), v, down v⟩ := by
  unfold PObj.restrictToSimplex
  rw [decide_eq_true hj, pyAssert_true, Py.bind_ok, hv, Py.bind_ok]
  by_cases hs : j ∉ p.support
  · rw [if_pos hs]
    unfold zeroPolynomialSimplex
    rw [zeros_tab, tab_congr (g := loc p.coeff t j) (fun ν h1 h2 => (off_support h hM ht hj hs ⟨h1, h2⟩).symm)]
    exact snew_ok hd (new_mk _ _ _ _ hf)
  · rw [if_neg hs, fillLoop_tab m p.r _ (loc p.coeff t j)]
    · rw [Py.bind_ok]
      exact snew_ok hd (new_mk _ _ _ _ hf)
    · intro ν h1 h2
      obtain ⟨i, hi, hi'⟩ := ht.full hfull hj (ν := ν) ⟨h1, h2⟩
      rw [hM, ht.tau j hj, Py.bind_ok, hi', pyGet_nat hi]
      unfold loc
      rw [if_neg (by omega), hi', Int.toNat_natCast, List.getD_eq_getElem?_getD, List.getElem?_eq_getElem hi, Option.getD_some]

/-! ## Storing coefficients -/

/-- Successive assignments. -/
def stores (coeff : List V) (U : List (ℕ × V)) : List V := U.foldl (fun c u => c.set u.1 u.2) coeff

omit [Field K] [DecidableEq K] [CharZero K] [AddCommGroup V] [DecidableEq V] [Module K V] in
theorem stores_spec : ∀ (U : List (ℕ × V)) (coeff : List V), (∀ u ∈ U, ∀ u' ∈ U, u.1 = u'.1 → u.2 = u'.2) →
    (stores coeff U).length = coeff.length ∧ (∀ u ∈ U, u.1 < coeff.length → (stores coeff U)[u.1]? = some u.2) ∧
    (∀ i, (∀ u ∈ U, u.1 ≠ i) → (stores coeff U)[i]? = coeff[i]?)
  | [], coeff, _ => ⟨rfl, by simp, fun i _ => rfl⟩
  | a :: U, coeff, h => by
    obtain ⟨h1, h2, h3⟩ := stores_spec U (coeff.set a.1 a.2) (fun u hu u' hu' => h u (by simp [hu]) u' (by simp [hu']))
    refine ⟨by rw [List.length_set] at h1; exact h1, fun u hu hl => ?_, fun i hi => ?_⟩
    · change (stores (coeff.set a.1 a.2) U)[u.1]? = some u.2
      by_cases hc : ∃ u' ∈ U, u'.1 = u.1
      · obtain ⟨u', hu', he⟩ := hc
        have := h2 u' hu' (by rw [List.length_set, he]; exact hl)
        rw [← he, this, h u' (by simp [hu']) u hu he]
      · push Not at hc
        rw [h3 u.1 hc]
        rcases List.mem_cons.1 hu with rfl | hu'
        · rw [List.getElem?_set_self hl]
        · exact absurd rfl (hc u hu')
    · change (stores (coeff.set a.1 a.2) U)[i]? = coeff[i]?
      rw [h3 i (fun u hu => hi u (by simp [hu])), List.getElem?_set_ne (hi a (by simp))]

omit [Field K] [DecidableEq K] [CharZero K] [AddCommGroup V] [DecidableEq V] [Module K V] in
theorem storeLoop_eq {tau : Int → List Nat → Py Int} {t : ℕ → List ℕ → ℤ} {j N : ℕ} (ht : ∀ ν, tau j ν = .ok (t j ν))
    {val : ℕ → List ℕ → Py V} {e : List ℕ → V} : ∀ (mis : List (List ℕ)) (k : ℕ) (coeff : List V),
    (∀ ν ∈ mis, ∃ i : ℕ, i < N ∧ t j ν = i) → coeff.length = N →
    (∀ i ν, mis[i]? = some ν → val (k + i) ν = .ok (e ν)) →
    storeLoop tau j val mis k coeff = .ok (stores coeff (mis.map (fun ν => ((t j ν).toNat, e ν))))
  | [], k, coeff, _, _, _ => rfl
  | ν :: mis, k, coeff, h1, h2, h3 => by
    obtain ⟨i, hi, hi'⟩ := h1 ν (by simp)
    unfold storeLoop
    rw [ht, Py.bind_ok, show val k ν = .ok (e ν) from h3 0 ν (by simp), Py.bind_ok, hi', pySet_nat (by omega), Py.bind_ok,
      storeLoop_eq ht mis (k + 1) _ (fun ν' h => h1 ν' (by simp [h])) (by simpa using h2) (fun i' ν' h => by
        have := h3 (i' + 1) ν' (by simpa using h)
        rwa [show k + (i' + 1) = k + 1 + i' by omega] at this)]
    simp [stores, hi']

/-- The loop over the simplices that stores the coefficients `e j ν` in a given list. -/
theorem assemble_init {cont : Bool} {triangles : List (List ℕ)} {boundary : Option (List (List ℕ))} {keepLast : Bool} {M : L2G.Map} {N : ℕ}
    {t : ℕ → List ℕ → ℤ} (ht : TauSpec cont m r triangles boundary keepLast M N t) (hf : keepLast = true ∨ boundary.getD [] = [])
    (hne : triangles ≠ []) {e : ℕ → List ℕ → V}
    (hsame : ∀ j, j < triangles.length → ∀ ν, IsIndex m r ν → ∀ j', j' < triangles.length → ∀ ν', IsIndex m r ν' →
      SameDof cont r triangles j ν j' ν' → e j ν = e j' ν')
    {step : List V → ℕ → Py (List V)} {S : List ℕ} (hS : ∀ j ∈ S, j < triangles.length)
    (hstep : ∀ j ∈ S, ∀ coeff : List V, coeff.length = N → step coeff j = .ok (stores coeff ((MI.mis m r).map (fun ν => ((t j ν).toNat, e j ν)))))
    {z : List V} (hz : z.length = N) (hoff : ∀ j, j < triangles.length → j ∉ S → ∀ ν, IsIndex m r ν → ∀ i : ℕ, i < N → t j ν = i → z[i]? = some (e j ν)) :
    ∃ L, S.foldlM step z = .ok L ∧ L.length = N ∧ L ≠ [] ∧
      ∀ j, j < triangles.length → ∀ ν, IsIndex m r ν → loc L t j ν = e j ν := by
  have key : ∀ (S : List ℕ) (coeff : List V), coeff.length = N → (∀ j ∈ S, j < triangles.length) →
      (∀ j ∈ S, ∀ coeff : List V, coeff.length = N → step coeff j = .ok (stores coeff ((MI.mis m r).map (fun ν => ((t j ν).toNat, e j ν))))) →
      S.foldlM step coeff = .ok (stores coeff (S.flatMap (fun j => (MI.mis m r).map (fun ν => ((t j ν).toNat, e j ν))))) := by
    intro S
    induction S with
    | nil => intro coeff _ _ _; rfl
    | cons j S ih =>
      intro coeff hc hj hs
      have hlen : ∀ (U : List (ℕ × V)) (c : List V), (stores c U).length = c.length := by
        intro U
        induction U with
        | nil => intro c; rfl
        | cons a U ihU => intro c; simp only [stores, List.foldl_cons] at ihU ⊢; rw [ihU]; simp
      rw [List.foldlM_cons, hs j (by simp) coeff hc, Py.bind_ok,
        ih _ (by rw [hlen]; exact hc) (fun j' h => hj j' (by simp [h])) (fun j' h => hs j' (by simp [h]))]
      simp [stores, List.foldl_append]
  set U := S.flatMap (fun j => (MI.mis m r).map (fun ν => ((t j ν).toNat, e j ν))) with hU
  have hmem : ∀ u ∈ U, ∃ j ∈ S, ∃ ν, IsIndex m r ν ∧ u = ((t j ν).toNat, e j ν) := by
    intro u hu
    rw [hU, List.mem_flatMap] at hu
    obtain ⟨j, hj, hu⟩ := hu
    obtain ⟨ν, hν, rfl⟩ := List.mem_map.1 hu
    exact ⟨j, hj, ν, (mem_mis_iff m r ν).1 hν, rfl⟩
  have heq : ∀ j, j < triangles.length → ∀ ν, IsIndex m r ν → ∀ j', j' < triangles.length → ∀ ν', IsIndex m r ν' →
      (t j ν).toNat = (t j' ν').toNat → e j ν = e j' ν' := by
    intro j hj ν hν j' hj' ν' hν' h
    obtain ⟨i, -, hi⟩ := ht.full hf hj hν
    obtain ⟨i', -, hi'⟩ := ht.full hf hj' hν'
    exact hsame j hj ν hν j' hj' ν' hν' (ht.inj j hj ν hν j' hj' ν' hν' (by omega) (by omega))
  obtain ⟨h1, h2, h3⟩ := stores_spec U z (by
    intro u hu u' hu' h
    obtain ⟨j, hj, ν, hν, rfl⟩ := hmem u hu
    obtain ⟨j', hj', ν', hν', rfl⟩ := hmem u' hu'
    exact heq j (hS j hj) ν hν j' (hS j' hj') ν' hν' h)
  refine ⟨_, key S z hz hS hstep, by rw [h1, hz], ?_, ?_⟩
  · intro h0
    rw [h0] at h1
    have hN : N = 0 := by rw [hz] at h1; simpa using h1.symm
    have hT : 0 < triangles.length := List.length_pos_iff.2 hne
    cases hmis : MI.mis m r with
    | nil => exact mis_ne_nil m r hmis
    | cons ν l =>
      obtain ⟨i, hi, -⟩ := ht.full hf hT (ν := ν) ((mem_mis_iff m r ν).1 (by rw [hmis]; simp))
      omega
  · intro j hj ν hν
    obtain ⟨i, hi, hi'⟩ := ht.full hf hj hν
    unfold loc
    rw [if_neg (by omega), hi', Int.toNat_natCast, List.getD_eq_getElem?_getD]
    by_cases hc : ∃ u ∈ U, u.1 = i
    · obtain ⟨u, hu, he⟩ := hc
      have h4 := h2 u hu (by rw [hz, he]; exact hi)
      obtain ⟨j', hj', ν', hν', rfl⟩ := hmem u hu
      simp only at he h4
      rw [← he, h4, Option.getD_some]
      exact heq j' (hS j' hj') ν' hν' j hj ν hν (by omega)
    · push Not at hc
      rw [h3 i hc]
      have : j ∉ S := by
        intro hjS
        refine hc ((t j ν).toNat, e j ν) ?_ (by simp; omega)
        rw [hU, List.mem_flatMap]
        exact ⟨j, hjS, List.mem_map.2 ⟨ν, (mem_mis_iff m r ν).2 hν, rfl⟩⟩
      rw [hoff j hj this ν hν i hi hi', Option.getD_some]

/-- The loop over the simplices that stores the coefficients `e j ν`, starting with zeros. -/
theorem assemble {cont : Bool} {triangles : List (List ℕ)} {boundary : Option (List (List ℕ))} {keepLast : Bool} {M : L2G.Map} {N : ℕ}
    {t : ℕ → List ℕ → ℤ} (ht : TauSpec cont m r triangles boundary keepLast M N t) (hf : keepLast = true ∨ boundary.getD [] = [])
    (hne : triangles ≠ []) {e : ℕ → List ℕ → V}
    (hsame : ∀ j, j < triangles.length → ∀ ν, IsIndex m r ν → ∀ j', j' < triangles.length → ∀ ν', IsIndex m r ν' →
      SameDof cont r triangles j ν j' ν' → e j ν = e j' ν')
    {step : List V → ℕ → Py (List V)} {S : List ℕ} (hS : ∀ j ∈ S, j < triangles.length)
    (hstep : ∀ j ∈ S, ∀ coeff : List V, coeff.length = N → step coeff j = .ok (stores coeff ((MI.mis m r).map (fun ν => ((t j ν).toNat, e j ν)))))
    (hoff : ∀ j, j < triangles.length → j ∉ S → ∀ ν, IsIndex m r ν → e j ν = 0) :
    ∃ L, S.foldlM step (zeros V N) = .ok L ∧ L.length = N ∧ L ≠ [] ∧
      ∀ j, j < triangles.length → ∀ ν, IsIndex m r ν → loc L t j ν = e j ν :=
  assemble_init ht hf hne hsame hS hstep (by simp [zeros]) (fun j hj hS ν hν i hi _ => by rw [hoff j hj hS ν hν]; simp [zeros, hi])

/-! ## Common coefficients of the simplices -/

/-- The coefficients of a continuous space as a function of the lattice points. -/
theorem factor {triangles : List (List ℕ)} {boundary : Option (List (List ℕ))} {keepLast : Bool} {M : L2G.Map} {N : ℕ}
    {t : ℕ → List ℕ → ℤ} (ht : TauSpec true m r triangles boundary keepLast M N t) (coeff : List V) :
    ∃ cc : (ℕ → ℕ) → V, ∀ j, j < triangles.length → ∀ ν ∈ S m r,
      loc coeff t j (List.ofFn ν) = cc (latticePoint r (triangles.getD j []) (List.ofFn ν)) := by
  classical
  refine ⟨fun L => if h : ∃ a : ℕ × (Fin m → ℕ), a.1 < triangles.length ∧ a.2 ∈ S m r ∧ latticePoint r (triangles.getD a.1 []) (List.ofFn a.2) = L then
    loc coeff t h.choose.1 (List.ofFn h.choose.2) else 0, fun j hj ν hν => ?_⟩
  have hex : ∃ a : ℕ × (Fin m → ℕ), a.1 < triangles.length ∧ a.2 ∈ S m r ∧
      latticePoint r (triangles.getD a.1 []) (List.ofFn a.2) = latticePoint r (triangles.getD j []) (List.ofFn ν) := ⟨(j, ν), hj, hν, rfl⟩
  simp only
  rw [dif_pos hex]
  obtain ⟨h1, h2, h3⟩ := hex.choose_spec
  unfold loc
  rw [ht.same j hj (List.ofFn ν) (isIndex_iff.2 ⟨ν, hν, rfl⟩) hex.choose.1 h1 (List.ofFn hex.choose.2) (isIndex_iff.2 ⟨_, h2, rfl⟩)
    (by unfold SameDof; rw [if_pos rfl]; exact h3.symm)]

theorem IsSpace.other {cont : Bool} {triangles : List (List ℕ)} {vertices : List (Fin m → K)} {boundary : Option (List (List ℕ))}
    (h : IsSpace cont triangles vertices r boundary) {s : ℕ} (hs : r ≠ 0 → s ≠ 0) : IsSpace cont triangles vertices s boundary :=
  ⟨h.mesh, h.cells, h.boundary, fun hc => ⟨(h.continuous hc).1, hs (h.continuous hc).2⟩⟩

theorem TauSpec.toNat {cont : Bool} {triangles : List (List ℕ)} {boundary : Option (List (List ℕ))} {keepLast : Bool} {M : L2G.Map} {N : ℕ}
    {t : ℕ → List ℕ → ℤ} (ht : TauSpec cont m r triangles boundary keepLast M N t) : M.numDofs.toNat = N := by
  rw [ht.num]; simp

/-! ## Degree elevation -/

omit [DecidableEq V] in
theorem selevate_mk (b : Basis) (m r s : ℕ) (c : List ℕ → V) (h : r < s) {v : Vertices K m m} (hd : edgeDet v ≠ 0) :
    ∃ d : List ℕ → V, (∀ x : Fin m → K, val b m s d x = val b m r c x) ∧
      (Fits s m → SObj.degreeElevate ⟨mkObj b m r c, v, down v⟩ s = .ok ⟨mkObj b m s d, v, down v⟩) ∧
      (¬ Fits s m → ∃ e, SObj.degreeElevate (⟨mkObj b m r c, v, down v⟩ : SObj K V m) s = .error e) := by
  obtain ⟨d, h1, h2⟩ := degreeElevate_mk (K := K) b m r s c h.le
  have e1 : decide (s ≥ (mkObj b m r c).r) = true := decide_eq_true h.le
  have e2 : ¬ s = (mkObj b m r c).r := by have h' : (mkObj b m r c).r = r := rfl; omega
  refine ⟨d, h1, fun hf => ?_, fun hf => ?_⟩
  · unfold SObj.degreeElevate
    rw [e1, pyAssert_true, Py.bind_ok, if_neg e2, h2, new_mk _ _ _ _ hf, Py.bind_ok]
    exact snew_ok hd (new_mk _ _ _ _ hf)
  · unfold SObj.degreeElevate
    rw [e1, pyAssert_true, Py.bind_ok, if_neg e2, h2, new_mk_error _ _ _ _ hf]
    exact ⟨_, rfl⟩

theorem elevate_spec {p : PObj K V m Tr} (h : WellFormed p) (hfull : Full p) {F : ℕ → (Fin m → K) → V} (hF : Denotes p F) {s : ℕ} (hs : p.r ≤ s)
    (hf : s = p.r ∨ Fits s m) :
    ∃ q, p.degreeElevate s = .ok q ∧ WellFormed q ∧ SameKind q p ∧ q.r = s ∧ q.support = p.support ∧ q.tree = p.tree ∧ Denotes q F := by
  obtain ⟨M, t, hg, hM, ht⟩ := h.data
  unfold PObj.degreeElevate
  rw [decide_eq_true hs, pyAssert_true, Py.bind_ok]
  by_cases hc : s = p.r
  · rw [if_pos hc]
    obtain ⟨q, h1, h2, h3, h4, h5, h6, h7, h8⟩ := remake_some h hM hg ht (coeff := p.coeff) rfl (S := p.support) (fun j hj => hj)
      (fun j hj hj' ν hν => off_support h hM ht hj hj' hν)
    refine ⟨q, h1, h2, h3, h4.trans hc.symm, h6, h8, denotes_of h2 (h7.trans hM) (t := t) ?_ ?_⟩
    · rw [h3.cont, h4, h3.triangles, h3.boundary, h3.keepLast, h5]; exact ht
    · intro j hj v hv hd x
      rw [h3.triangles] at hj
      rw [h3.triangles, h3.vertices] at hv
      rw [h3.basis, h4, h5, denotes_val h hF hM ht hj hv x]
  · rw [if_neg hc]
    have hfit : Fits s m := hf.resolve_left hc
    have hfit' : Fits p.r m := by unfold Fits at hfit ⊢; omega
    have hs0 : s ≠ 0 := by omega
    have hsp := h.space.other (s := s) (fun _ => hs0)
    obtain ⟨M', N', t', hg', ht'⟩ := genMap_spec hsp p.keepLast
    have hc' : p.r < s := by omega
    choose w hw1 hw2 using fun j : Fin p.triangles.length => h.space.cells j j.2
    choose e' he1' he2' he3' using fun j : Fin p.triangles.length => selevate_mk p.basis m p.r s (loc p.coeff t j) hc' (hw2 j)
    set e : ℕ → List ℕ → V := fun j => if hj : j < p.triangles.length then e' ⟨j, hj⟩ else fun _ => 0 with he
    have he1 : ∀ j, j < p.triangles.length → ∀ x : Fin m → K, val p.basis m s (e j) x = val p.basis m p.r (loc p.coeff t j) x := by
      intro j hj x
      rw [he]
      simp only [hj, dif_pos]
      exact he1' ⟨j, hj⟩ x
    rw [hg', Py.bind_ok, ht'.toNat]
    obtain ⟨L, hL, hLl, hLn, hLe⟩ := assemble ht' hfull h.space.mesh.ne (e := e) (S := List.range p.triangles.length)
      (step := fun coeff j => do
        let q ← p.restrictToSimplex j
        let q ← q.degreeElevate s
        storeLoop M'.tau j (fun k _ => getE q.poly.coeff k) (MI.generateAll m s) 0 coeff) (by
        intro j hj ν hν j' hj' ν' hν' hsame
        unfold SameDof at hsame
        by_cases hcont : p.cont = true
        · rw [if_pos hcont] at hsame
          obtain ⟨cc, hcc⟩ := factor (hcont ▸ ht) p.coeff
          have hT := h.space.mesh.simplex _ (List.getElem_mem hj)
          have hT' := h.space.mesh.simplex _ (List.getElem_mem hj')
          obtain ⟨a, ha, rfl⟩ := isIndex_iff.1 hν
          obtain ⟨a', ha', rfl⟩ := isIndex_iff.1 hν'
          rw [getD_triangles hj, getD_triangles hj'] at hsame
          exact elevate_common h.basis hT.2 hT.1 hT'.2 hT'.1 (fun ν hν => by rw [hcc j hj ν hν, getD_triangles hj])
            (fun ν hν => by rw [hcc j' hj' ν hν, getD_triangles hj']) (he1 j hj) (he1 j' hj') hs hs0 ha ha' hsame
        · rw [if_neg hcont] at hsame
          rw [hsame.1, hsame.2])
      (fun j hj => by simpa using hj)
      (fun j hj coeff hcl => by
        have hj : j < p.triangles.length := by simpa using hj
        have hej : e j = e' ⟨j, hj⟩ := by rw [he]; simp only [hj, dif_pos]
        rw [restrict_eq h hfull hM ht hj (hw1 ⟨j, hj⟩) (hw2 ⟨j, hj⟩) hfit', Py.bind_ok, he2' ⟨j, hj⟩ hfit, Py.bind_ok, MI.generateAll_eq_mis]
        refine storeLoop_eq (N := N') (fun ν => ht'.tau j hj ν) _ 0 coeff (fun ν hν => ht'.full hfull hj ((mem_mis_iff m s ν).1 hν)) hcl ?_
        intro i ν hi
        rw [Nat.zero_add, hej]
        exact getE_tab _ hi)
      (fun j hj hj' => absurd (by simpa using hj) hj')
    rw [hL, Py.bind_ok]
    have hLd : ∀ j, j < p.triangles.length → ∀ x : Fin m → K, val p.basis m s (loc L t' j) x = val p.basis m p.r (loc p.coeff t j) x := by
      intro j hj x
      rw [← he1 j hj x]
      exact val_congr (fun ν hν => hLe j hj ν hν) x
    obtain ⟨q, q1, q2, q3, q4, q5, q6, q7, q8, q9, q10, q11, q12, q13⟩ := new_given (Tr := Tr) (mkTree := fun _ => .ok p.tree) h.basis hsp hg' (hLl ▸ ht') hLn h.support
      (fun j hj hj' ν hν => by
        rw [hLe j hj ν hν]
        refine val_inj (K := K) (b := p.basis) (m := m) (r := s) (d := fun _ => 0) (fun u => ?_) hν.1 hν.2
        rw [he1 j hj u, val_zero, val_congr (fun ν hν => off_support h hM ht hj hj' hν), val_zero])
      (tree := p.tree) (Or.inr hfit)
    refine ⟨q, q1, q2, ⟨q3, q4, q7, q8, q9, q10⟩, q11, q12, q13, denotes_of q2 q6 (t := t') ?_ ?_⟩
    · rw [q4, q11, q7, q9, q10, q5, hLl]; exact ht'
    · intro j hj v hv hd x
      rw [q7] at hj
      rw [q7, q8] at hv
      rw [q3, q11, q5, hLd j hj, denotes_val h hF hM ht hj hv x]

/-- Degrees that the constructor does not accept. -/
theorem elevate_toobig {p : PObj K V m Tr} (h : WellFormed p) (hfull : Full p) {s : ℕ} (hs : p.r < s) (hf : ¬ Fits s m) :
    ∃ e, p.degreeElevate s = .error e := by
  obtain ⟨M, t, hg, hM, ht⟩ := h.data
  unfold PObj.degreeElevate
  rw [decide_eq_true hs.le, pyAssert_true, Py.bind_ok, if_neg (by omega)]
  have hsp := h.space.other (s := s) (fun _ => by omega)
  obtain ⟨M', N', t', hg', ht'⟩ := genMap_spec hsp p.keepLast
  rw [hg', Py.bind_ok, ht'.toNat]
  have h0 : 0 < p.triangles.length := List.length_pos_iff.2 h.space.mesh.ne
  obtain ⟨n, hn⟩ := Nat.exists_eq_succ_of_ne_zero h0.ne'
  rw [hn, List.range_succ_eq_map, List.foldlM_cons]
  obtain ⟨v, hv, hd⟩ := h.space.cells 0 h0
  have : ∃ e, (do
      let q ← p.restrictToSimplex 0
      let q ← q.degreeElevate s
      storeLoop M'.tau (0 : ℕ) (fun k _ => getE q.poly.coeff k) (MI.generateAll m s) 0 (zeros V N') : Py (List V)) = .error e := by
    by_cases hf' : Fits p.r m
    · rw [restrict_eq h hfull hM ht h0 hv hd hf', Py.bind_ok]
      obtain ⟨d, -, -, hd2⟩ := selevate_mk p.basis m p.r s (loc p.coeff t 0) hs hd
      obtain ⟨e, he⟩ := hd2 hf
      rw [he]
      exact ⟨_, rfl⟩
    · have hns : (0 : ℕ) ∉ p.support := by
        intro h1
        obtain ⟨v', l, h2, h3, -⟩ := h.polys 0 h1
        exact hf' (by
          rw [hv] at h2
          obtain rfl := Except.ok.inj h2
          exact (basisSimplex_spec hd h3).1)
      unfold PObj.restrictToSimplex
      rw [decide_eq_true h0, pyAssert_true, Py.bind_ok, hv, Py.bind_ok, if_pos hns]
      unfold zeroPolynomialSimplex SObj.new
      rw [zeros_tab, new_mk_error _ _ _ _ hf']
      exact ⟨_, rfl⟩
  obtain ⟨e, he⟩ := this
  rw [he]
  exact ⟨e, rfl⟩

/-! ## Products -/

theorem cover_val {p : PObj K V m Tr} (h : WellFormed p) {M : L2G.Map} {t : ℕ → List ℕ → ℤ} (hM : p.tau = M.tau)
    (ht : TauSpec p.cont m p.r p.triangles p.boundary p.keepLast M p.coeff.length t) {j : ℕ} (hj : j < p.triangles.length) (hj' : j ∉ p.support)
    (b : Basis) (u : Fin m → K) : val b m p.r (loc p.coeff t j) u = 0 := by
  rw [val_congr (fun ν hν => off_support h hM ht hj hj' hν), val_zero]

/-- The space of `p` and the space of `q` are built on the same mesh with the same boundary, and a factor of a continuous function is continuous. -/
structure Compatible (p q : PObj K K m Tr) : Prop where
  triangles : q.triangles = p.triangles
  vertices : q.vertices = p.vertices
  boundary : q.boundary = p.boundary
  keepLast : q.keepLast = p.keepLast
  cont : p.cont = true → q.cont = true
  basis : p.basis = .lagrange ∨ p.basis = q.basis

theorem mul_spec {p q : PObj K K m Tr} (h : WellFormed p) (hq : WellFormed q) (hfull : Full p) (hpq : Compatible p q) {F G : ℕ → (Fin m → K) → K}
    (hF : Denotes p F) (hG : Denotes q G) :
    ((∀ j ∈ p.support, j ∉ q.support) ∨ Fits (p.r + q.r) m →
      ∃ s, p.mul q = .ok s ∧ WellFormed s ∧ SameKind s p ∧ s.r = p.r + q.r ∧ s.support = p.support.filter (fun j => decide (j ∈ q.support)) ∧
        s.tree = p.tree ∧ Denotes s (fun j x => F j x * G j x)) ∧
    (¬ ((∀ j ∈ p.support, j ∉ q.support) ∨ Fits (p.r + q.r) m) → ∃ e, p.mul q = .error e) := by
  obtain ⟨M, t, hg, hM, ht⟩ := h.data
  obtain ⟨Mq, tq, hgq, hMq, htq⟩ := hq.data
  have hfullq : Full q := by
    unfold Full at hfull ⊢
    rw [hpq.keepLast, hpq.boundary]
    exact hfull
  have hsp := h.space.other (s := p.r + q.r) (fun _ => by omega)
  obtain ⟨M', N', t', hg', ht'⟩ := genMap_spec hsp p.keepLast
  have hmul : p.mul q = (do
      let coeff ← (p.support.filter (fun j => decide (j ∈ q.support))).foldlM (match p.basis with
        | .lagrange => mulLoopLagrange p q M'.tau (p.r + q.r)
        | _ => mulLoopBernstein p q M'.tau (p.r + q.r)) (zeros K N')
      PObj.new (fun _ => .ok p.tree) p.basis p.cont coeff p.triangles p.vertices (p.r + q.r) (some M'.tau) p.boundary p.keepLast
        (some (p.support.filter (fun j => decide (j ∈ q.support)))) (some p.tree) none) := by
    unfold PObj.mul
    rw [sameMesh_ok hpq.triangles.symm hpq.vertices.symm hpq.boundary.symm, Py.bind_ok, decide_eq_true hpq.keepLast.symm, pyAssert_true, Py.bind_ok]
    simp only
    rw [hg', Py.bind_ok, ht'.toNat]
    generalize p.basis = b
    cases b <;> rfl
  choose e he1 he2 using fun j => mul_mk (K := K) p.basis q.basis m p.r q.r (loc p.coeff t j) (loc q.coeff tq j) hpq.basis
  have hoff : ∀ j, j < p.triangles.length → j ∉ p.support.filter (fun j => decide (j ∈ q.support)) → ∀ ν, IsIndex m (p.r + q.r) ν → e j ν = 0 := by
    intro j hj hjs ν hν
    refine val_inj (K := K) (b := p.basis) (m := m) (r := p.r + q.r) (d := fun _ => 0) (fun u => ?_) hν.1 hν.2
    rw [he1 j u, val_zero]
    by_cases h1 : j ∈ p.support
    · have h2 : j ∉ q.support := fun h2 => hjs (by simp [h1, h2])
      rw [cover_val hq hMq htq (by rw [hpq.triangles]; exact hj) h2, mul_zero]
    · rw [cover_val h hM ht hj h1, zero_mul]
  have hsame : ∀ j, j < p.triangles.length → ∀ ν, IsIndex m (p.r + q.r) ν → ∀ j', j' < p.triangles.length → ∀ ν', IsIndex m (p.r + q.r) ν' →
      SameDof p.cont (p.r + q.r) p.triangles j ν j' ν' → e j ν = e j' ν' := by
    intro j hj ν hν j' hj' ν' hν' hsame
    unfold SameDof at hsame
    by_cases hcont : p.cont = true
    · rw [if_pos hcont] at hsame
      obtain ⟨cc, hcc⟩ := factor (hcont ▸ ht) p.coeff
      obtain ⟨dd, hdd⟩ := factor (hpq.cont hcont ▸ htq) q.coeff
      rw [hpq.triangles] at hdd
      have hT := h.space.mesh.simplex _ (List.getElem_mem hj)
      have hT' := h.space.mesh.simplex _ (List.getElem_mem hj')
      obtain ⟨a, ha, rfl⟩ := isIndex_iff.1 hν
      obtain ⟨a', ha', rfl⟩ := isIndex_iff.1 hν'
      rw [getD_triangles hj, getD_triangles hj'] at hsame
      exact mul_common h.basis hq.basis hpq.basis hT.2 hT.1 hT'.2 hT'.1 (fun ν hν => by rw [hcc j hj ν hν, getD_triangles hj])
        (fun ν hν => by rw [hcc j' hj' ν hν, getD_triangles hj']) (fun ν hν => by rw [hdd j hj ν hν, getD_triangles hj])
        (fun ν hν => by rw [hdd j' hj' ν hν, getD_triangles hj']) (he1 j) (he1 j') (by have := (h.space.continuous hcont).2; omega) ha ha' hsame
    · rw [if_neg hcont] at hsame
      rw [hsame.1, hsame.2]
  have hstep : ((∀ j ∈ p.support, j ∉ q.support) ∨ Fits (p.r + q.r) m ∨ p.basis = .lagrange) →
      ∀ j ∈ p.support.filter (fun j => decide (j ∈ q.support)), ∀ coeff : List K, coeff.length = N' →
      (match p.basis with
        | .lagrange => mulLoopLagrange p q M'.tau (p.r + q.r)
        | _ => mulLoopBernstein p q M'.tau (p.r + q.r)) coeff j =
      .ok (stores coeff ((MI.mis m (p.r + q.r)).map (fun ν => ((t' j ν).toNat, e j ν)))) := by
    intro hcase j hj coeff hcl
    rw [List.mem_filter] at hj
    have hj2 : j ∈ q.support := by simpa using hj.2
    have hjt := h.support j hj.1
    have hjq : j < q.triangles.length := by rw [hpq.triangles]; exact hjt
    obtain ⟨v, hv, hd⟩ := h.space.cells j hjt
    have hvq : cell q.triangles q.vertices j = .ok v := by rw [hpq.triangles, hpq.vertices]; exact hv
    have hrange : ∀ ν ∈ MI.mis m (p.r + q.r), ∃ i : ℕ, i < N' ∧ t' j ν = i := fun ν hν => ht'.full hfull hjt ((mem_mis_iff m _ ν).1 hν)
    have hB : p.basis ≠ .lagrange → mulLoopBernstein p q M'.tau (p.r + q.r) coeff j =
        .ok (stores coeff ((MI.mis m (p.r + q.r)).map (fun ν => ((t' j ν).toNat, e j ν)))) := by
      intro hbl
      have hfit : Fits (p.r + q.r) m := by
        rcases hcase with h1 | h1 | h1
        · exact absurd hj2 (h1 j hj.1)
        · exact h1
        · exact absurd h1 hbl
      have hb : p.basis = .bernstein := by
        have := h.basis
        revert this hbl
        cases p.basis <;> simp
      have hqb : q.basis = .bernstein := by rw [← hb]; exact (hpq.basis.resolve_left hbl).symm
      unfold mulLoopBernstein productOnSimplex
      rw [restrict_eq h hfull hM ht hjt hv hd (by unfold Fits at hfit ⊢; omega), Py.bind_ok,
        restrict_eq hq hfullq hMq htq hjq hvq hd (by unfold Fits at hfit ⊢; omega), Py.bind_ok]
      have h1 := he2 j
      rw [new_mk _ _ _ _ hfit] at h1
      have h2 : (⟨mkObj p.basis m p.r (loc p.coeff t j), v, down v⟩ : SObj K K m).mul ⟨mkObj q.basis m q.r (loc q.coeff tq j), v, down v⟩ =
          .ok ⟨mkObj p.basis m (p.r + q.r) (e j), v, down v⟩ := by
        rw [hb, hqb] at h1 ⊢
        unfold SObj.mul
        change mulBernsteinSimplex _ _ = _
        unfold mulBernsteinSimplex
        rw [decide_eq_true (⟨rfl, rfl⟩ : (mkObj .bernstein m p.r (loc p.coeff t j)).basis = (mkObj .bernstein m q.r (loc q.coeff tq j)).basis ∧ v = v),
          pyAssert_true, Py.bind_ok, h1, Py.bind_ok]
        exact snew_ok hd (new_mk _ _ _ _ hfit)
      rw [h2, Py.bind_ok, Py.pure_eq, Py.bind_ok, MI.generateAll_eq_mis]
      refine storeLoop_eq (N := N') (fun ν => ht'.tau j hjt ν) _ 0 coeff hrange hcl ?_
      intro i ν hi
      rw [Nat.zero_add]
      exact getE_tab _ hi
    have hL : p.basis = .lagrange → mulLoopLagrange p q M'.tau (p.r + q.r) coeff j =
        .ok (stores coeff ((MI.mis m (p.r + q.r)).map (fun ν => ((t' j ν).toNat, e j ν)))) := by
      intro hbl
      unfold mulLoopLagrange
      rw [hv, Py.bind_ok, MI.generateAll_eq_mis]
      refine storeLoop_eq (N := N') (fun ν => ht'.tau j hjt ν) _ 0 coeff hrange hcl ?_
      intro i ν hi
      obtain ⟨hν1, hν2⟩ := (mem_mis_iff m (p.r + q.r) ν).1 (List.mem_of_getElem? hi)
      obtain ⟨a, ha, rfl⟩ := isIndex_iff.1 ⟨hν1, hν2⟩
      rw [lagrangePointSimplex_eq v _ _ hν1 hν2, Py.bind_ok, hF j hjt, Py.bind_ok, hG j hjq, Py.bind_ok, Py.pure_eq]
      have hx : (fun i : Fin m => (((List.ofFn a).getD i 0 : ℕ) : K) / ((p.r + q.r : ℕ) : K)) = lpt K (p.r + q.r) a := by
        funext i
        simp [lpt]
      rw [hx, denotes_val h hF hM ht hjt hv, denotes_val hq hG hMq htq hjq hvq, down_up v hd, ← he1 j, hbl, val_lpt _ ha]
    cases hb : p.basis with
    | lagrange => exact hL hb
    | bernstein => exact hB (by rw [hb]; simp)
    | monomial => exact hB (by rw [hb]; simp)
  constructor
  · intro hcase
    obtain ⟨L, hL, hLl, hLn, hLe⟩ := assemble ht' hfull h.space.mesh.ne (e := e) hsame (fun j hj => h.support j (List.mem_filter.1 hj).1)
      (hstep (by tauto)) hoff
    rw [hmul, hL, Py.bind_ok]
    obtain ⟨s, q1, q2, q3, q4, q5, q6, q7, q8, q9, q10, q11, q12, q13⟩ := new_given (Tr := Tr) (mkTree := fun _ => .ok p.tree) h.basis hsp hg' (hLl ▸ ht') hLn
      (support := p.support.filter (fun j => decide (j ∈ q.support))) (fun j hj => h.support j (List.mem_filter.1 hj).1)
      (fun j hj hj' ν hν => by rw [hLe j hj ν hν, hoff j hj hj' ν hν])
      (tree := p.tree) (by
        rcases hcase with h1 | h1
        · left
          rw [List.filter_eq_nil_iff]
          intro j hj
          simpa using h1 j hj
        · exact Or.inr h1)
    refine ⟨s, q1, q2, ⟨q3, q4, q7, q8, q9, q10⟩, q11, q12, q13, denotes_of q2 q6 (t := t') ?_ ?_⟩
    · rw [q4, q11, q7, q9, q10, q5, hLl]; exact ht'
    · intro j hj v hv hd x
      rw [q7] at hj
      rw [q7, q8] at hv
      rw [q3, q11, q5, val_congr (fun ν hν => hLe j hj ν hν), he1 j, denotes_val h hF hM ht hj hv x,
        denotes_val hq hG hMq htq (by rw [hpq.triangles]; exact hj) (by rw [hpq.triangles, hpq.vertices]; exact hv) x]
  · intro hcase
    push Not at hcase
    obtain ⟨⟨j, hj, hjq⟩, hnf⟩ := hcase
    rw [hmul]
    cases hfold : List.foldlM (match p.basis with
        | .lagrange => mulLoopLagrange p q M'.tau (p.r + q.r)
        | _ => mulLoopBernstein p q M'.tau (p.r + q.r)) (zeros K N') (p.support.filter (fun j => decide (j ∈ q.support))) with
    | error e => exact ⟨e, rfl⟩
    | ok L =>
      rw [Py.bind_ok]
      refine new_toobig hsp (fun j hj => h.support j (List.mem_filter.1 hj).1) _ _ ?_ hnf
      intro h0
      rw [List.filter_eq_nil_iff] at h0
      exact h0 j hj (by simpa using hjq)

end Verif.PP
