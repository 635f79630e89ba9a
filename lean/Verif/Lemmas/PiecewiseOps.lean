import Verif.Lemmas.Piecewise
/-!
# Operations of piecewise polynomial objects
-/

namespace Verif.PP
open Verif Verif.Poly Verif.Simplex Verif.SPoly Verif.L2G Verif.Spec

/-- Two objects belong to spaces of the same kind on the same mesh; the degrees may differ. -/
structure SameKind {K V W : Type} {m : Nat} {Tr Tr' : Type} (p : PObj K V m Tr) (q : PObj K W m Tr') : Prop where
  basis : p.basis = q.basis
  cont : p.cont = q.cont
  triangles : p.triangles = q.triangles
  vertices : p.vertices = q.vertices
  boundary : p.boundary = q.boundary
  keepLast : p.keepLast = q.keepLast

variable {K V W : Type} [Field K] [DecidableEq K] [CharZero K] [AddCommGroup V] [DecidableEq V] [Module K V]
  [AddCommGroup W] [DecidableEq W] [Module K W] {m r : Nat} {Tr : Type}

/-! ## The computation of the support -/

/-- The coefficient that is read for the pair `(j, ν)`: the last one if the degree of freedom is not part of the space. -/
def rd (coeff : List V) (t : ℕ → List ℕ → ℤ) (j : ℕ) (ν : List ℕ) : V := if t j ν = -1 then coeff.getLastD 0 else coeff.getD (t j ν).toNat 0

/-- The simplices on which one of the coefficients that are read is not zero. -/
def sup (m r : ℕ) (coeff : List V) (t : ℕ → List ℕ → ℤ) (T : ℕ) : List ℕ :=
  (List.range T).filter (fun j => decide (∃ ν ∈ MI.mis m r, rd coeff t j ν ≠ 0))

omit [Field K] [DecidableEq K] [CharZero K] [Module K V] in
theorem pyGet_rd {coeff : List V} (hc : coeff ≠ []) {t : ℕ → List ℕ → ℤ} {j : ℕ} {ν : List ℕ} (h : t j ν = -1 ∨ ∃ i : ℕ, i < coeff.length ∧ t j ν = i) :
    pyGet coeff (t j ν) = .ok (rd coeff t j ν) := by
  unfold rd
  rcases h with h | ⟨i, hi, h⟩
  · rw [if_pos h, h, pyGet_last hc, List.getLastD_eq_getLast?, List.getLast?_eq_some_getLast hc]
    rfl
  · rw [if_neg (by omega), h, pyGet_nat hi, Int.toNat_natCast, List.getD_eq_getElem?_getD, List.getElem?_eq_getElem hi, Option.getD_some]

omit [Field K] [DecidableEq K] [CharZero K] [Module K V] in
theorem anyNonzero_eq {coeff : List V} (hc : coeff ≠ []) {tau : Int → List Nat → Py Int} {t : ℕ → List ℕ → ℤ} {j : ℕ}
    (ht : ∀ ν, tau j ν = .ok (t j ν)) : ∀ (mis : List (List ℕ)), (∀ ν ∈ mis, t j ν = -1 ∨ ∃ i : ℕ, i < coeff.length ∧ t j ν = i) →
    anyNonzero tau coeff j mis = .ok (decide (∃ ν ∈ mis, rd coeff t j ν ≠ 0))
  | [], _ => by simp [anyNonzero]
  | ν :: mis, h => by
    unfold anyNonzero
    rw [ht, Py.bind_ok, pyGet_rd hc (h ν (by simp)), Py.bind_ok]
    by_cases h0 : rd coeff t j ν ≠ 0
    · rw [if_pos h0, decide_eq_true ⟨ν, by simp, h0⟩]
    · rw [if_neg h0, anyNonzero_eq hc ht mis (fun ν' h' => h ν' (by simp [h']))]
      congr 1
      rw [decide_eq_decide]
      constructor
      · rintro ⟨ν', h1, h2⟩; exact ⟨ν', by simp [h1], h2⟩
      · rintro ⟨ν', h1, h2⟩
        rcases List.mem_cons.1 h1 with rfl | h1
        · exact absurd h2 h0
        · exact ⟨ν', h1, h2⟩

omit [Field K] [DecidableEq K] [CharZero K] [Module K V] in
theorem supportLoop_eq {coeff : List V} (hc : coeff ≠ []) {tau : Int → List Nat → Py Int} {t : ℕ → List ℕ → ℤ} {mis : List (List ℕ)} :
    ∀ (js : List ℕ), (∀ j ∈ js, ∀ ν, tau j ν = .ok (t j ν)) → (∀ j ∈ js, ∀ ν ∈ mis, t j ν = -1 ∨ ∃ i : ℕ, i < coeff.length ∧ t j ν = i) →
    supportLoop tau coeff mis js = .ok (js.filter (fun j => decide (∃ ν ∈ mis, rd coeff t j ν ≠ 0)))
  | [], _, _ => rfl
  | j :: js, h1, h2 => by
    unfold supportLoop
    rw [anyNonzero_eq hc (h1 j (by simp)) mis (h2 j (by simp)), Py.bind_ok,
      supportLoop_eq hc js (fun j' h => h1 j' (by simp [h])) (fun j' h => h2 j' (by simp [h])), Py.bind_ok, Py.pure_eq, List.filter_cons]

section Maps
variable {cont : Bool} {triangles : List (List ℕ)} {boundary : Option (List (List ℕ))} {keepLast : Bool} {M : L2G.Map} {N : ℕ}
  {t : ℕ → List ℕ → ℤ}

omit [Field K] [DecidableEq K] [CharZero K] [Module K V] in
theorem supportArg_eq {coeff : List V} (hc : coeff ≠ []) (ht : TauSpec cont m r triangles boundary keepLast M coeff.length t) :
    supportArg M.tau coeff (MI.generateAll m r) triangles.length none = .ok (sup m r coeff t triangles.length) := by
  unfold supportArg
  simp only
  rw [MI.generateAll_eq_mis, supportLoop_eq hc (t := t) (List.range triangles.length)]
  · rfl
  · intro j hj ν; exact ht.tau j (by simpa using hj) ν
  · intro j hj ν hν; exact ht.range j (by simpa using hj) ν ((mem_mis_iff m r ν).1 hν)

omit [Field K] [DecidableEq K] [CharZero K] [DecidableEq V] [Module K V] in
theorem loc_of_rd {coeff : List V} {j : ℕ} {ν : List ℕ} (h : rd coeff t j ν = 0) : loc coeff t j ν = 0 := by
  unfold rd at h
  unfold loc
  by_cases h1 : t j ν = -1
  · rw [if_pos h1]
  · rw [if_neg h1] at h ⊢; exact h

omit [Field K] [DecidableEq K] [CharZero K] [Module K V] in
theorem mem_sup {coeff : List V} {T j : ℕ} : j ∈ sup m r coeff t T ↔ j < T ∧ ∃ ν, IsIndex m r ν ∧ rd coeff t j ν ≠ 0 := by
  unfold sup
  simp [mem_mis_iff]

omit [Field K] [DecidableEq K] [CharZero K] [Module K V] in
theorem sup_cover {coeff : List V} {T j : ℕ} (hj : j < T) (h : j ∉ sup m r coeff t T) {ν : List ℕ} (hν : IsIndex m r ν) : loc coeff t j ν = 0 := by
  rw [mem_sup] at h
  push Not at h
  exact loc_of_rd (h hj ν hν)

omit [Field K] [DecidableEq K] [CharZero K] [DecidableEq V] [Module K V] in
theorem rd_full {coeff : List V} (ht : TauSpec cont m r triangles boundary keepLast M N t) (hf : keepLast = true ∨ boundary.getD [] = []) {j : ℕ}
    (hj : j < triangles.length) {ν : List ℕ} (hν : IsIndex m r ν) : rd coeff t j ν = loc coeff t j ν := by
  obtain ⟨i, -, hi⟩ := ht.full hf hj hν
  unfold rd loc
  rw [if_neg (by omega), if_neg (by omega)]

omit [Field K] [DecidableEq K] [CharZero K] [DecidableEq V] [Module K V] [DecidableEq W] [Module K W] in
theorem loc_map {coeff : List V} (f : V → W) (hf : f 0 = 0) (j : ℕ) (ν : List ℕ) : loc (coeff.map f) t j ν = f (loc coeff t j ν) := by
  unfold loc
  by_cases h : t j ν = -1
  · rw [if_pos h, if_pos h, hf]
  · rw [if_neg h, if_neg h, List.getD_eq_getElem?_getD, List.getElem?_map, List.getD_eq_getElem?_getD]
    cases coeff[(t j ν).toNat]? <;> simp [hf]

omit [Field K] [DecidableEq K] [CharZero K] [DecidableEq V] [Module K V] in
theorem loc_zipWith {a b : List V} (op : V → V → V) (h0 : op 0 0 = 0) (hl : a.length = b.length) (j : ℕ) (ν : List ℕ) :
    loc (List.zipWith op a b) t j ν = op (loc a t j ν) (loc b t j ν) := by
  unfold loc
  by_cases h : t j ν = -1
  · rw [if_pos h, if_pos h, if_pos h, h0]
  · rw [if_neg h, if_neg h, if_neg h]
    simp only [List.getD_eq_getElem?_getD]
    by_cases hi : (t j ν).toNat < a.length
    · rw [List.getElem?_eq_getElem (by simp; omega), List.getElem?_eq_getElem hi, List.getElem?_eq_getElem (by omega)]
      simp
    · rw [List.getElem?_eq_none (by simp; omega), List.getElem?_eq_none (by omega), List.getElem?_eq_none (by omega)]
      simp [h0]

end Maps

/-! ## New objects in the same space -/

/-- The constructor with the map, the tree and the basis polynomials of `p`, for a given support. -/
theorem remake_some {p : PObj K V m Tr} (h : WellFormed p) {M : L2G.Map} {t : ℕ → List ℕ → ℤ} (hM : p.tau = M.tau)
    (hg : genMap p.cont p.triangles p.r p.boundary p.keepLast = .ok M)
    (ht : TauSpec p.cont m p.r p.triangles p.boundary p.keepLast M p.coeff.length t) {coeff : List W} (hl : coeff.length = p.coeff.length)
    {S : List ℕ} (hS : ∀ j ∈ S, j ∈ p.support) (hcov : ∀ j, j < p.triangles.length → j ∉ S → ∀ ν, IsIndex m p.r ν → loc coeff t j ν = 0) :
    ∃ s : PObj K W m Tr, p.remake coeff (some S) = .ok s ∧ WellFormed s ∧ SameKind s p ∧ s.r = p.r ∧ s.coeff = coeff ∧ s.support = S ∧
      s.tau = p.tau ∧ s.tree = p.tree := by
  have hc : coeff ≠ [] := by
    intro h0
    rw [h0] at hl
    exact h.coeff (List.length_eq_zero_iff.1 (by simpa using hl.symm))
  have h0 : 0 < coeff.length := List.length_pos_iff.2 hc
  obtain ⟨x, hx⟩ := h.space.vertices_ne
  obtain ⟨polys, hpolys⟩ := mapM_exists (f := fun j => do
      let b ← keyE (dget? p.polys j)
      return (j, b)) (l := S) (fun j hj => by
        obtain ⟨v, l, -, -, h3⟩ := h.polys j (hS j hj)
        exact ⟨_, by rw [h3]; rfl⟩)
  obtain ⟨h1, h2⟩ := dget?_mapM (γ := K) hpolys
  refine ⟨_, ?_, new_good h.basis h.space hg (hl ▸ ht) hc (fun j hj => h.support j (hS j hj)) hcov p.tree (polys := polys) (fun j hj => ?_) h2,
    ⟨rfl, rfl, rfl, rfl, rfl, rfl⟩, rfl, rfl, rfl, hM.symm, rfl⟩
  · unfold PObj.remake PObj.new polysArg tauArg supportArg
    simp only [Py.bind_ok]
    rw [getE_ok h0, hx, Py.bind_ok, Py.bind_ok, hpolys, hM]
    rfl
  · obtain ⟨l, h3, h4⟩ := h1 j hj
    obtain ⟨v, l', h5, h6, h7⟩ := h.polys j (hS j hj)
    rw [h7] at h3
    obtain rfl : l' = l := Except.ok.inj h3
    exact ⟨v, l', h5, h6, h4⟩

/-- The same with a computed support. -/
theorem remake_none {p : PObj K V m Tr} (h : WellFormed p) {M : L2G.Map} {t : ℕ → List ℕ → ℤ} (hM : p.tau = M.tau)
    (hg : genMap p.cont p.triangles p.r p.boundary p.keepLast = .ok M)
    (ht : TauSpec p.cont m p.r p.triangles p.boundary p.keepLast M p.coeff.length t) {coeff : List W} (hl : coeff.length = p.coeff.length) :
    ((∀ j ∈ sup m p.r coeff t p.triangles.length, j ∈ p.support) →
      ∃ s : PObj K W m Tr, p.remake coeff none = .ok s ∧ WellFormed s ∧ SameKind s p ∧ s.r = p.r ∧ s.coeff = coeff ∧
        s.support = sup m p.r coeff t p.triangles.length ∧ s.tau = p.tau ∧ s.tree = p.tree) ∧
    ((∃ j ∈ sup m p.r coeff t p.triangles.length, j ∉ p.support) → p.remake coeff none = .error .key) := by
  have hc : coeff ≠ [] := by
    intro h0
    rw [h0] at hl
    exact h.coeff (List.length_eq_zero_iff.1 (by simpa using hl.symm))
  have h0 : 0 < coeff.length := List.length_pos_iff.2 hc
  obtain ⟨x, hx⟩ := h.space.vertices_ne
  have hsup := supportArg_eq hc (hl ▸ ht)
  have heq : p.remake coeff none = p.remake coeff (some (sup m p.r coeff t p.triangles.length)) := by
    unfold PObj.remake PObj.new
    rw [hM]
    simp only [tauArg, Py.bind_ok]
    rw [hsup]
    rfl
  refine ⟨fun hS => ?_, fun hS => ?_⟩
  · rw [heq]
    exact remake_some h hM hg ht hl hS (fun j hj hj' ν hν => sup_cover hj hj' hν)
  · rw [heq]
    unfold PObj.remake PObj.new polysArg tauArg supportArg
    simp only [Py.bind_ok]
    rw [getE_ok h0, hx, Py.bind_ok, Py.bind_ok]
    obtain ⟨j, hj, hj'⟩ := hS
    have hk := h.keys j hj'
    have : ∀ l : List ℕ, j ∈ l → (l.mapM (fun j => do
        let l ← keyE (dget? p.polys j)
        return (j, l))) = (.error .key : Py _) := by
      intro l
      induction l with
      | nil => intro h; simp at h
      | cons a l ih =>
        intro hm
        rw [List.mapM_cons]
        cases ha : dget? p.polys a with
        | none => rfl
        | some d =>
          have hne : j ≠ a := by rintro rfl; rw [hk] at ha; cases ha
          rw [ih ((List.mem_cons.1 hm).resolve_left hne)]
          rfl
    rw [this _ hj]
    rfl

/-! ## Functions -/

theorem denotes_val {p : PObj K V m Tr} (h : WellFormed p) {F : ℕ → (Fin m → K) → V} (hF : Denotes p F) {M : L2G.Map} {t : ℕ → List ℕ → ℤ}
    (hM : p.tau = M.tau) (ht : TauSpec p.cont m p.r p.triangles p.boundary p.keepLast M p.coeff.length t) {j : ℕ} (hj : j < p.triangles.length)
    {v : Vertices K m m} (hv : cell p.triangles p.vertices j = .ok v) (x : Fin m → K) :
    F j x = val p.basis m p.r (loc p.coeff t j) (createAffineMap (down v) x) :=
  Except.ok.inj ((hF j hj x).symm.trans (eval_eq h hM ht hj hv x))

/-- An object whose local coefficients come from those of another one by a function that commutes with taking values. -/
theorem denotes_of {s : PObj K W m Tr} (h : WellFormed s) {F : ℕ → (Fin m → K) → W} {M : L2G.Map} {t : ℕ → List ℕ → ℤ}
    (hM : s.tau = M.tau) (ht : TauSpec s.cont m s.r s.triangles s.boundary s.keepLast M s.coeff.length t)
    (hF : ∀ j, j < s.triangles.length → ∀ v, cell s.triangles s.vertices j = .ok v → edgeDet v ≠ 0 → ∀ x,
      val s.basis m s.r (loc s.coeff t j) (createAffineMap (down v) x) = F j x) : Denotes s F := by
  intro j hj x
  obtain ⟨v, hv, hd⟩ := h.space.cells j hj
  rw [eval_eq h hM ht hj hv x, hF j hj v hv hd x]

theorem val_congr {b : Basis} {c d : List ℕ → V} (h : ∀ ν, IsIndex m r ν → c ν = d ν) (x : Fin m → K) : val b m r c x = val b m r d x := by
  unfold val
  refine Finset.sum_congr rfl (fun ν hν => ?_)
  rw [h _ (isIndex_iff.2 ⟨ν, hν, rfl⟩)]

/-- A piecewise polynomial vanishes on a simplex exactly if its coefficients there are zero. -/
theorem zero_iff {p : PObj K V m Tr} (h : WellFormed p) {F : ℕ → (Fin m → K) → V} (hF : Denotes p F) {M : L2G.Map} {t : ℕ → List ℕ → ℤ}
    (hM : p.tau = M.tau) (ht : TauSpec p.cont m p.r p.triangles p.boundary p.keepLast M p.coeff.length t) {j : ℕ} (hj : j < p.triangles.length) :
    (∀ x, F j x = 0) ↔ ∀ ν, IsIndex m p.r ν → loc p.coeff t j ν = 0 := by
  obtain ⟨v, hv, hd⟩ := h.space.cells j hj
  constructor
  · intro h0 ν hν
    refine val_inj (K := K) (b := p.basis) (m := m) (r := p.r) (d := fun _ => 0) (fun u => ?_) hν.1 hν.2
    have h1 := denotes_val h hF hM ht hj hv (createAffineMap (up v) u)
    rw [down_up v hd, h0] at h1
    rw [← h1, val_zero]
  · intro h0 x
    rw [denotes_val h hF hM ht hj hv x, val_congr h0 _, val_zero]

/-! ## Linear operations -/

theorem smul_spec {p : PObj K V m Tr} (h : WellFormed p) {F : ℕ → (Fin m → K) → V} (hF : Denotes p F) (f : V → W) (hf : f 0 = 0) (S : List ℕ)
    (hS : S = p.support ∨ (S = [] ∧ ∀ a, f a = 0))
    (hval : ∀ (c : List ℕ → V) (x : Fin m → K), val p.basis m p.r (fun ν => f (c ν)) x = f (val p.basis m p.r c x)) :
    ∃ s : PObj K W m Tr, p.remake (p.coeff.map f) (some S) = .ok s ∧ WellFormed s ∧ SameKind s p ∧ s.r = p.r ∧
      Denotes s (fun j x => f (F j x)) := by
  obtain ⟨M, t, hg, hM, ht⟩ := h.data
  have hcov : ∀ j, j < p.triangles.length → j ∉ S → ∀ ν, IsIndex m p.r ν → loc (p.coeff.map f) t j ν = 0 := by
    intro j hj hj' ν hν
    rw [loc_map f hf]
    rcases hS with rfl | ⟨-, h0⟩
    · rw [(zero_iff h hF hM ht hj).1 (fun x => ?_) ν hν, hf]
      have h1 := hF j hj x
      unfold PObj.evaluateOnSimplex at h1
      rw [if_pos hj'] at h1
      exact (Except.ok.inj h1).symm
    · exact h0 _
  obtain ⟨s, h1, h2, h3, h4, h5, h6, h7, -⟩ := remake_some h hM hg ht (coeff := p.coeff.map f) (by simp) (S := S)
    (fun j hj => by rcases hS with rfl | ⟨rfl, -⟩; exacts [hj, by simp at hj]) hcov
  refine ⟨s, h1, h2, h3, h4, denotes_of h2 (h7.trans hM) (t := t) ?_ ?_⟩
  · rw [h3.cont, h4, h3.triangles, h3.boundary, h3.keepLast, h5, List.length_map]; exact ht
  · intro j hj v hv hd x
    rw [h3.triangles] at hj
    rw [h3.triangles, h3.vertices] at hv
    rw [h3.basis, h4, h5, denotes_val h hF hM ht hj hv x, ← hval]
    exact val_congr (fun ν _ => loc_map f hf j ν) _

/-- Component of a vector valued function. -/
theorem component_spec {n : ℕ} {p : PObj K (Fin n → K) m Tr} (h : WellFormed p) {F : ℕ → (Fin m → K) → (Fin n → K)} (hF : Denotes p F) (hfull : Full p)
    (i : Fin n) : ∃ s, p.component i = .ok s ∧ WellFormed s ∧ SameKind s p ∧ s.r = p.r ∧ Denotes s (fun j x => F j x i) := by
  obtain ⟨M, t, hg, hM, ht⟩ := h.data
  unfold PObj.component
  rw [dif_pos i.2]
  have hcov : ∀ j, j < p.triangles.length → j ∉ p.support → ∀ ν, IsIndex m p.r ν → loc p.coeff t j ν = 0 := by
    intro j hj hj' ν hν
    refine (zero_iff h hF hM ht hj).1 (fun x => ?_) ν hν
    have h1 := hF j hj x
    unfold PObj.evaluateOnSimplex at h1
    rw [if_pos hj'] at h1
    exact (Except.ok.inj h1).symm
  obtain ⟨s, h1, h2, h3, h4, h5, h6, h7, -⟩ := (remake_none h hM hg ht (coeff := p.coeff.map (fun c => c i)) (by simp)).1 (by
    intro j hj
    by_contra hj'
    obtain ⟨hj1, ν, hν, hne⟩ := mem_sup.1 hj
    rw [rd_full ht hfull hj1 hν, loc_map (fun c : Fin n → K => c i) rfl, hcov j hj1 hj' ν hν] at hne
    exact hne rfl)
  refine ⟨s, h1, h2, h3, h4, denotes_of h2 (h7.trans hM) (t := t) ?_ ?_⟩
  · rw [h3.cont, h4, h3.triangles, h3.boundary, h3.keepLast, h5, List.length_map]; exact ht
  · intro j hj v hv hd x
    rw [h3.triangles] at hj
    rw [h3.triangles, h3.vertices] at hv
    rw [h3.basis, h4, h5, denotes_val h hF hM ht hj hv x, ← val_component]
    exact val_congr (fun ν _ => loc_map (fun c : Fin n → K => c i) rfl j ν) _

/-! ## Sums -/

omit [Field K] [DecidableEq K] [CharZero K] [Module K V] [AddCommGroup W] [DecidableEq W] in
theorem boundaryCheck_same (b : Option (List (List ℕ))) : boundaryCheck b b = .ok () := by
  cases b <;> simp [boundaryCheck, pyAssert_true]

omit [CharZero K] [Module K V] [Module K W] [DecidableEq W] [AddCommGroup W] in
theorem sameMesh_ok {p : PObj K V m Tr} {q : PObj K W m Tr} (h1 : p.triangles = q.triangles) (h2 : p.vertices = q.vertices)
    (h3 : p.boundary = q.boundary) : sameMesh p q = .ok () := by
  unfold sameMesh
  rw [decide_eq_true h1, decide_eq_true h2, h3, boundaryCheck_same]
  rfl

/-- Both maps of two objects in the same space. -/
theorem data_same {p q : PObj K V m Tr} (hp : WellFormed p) (hq : WellFormed q) (hk : SameKind p q) (hr : p.r = q.r) :
    ∃ M t, genMap p.cont p.triangles p.r p.boundary p.keepLast = .ok M ∧ p.tau = M.tau ∧ q.tau = M.tau ∧ p.coeff.length = q.coeff.length ∧
      TauSpec p.cont m p.r p.triangles p.boundary p.keepLast M p.coeff.length t ∧
      TauSpec q.cont m q.r q.triangles q.boundary q.keepLast M q.coeff.length t := by
  obtain ⟨M, t, hg, hM, ht⟩ := hp.data
  obtain ⟨M', hg', hM', hn⟩ := hq.map
  rw [← hk.cont, ← hk.triangles, ← hr, ← hk.boundary, ← hk.keepLast, hg] at hg'
  obtain rfl := Except.ok.inj hg'
  have hlen : p.coeff.length = q.coeff.length := by have := ht.num; omega
  refine ⟨M, t, hg, hM, hM', hlen, ht, ?_⟩
  rw [← hk.cont, ← hk.triangles, ← hr, ← hk.boundary, ← hk.keepLast, ← hlen]
  exact ht

theorem combineSame_eq {p q : PObj K V m Tr} (hk : SameKind p q) (hr : p.r = q.r) (hl : p.coeff.length = q.coeff.length) (op : V → V → V) :
    combineSame op p q = p.remake (List.zipWith op p.coeff q.coeff) none := by
  unfold combineSame npBinary
  rw [decide_eq_true hk.basis, sameMesh_ok hk.triangles hk.vertices hk.boundary, pyAssert_true, Py.bind_ok, Py.bind_ok, if_pos hr, if_pos hl]
  rfl

/-- Sum and difference for equal degrees. -/
theorem combineSame_spec {p q : PObj K V m Tr} (hp : WellFormed p) (hq : WellFormed q) (hk : SameKind p q) (hr : p.r = q.r)
    {F G : ℕ → (Fin m → K) → V} (hF : Denotes p F) (hG : Denotes q G) (op : V → V → V) (h0 : op 0 0 = 0)
    (hval : ∀ (c d : List ℕ → V) (x : Fin m → K), val p.basis m p.r (fun ν => op (c ν) (d ν)) x = op (val p.basis m p.r c x) (val p.basis m p.r d x)) :
    (∀ s, combineSame op p q = .ok s → WellFormed s ∧ SameKind s p ∧ s.r = p.r ∧ Denotes s (fun j x => op (F j x) (G j x))) ∧
    (∀ e, combineSame op p q = .error e → e = .key) ∧
    (Full p → ((∃ s, combineSame op p q = .ok s) ↔ ∀ j, j < p.triangles.length → j ∉ p.support → ∀ x, op (F j x) (G j x) = 0)) ∧
    ((∀ j, j < p.triangles.length → j ∈ p.support) → ∃ s, combineSame op p q = .ok s) := by
  obtain ⟨M, t, hg, hM, hM', hl, ht, ht'⟩ := data_same hp hq hk hr
  rw [combineSame_eq hk hr hl op]
  have hlz : (List.zipWith op p.coeff q.coeff).length = p.coeff.length := by simp [hl]
  obtain ⟨a1, a2⟩ := remake_none hp hM hg ht hlz
  have hd : ∀ s : PObj K V m Tr, SameKind s p → s.r = p.r → s.coeff = List.zipWith op p.coeff q.coeff → s.tau = p.tau → WellFormed s →
      Denotes s (fun j x => op (F j x) (G j x)) := by
    intro s h3 h4 h5 h7 h2
    refine denotes_of h2 (h7.trans hM) (t := t) ?_ ?_
    · rw [h3.cont, h4, h3.triangles, h3.boundary, h3.keepLast, h5, hlz]; exact ht
    · intro j hj v hv hd x
      rw [h3.triangles] at hj
      rw [h3.triangles, h3.vertices] at hv
      rw [h3.basis, h4, h5, denotes_val hp hF hM ht hj hv x]
      rw [hk.triangles, hk.vertices] at hv
      rw [denotes_val hq hG hM' ht' (hk.triangles ▸ hj) hv x, ← hk.basis, ← hr, ← hval]
      exact val_congr (fun ν _ => loc_zipWith op h0 hl j ν) _
  by_cases hS : ∀ j ∈ sup m p.r (List.zipWith op p.coeff q.coeff) t p.triangles.length, j ∈ p.support
  · obtain ⟨s, h1, h2, h3, h4, h5, h6, h7, -⟩ := a1 hS
    rw [h1]
    refine ⟨fun s' hs => ?_, fun e he => (by cases he), fun hfull => ⟨fun _ => ?_, fun _ => ⟨s, rfl⟩⟩, fun _ => ⟨s, rfl⟩⟩
    · obtain rfl := Except.ok.inj hs
      exact ⟨h2, h3, h4, hd s h3 h4 h5 h7 h2⟩
    · intro j hj hj' x
      have h8 := hd s h3 h4 h5 h7 h2 j (by rw [h3.triangles]; exact hj) x
      unfold PObj.evaluateOnSimplex at h8
      rw [if_pos (by rw [h6]; exact fun h => hj' (hS j h))] at h8
      exact (Except.ok.inj h8).symm
  · push Not at hS
    rw [a2 hS]
    refine ⟨fun s' hs => (by cases hs), fun e he => (by cases he; rfl), fun hfull => ⟨fun h => ?_, fun h => ?_⟩, fun hall => ?_⟩
    · obtain ⟨s, hs⟩ := h; cases hs
    · exfalso
      obtain ⟨j, hj, hj'⟩ := hS
      obtain ⟨hj1, ν, hν, hne⟩ := mem_sup.1 hj
      apply hne
      rw [rd_full ht hfull hj1 hν, loc_zipWith op h0 hl]
      obtain ⟨v, hv, hdv⟩ := hp.space.cells j hj1
      have h1 := val_inj (K := K) (b := p.basis) (m := m) (r := p.r) (c := fun ν => op (loc p.coeff t j ν) (loc q.coeff t j ν)) (d := fun _ => 0) (fun u => ?_)
        hν.1 hν.2
      · exact h1
      · have e1 := denotes_val hp hF hM ht hj1 hv (createAffineMap (up v) u)
        have hv' := hv
        rw [hk.triangles, hk.vertices] at hv'
        have e2 := denotes_val hq hG hM' ht' (hk.triangles ▸ hj1) hv' (createAffineMap (up v) u)
        rw [down_up v hdv] at e1 e2
        rw [hval, ← e1, hk.basis, hr, ← e2, h j hj1 hj', val_zero]
    · obtain ⟨j, hj, hj'⟩ := hS
      exact absurd (hall j (mem_sup.1 hj).1) hj'

end Verif.PP
