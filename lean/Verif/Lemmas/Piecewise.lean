import Verif.Lemmas.Lattice
import Verif.Lemmas.PiecewiseTau
import Verif.Lemmas.SimplexPolynomialOps
/-!
# Piecewise polynomial objects: values and construction
-/

namespace Verif.PP
open Verif Verif.Poly Verif.Simplex Verif.SPoly Verif.L2G Verif.Spec

section Basic
variable {K V : Type} [Field K] [DecidableEq K] [AddCommGroup V] [DecidableEq V] [Module K V] {m : Nat} {Tr : Type}

/-- The coefficient of the pair `(j, ν)`: zero if the degree of freedom is not part of the space. -/
def loc (coeff : List V) (t : ℕ → List ℕ → ℤ) (j : ℕ) (ν : List ℕ) : V := if t j ν = -1 then 0 else coeff.getD (t j ν).toNat 0

/-- The map of a consistent object. -/
theorem WellFormed.data {p : PObj K V m Tr} (h : WellFormed p) :
    ∃ M t, genMap p.cont p.triangles p.r p.boundary p.keepLast = .ok M ∧ p.tau = M.tau ∧
      TauSpec p.cont m p.r p.triangles p.boundary p.keepLast M p.coeff.length t := by
  obtain ⟨M, h1, h2, h3⟩ := h.map
  obtain ⟨M', N, t, h4, h5⟩ := genMap_spec h.space p.keepLast
  rw [h1] at h4
  obtain rfl := Except.ok.inj h4
  have : N = p.coeff.length := by have := h5.num; omega
  subst this
  exact ⟨M, t, h1, h2, h5⟩

theorem pyGet_nat {α : Type} {l : List α} {i : ℕ} (h : i < l.length) : pyGet l (i : ℤ) = .ok l[i] := by
  unfold pyGet
  rw [if_pos (by omega)]
  simp [h]

theorem pySet_nat {α : Type} {l : List α} {i : ℕ} (h : i < l.length) (x : α) : pySet l (i : ℤ) x = .ok (l.set i x) := by
  unfold pySet
  rw [if_pos (by omega), if_pos (by simpa using h)]
  simp

theorem pyGet_last {α : Type} {l : List α} (h : l ≠ []) : pyGet l (-1) = .ok (l.getLast h) := by
  have hp := List.length_pos_iff.2 h
  unfold pyGet
  rw [if_neg (by omega), if_pos (by omega)]
  have : (-1 + (l.length : ℤ)).toNat = l.length - 1 := by omega
  rw [this, List.getElem?_eq_getElem (by omega)]
  simp [List.getLast_eq_getElem]

end Basic

variable {K V : Type} [Field K] [DecidableEq K] [CharZero K] [AddCommGroup V] [DecidableEq V] [Module K V] {m r : Nat} {Tr : Type}

/-! ## Basis polynomials -/

/-- The list of the basis polynomials of a simplex. -/
def IsBasis (b : Basis) (m r : ℕ) (v : Vertices K m m) (l : List (SObj K K m)) : Prop :=
  ∀ (k : ℕ) (ν : List ℕ), (MI.mis m r)[k]? = some ν →
    ∃ q, l[k]? = some q ∧ ∀ x, q.call x = .ok (Poly.basisFn b r (List.ofFn (createAffineMap (down v) x)) ν)

theorem mapM_getElem {α β : Type} {f : α → Py β} : ∀ {l : List α} {l' : List β}, l.mapM f = .ok l' →
    l'.length = l.length ∧ ∀ (i : ℕ) a, l[i]? = some a → ∃ b, l'[i]? = some b ∧ f a = .ok b
  | [], l', h => by
    simp only [List.mapM_nil, Py.pure_eq, Except.ok.injEq] at h
    subst h
    simp
  | a :: l, l', h => by
    rw [List.mapM_cons] at h
    cases ha : f a with
    | error e => rw [ha] at h; simp [Py.bind_error] at h
    | ok b =>
      rw [ha] at h
      cases hl : l.mapM f with
      | error e => rw [hl] at h; simp [Py.bind_ok, Py.bind_error] at h
      | ok l'' =>
        rw [hl] at h
        simp only [Py.bind_ok, Py.pure_eq, Except.ok.injEq] at h
        subst h
        obtain ⟨h1, h2⟩ := mapM_getElem hl
        refine ⟨by simp [h1], fun i c hc => ?_⟩
        cases i with
        | zero => exact ⟨b, by simp, by simp at hc; rw [← hc, ha]⟩
        | succ i => simpa using h2 i c (by simpa using hc)

theorem basisSimplex_ok (b : Basis) (v : Vertices K m m) (hd : edgeDet v ≠ 0) (hf : Fits r m) :
    ∃ l, basisSimplex b r v = .ok l := by
  unfold basisSimplex
  rw [MI.generateAll_eq_mis]
  have h : ∀ ν ∈ MI.mis m r, ∃ s, basisFnSimplex b ν r v = .ok s := by
    intro ν hν
    obtain ⟨h1, h2⟩ := MI.mem_mis.1 hν
    obtain ⟨s, h3, -⟩ := basisFn_repOn b v hd ν r h1 h2 hf
    exact ⟨s, h3⟩
  generalize MI.mis m r = l at h
  induction l with
  | nil => exact ⟨[], rfl⟩
  | cons a l ih =>
    obtain ⟨s, hs⟩ := h a (by simp)
    obtain ⟨l', hl'⟩ := ih (fun ν hν => h ν (by simp [hν]))
    exact ⟨s :: l', by rw [List.mapM_cons, hs, Py.bind_ok, hl', Py.bind_ok, Py.pure_eq]⟩

theorem basisFnSimplex_error (b : Basis) (v : Vertices K m m) {ν : List ℕ} (hl : ν.length = m) (hs : ν.sum ≤ r) (hf : ¬ Fits r m) :
    basisFnSimplex b ν r v = .error .assertion := by
  obtain ⟨i, e1, e2⟩ := setE_zero_tab (K := K) ν hl hs
  unfold basisFnSimplex
  rw [e1]
  simp only [Py.bind_ok, hl]
  rw [e2]
  simp only [Py.bind_ok]
  unfold SObj.new
  rw [new_mk_error _ _ _ _ hf]
  rfl

theorem mis_ne_nil (m r : ℕ) : MI.mis m r ≠ [] := by
  intro h
  have := length_mis_eq (m := m) (r := r)
  rw [h] at this
  have h2 := getDimension_pos r m
  simp at this
  omega

theorem basisSimplex_error (b : Basis) (v : Vertices K m m) (hf : ¬ Fits r m) : basisSimplex b r v = .error .assertion := by
  unfold basisSimplex
  rw [MI.generateAll_eq_mis]
  cases h : MI.mis m r with
  | nil => exact absurd h (mis_ne_nil m r)
  | cons a l =>
    have ha : a ∈ MI.mis m r := by rw [h]; simp
    obtain ⟨h1, h2⟩ := MI.mem_mis.1 ha
    rw [List.mapM_cons, basisFnSimplex_error b v h1 h2 hf]
    rfl

theorem basisSimplex_spec {b : Basis} {v : Vertices K m m} (hd : edgeDet v ≠ 0) {l : List (SObj K K m)} (h : basisSimplex b r v = .ok l) :
    Fits r m ∧ IsBasis b m r v l := by
  have hf : Fits r m := by
    by_contra hf
    rw [basisSimplex_error b v hf] at h
    cases h
  refine ⟨hf, fun k ν hk => ?_⟩
  unfold basisSimplex at h
  rw [MI.generateAll_eq_mis] at h
  obtain ⟨q, h1, h2⟩ := (mapM_getElem h).2 k ν hk
  obtain ⟨h3, h4⟩ := MI.mem_mis.1 (List.mem_of_getElem? hk)
  obtain ⟨s, h5, h6, -⟩ := basisFn_repOn b v hd ν r h3 h4 hf
  rw [h2] at h5
  obtain rfl := Except.ok.inj h5
  exact ⟨q, h1, h6.value⟩

/-! ## Values -/

theorem evalLoop_eq {p : PObj K V m Tr} {j : ℕ} {t : ℕ → List ℕ → ℤ} (ht : ∀ ν, p.tau j ν = .ok (t j ν)) {l : List (SObj K K m)} {v : Vertices K m m}
    (hl : dget? p.polys j = some l) (x : Fin m → K) : ∀ (mis : List (List ℕ)) (k : ℕ) (value : V),
    (∀ ν ∈ mis, t j ν = -1 ∨ ∃ i : ℕ, i < p.coeff.length ∧ t j ν = i) →
    (∀ i ν, mis[i]? = some ν → ∃ q, l[k + i]? = some q ∧ q.call x = .ok (Poly.basisFn p.basis p.r (List.ofFn (createAffineMap (down v) x)) ν)) →
    evalLoop p j x mis k value = .ok (value + (mis.map (fun ν => Poly.basisFn p.basis p.r (List.ofFn (createAffineMap (down v) x)) ν •
      loc p.coeff t j ν)).sum)
  | [], k, value, _, _ => by simp [evalLoop]
  | ν :: mis, k, value, hr, hb => by
    unfold evalLoop
    rw [ht, Py.bind_ok]
    have hrest := evalLoop_eq (v := v) ht hl x mis (k + 1)
    have hb' : ∀ (i : ℕ) (ν : List ℕ), mis[i]? = some ν →
        ∃ q, l[k + 1 + i]? = some q ∧ q.call x = .ok (Poly.basisFn p.basis p.r (List.ofFn (createAffineMap (down v) x)) ν) := by
      intro i ν' h
      have := hb (i + 1) ν' (by simpa using h)
      rwa [show k + (i + 1) = k + 1 + i by omega] at this
    rcases hr ν (by simp) with h1 | ⟨i, hi, h1⟩
    · rw [if_pos h1, hrest value (fun ν h => hr ν (by simp [h])) hb']
      simp [loc, h1]
    · have hne : t j ν ≠ -1 := by omega
      obtain ⟨q, hq, hv⟩ := hb 0 ν (by simp)
      rw [Nat.add_zero] at hq
      rw [if_neg hne, h1, pyGet_nat hi, Py.bind_ok, hl]
      simp only [keyE, Py.bind_ok, getE, hq]
      rw [hv]
      simp only [Py.bind_ok]
      rw [hrest _ (fun ν h => hr ν (by simp [h])) hb']
      have : loc p.coeff t j ν = p.coeff[i] := by
        unfold loc
        rw [if_neg hne, h1, Int.toNat_natCast, List.getD_eq_getElem?_getD, List.getElem?_eq_getElem hi, Option.getD_some]
      rw [List.map_cons, List.sum_cons, this, add_assoc]

/-- The values of a consistent object. -/
theorem eval_eq {p : PObj K V m Tr} (h : WellFormed p) {M : L2G.Map} {t : ℕ → List ℕ → ℤ} (hM : p.tau = M.tau)
    (ht : TauSpec p.cont m p.r p.triangles p.boundary p.keepLast M p.coeff.length t) {j : ℕ} (hj : j < p.triangles.length) {v : Vertices K m m}
    (hv : cell p.triangles p.vertices j = .ok v) (x : Fin m → K) :
    p.evaluateOnSimplex j x = .ok (val p.basis m p.r (loc p.coeff t j) (createAffineMap (down v) x)) := by
  have htau : ∀ ν, p.tau j ν = .ok (t j ν) := by rw [hM]; exact ht.tau j hj
  unfold PObj.evaluateOnSimplex
  by_cases hs : j ∉ p.support
  · rw [if_pos hs]
    have : ∀ ν ∈ S m p.r, loc p.coeff t j (List.ofFn ν) = 0 := by
      intro ν hν
      have hi : IsIndex m p.r (List.ofFn ν) := isIndex_iff.2 ⟨ν, hν, rfl⟩
      unfold loc
      rcases ht.range j hj _ hi with h1 | ⟨i, hi', h1⟩
      · rw [if_pos h1]
      · rw [if_neg (by omega), h1, Int.toNat_natCast, List.getD_eq_getElem?_getD, h.cover j hj hs _ hi i (by rw [htau, h1])]
        rfl
    unfold val
    rw [Finset.sum_eq_zero (fun ν hν => by rw [this ν hν, smul_zero])]
  · rw [if_neg hs]
    obtain ⟨v', l, h1, h2, h3⟩ := h.polys j (not_not.1 hs)
    rw [hv] at h1
    obtain rfl := Except.ok.inj h1
    obtain ⟨v', h4, hd⟩ := h.space.cells j hj
    rw [hv] at h4
    obtain rfl := Except.ok.inj h4
    obtain ⟨hf, hb⟩ := basisSimplex_spec hd h2
    rw [MI.generateAll_eq_mis, evalLoop_eq (v := v) htau h3 x (MI.mis m p.r) 0 0
      (fun ν hν => ht.range j hj ν ((mem_mis_iff m p.r ν).1 hν)) (fun i ν hi => by
        obtain ⟨q, h5, h6⟩ := hb i ν hi
        exact ⟨q, by simpa using h5, h6 x⟩), zero_add]
    unfold val
    rw [← sum_mis m p.r (fun ν => Poly.basisFn p.basis p.r (List.ofFn (createAffineMap (down v) x)) ν • loc p.coeff t j ν)]

/-! ## Construction -/

theorem dget?_mapM {α β γ : Type} [DecidableEq α] {f : α → Py β} : ∀ {l : List α} {d : List (α × β)},
    l.mapM (fun j => do
      let b ← f j
      return (j, b)) = .ok d →
    (∀ j ∈ l, ∃ b, f j = .ok b ∧ dget? d j = some b) ∧ ∀ j, j ∉ l → dget? d j = none
  | [], d, h => by
    simp only [List.mapM_nil, Py.pure_eq, Except.ok.injEq] at h
    subst h
    simp [dget?]
  | a :: l, d, h => by
    rw [List.mapM_cons] at h
    cases ha : f a with
    | error e => rw [ha] at h; simp [Py.bind_error] at h
    | ok b =>
      rw [ha] at h
      simp only [Py.bind_ok, Py.pure_eq] at h
      cases hl : l.mapM (fun j => do
          let b ← f j
          return (j, b)) with
      | error e =>
        simp only [Py.pure_eq] at hl
        rw [hl] at h; simp [Py.bind_error] at h
      | ok d' =>
        obtain ⟨h1, h2⟩ := dget?_mapM (γ := γ) hl
        simp only [Py.pure_eq] at hl
        rw [hl] at h
        simp only [Py.bind_ok, Except.ok.injEq] at h
        subst h
        refine ⟨fun j hj => ?_, fun j hj => ?_⟩
        · simp only [dget?]
          by_cases hc : a = j
          · subst hc; exact ⟨b, ha, by simp⟩
          · rw [if_neg hc]
            exact h1 j ((List.mem_cons.1 hj).resolve_left (fun h => hc h.symm))
        · simp only [List.mem_cons, not_or] at hj
          simp only [dget?]
          rw [if_neg (fun h => hj.1 h.symm)]
          exact h2 j hj.2

theorem mapM_exists {α β : Type} {f : α → Py β} : ∀ {l : List α}, (∀ a ∈ l, ∃ b, f a = .ok b) → ∃ l', l.mapM f = .ok l'
  | [], _ => ⟨[], rfl⟩
  | a :: l, h => by
    obtain ⟨b, hb⟩ := h a (by simp)
    obtain ⟨l', hl'⟩ := mapM_exists (l := l) (fun c hc => h c (by simp [hc]))
    exact ⟨b :: l', by rw [List.mapM_cons, hb, Py.bind_ok, hl', Py.bind_ok, Py.pure_eq]⟩

/-- The part of the constructor after the map: the coefficients and the support are given. -/
theorem new_good {b : Basis} (hb : b ≠ .monomial) {cont : Bool} {triangles : List (List ℕ)} {vertices : List (Fin m → K)}
    {boundary : Option (List (List ℕ))} {keepLast : Bool} (hsp : IsSpace cont triangles vertices r boundary) {M : L2G.Map} {t : ℕ → List ℕ → ℤ}
    (hM : genMap cont triangles r boundary keepLast = .ok M) {coeff : List V}
    (ht : TauSpec cont m r triangles boundary keepLast M coeff.length t) (hc : coeff ≠ []) {support : List ℕ}
    (hsup : ∀ j ∈ support, j < triangles.length) (hcov : ∀ j, j < triangles.length → j ∉ support → ∀ ν, IsIndex m r ν → loc coeff t j ν = 0)
    (tree : Tr) {polys : List (Nat × List (SObj K K m))}
    (hp : ∀ j ∈ support, ∃ v l, cell triangles vertices j = .ok v ∧ basisSimplex b r v = .ok l ∧ dget? polys j = some l)
    (hk : ∀ j, j ∉ support → dget? polys j = none) :
    WellFormed (⟨b, cont, coeff, M.tau, triangles, vertices, boundary, keepLast, r, support, tree, polys⟩ : PObj K V m Tr) where
  basis := hb
  space := hsp
  map := ⟨M, hM, rfl, ht.num⟩
  coeff := hc
  support := hsup
  cover := by
    intro j hj hs ν hν i hi
    have h1 := hcov j hj hs ν hν
    simp only at hi
    rw [ht.tau j hj] at hi
    have hi := Except.ok.inj hi
    unfold loc at h1
    rw [if_neg (by omega), hi, Int.toNat_natCast] at h1
    rcases ht.range j hj ν hν with h2 | ⟨i', h2, h3⟩
    · omega
    · have : i' = i := by omega
      subst this
      rw [List.getD_eq_getElem?_getD, List.getElem?_eq_getElem h2, Option.getD_some] at h1
      simp only
      rw [List.getElem?_eq_getElem h2, h1]
  polys := hp
  keys := hk

theorem IsSpace.vertices_ne {cont : Bool} {triangles : List (List ℕ)} {vertices : List (Fin m → K)} {boundary : Option (List (List ℕ))}
    (hsp : IsSpace cont triangles vertices r boundary) : ∃ x, getE vertices 0 = .ok x := by
  have h0 : 0 < triangles.length := List.length_pos_iff.2 hsp.mesh.ne
  obtain ⟨v, hv, -⟩ := hsp.cells 0 h0
  unfold cell at hv
  rw [getE_ok h0, Py.bind_ok] at hv
  unfold cellVertices Complex.simplexVertices at hv
  cases hg : getE vertices 0 with
  | error e => rw [hg] at hv; cases hv
  | ok x => exact ⟨x, rfl⟩

/-- The constructor for a given map and support without given basis polynomials. -/
theorem new_given {b : Basis} (hb : b ≠ .monomial) {cont : Bool} {triangles : List (List ℕ)} {vertices : List (Fin m → K)}
    {boundary : Option (List (List ℕ))} {keepLast : Bool} (hsp : IsSpace cont triangles vertices r boundary) {M : L2G.Map} {t : ℕ → List ℕ → ℤ}
    (hM : genMap cont triangles r boundary keepLast = .ok M) {coeff : List V}
    (ht : TauSpec cont m r triangles boundary keepLast M coeff.length t) (hc : coeff ≠ []) {support : List ℕ}
    (hsup : ∀ j ∈ support, j < triangles.length) (hcov : ∀ j, j < triangles.length → j ∉ support → ∀ ν, IsIndex m r ν → loc coeff t j ν = 0)
    (mkTree : List ℕ → Py Tr) (tree : Tr) (hf : support = [] ∨ Fits r m) :
    ∃ p : PObj K V m Tr, PObj.new mkTree b cont coeff triangles vertices r (some M.tau) boundary keepLast (some support) (some tree) none = .ok p ∧
      WellFormed p ∧ p.basis = b ∧ p.cont = cont ∧ p.coeff = coeff ∧ p.tau = M.tau ∧ p.triangles = triangles ∧ p.vertices = vertices ∧
      p.boundary = boundary ∧ p.keepLast = keepLast ∧ p.r = r ∧ p.support = support ∧ p.tree = tree := by
  have h0 : 0 < coeff.length := List.length_pos_iff.2 hc
  obtain ⟨x, hx⟩ := hsp.vertices_ne
  have hex : ∀ j ∈ support, ∃ l, (do
      let v ← cell triangles vertices j
      basisSimplex b r v : Py _) = .ok l := by
    intro j hj
    obtain ⟨v, hv, hd⟩ := hsp.cells j (hsup j hj)
    rcases hf with hf | hf
    · rw [hf] at hj; simp at hj
    · obtain ⟨l, hl⟩ := basisSimplex_ok b v hd hf
      exact ⟨l, by rw [hv, Py.bind_ok, hl]⟩
  obtain ⟨polys, hpolys⟩ := mapM_exists (f := fun j => do
      let b ← (do
        let v ← cell triangles vertices j
        basisSimplex b r v : Py _)
      return (j, b)) (l := support) (fun j hj => by
        obtain ⟨l, hl⟩ := hex j hj
        exact ⟨_, by rw [hl, Py.bind_ok, Py.pure_eq]⟩)
  obtain ⟨h1, h2⟩ := dget?_mapM (γ := K) hpolys
  refine ⟨_, ?_, new_good hb hsp hM ht hc hsup hcov tree (polys := polys) (fun j hj => ?_) h2, rfl, rfl, rfl, rfl, rfl, rfl, rfl, rfl, rfl, rfl, rfl⟩
  · unfold PObj.new polysArg tauArg supportArg
    simp only [Py.bind_ok]
    rw [getE_ok h0, hx, Py.bind_ok, Py.bind_ok]
    simp only [bind_assoc] at hpolys
    rw [hpolys]
    rfl
  · obtain ⟨l, h3, h4⟩ := h1 j hj
    obtain ⟨v, hv, hd⟩ := hsp.cells j (hsup j hj)
    rw [hv, Py.bind_ok] at h3
    exact ⟨v, l, hv, h3, h4⟩

/-- Without room for the degree the constructor rejects a non-empty support. -/
theorem new_toobig {b : Basis} {cont : Bool} {triangles : List (List ℕ)} {vertices : List (Fin m → K)}
    {boundary : Option (List (List ℕ))} {keepLast : Bool} (hsp : IsSpace cont triangles vertices r boundary) {tau : Int → List Nat → Py Int}
    {coeff : List V} {support : List ℕ}
    (hsup : ∀ j ∈ support, j < triangles.length) (mkTree : List ℕ → Py Tr) (tree : Tr) (hne : support ≠ []) (hf : ¬ Fits r m) :
    ∃ e, PObj.new mkTree b cont coeff triangles vertices r (some tau) boundary keepLast (some support) (some tree) none = .error e := by
  unfold PObj.new polysArg tauArg supportArg
  simp only [Py.bind_ok]
  cases hc : getE coeff 0 with
  | error e => exact ⟨e, rfl⟩
  | ok c =>
    obtain ⟨x, hx⟩ := hsp.vertices_ne
    rw [hx]
    simp only [Py.bind_ok]
    cases support with
    | nil => exact absurd rfl hne
    | cons j l =>
      obtain ⟨v, hv, hd⟩ := hsp.cells j (hsup j (by simp))
      rw [List.mapM_cons, hv, Py.bind_ok, basisSimplex_error b v hf]
      exact ⟨_, rfl⟩

end Verif.PP
