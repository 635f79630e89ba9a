import Verif.Lemmas.PiecewiseCont
import Mathlib.Data.Real.Basic
/-!
# C47, C48: piecewise polynomials

`WellFormed`, `Denotes` and `Full` are defined in `Verif/Spec/Piecewise.lean`. `C48_construct` shows that the constructor returns consistent objects, and
every other theorem that the result of an operation is one again.
-/

namespace Verif.Props
open Verif Verif.Poly Verif.Simplex Verif.SPoly Verif.L2G Verif.Spec Verif.PP

variable {K V : Type} [Field K] [DecidableEq K] [CharZero K] [AddCommGroup V] [DecidableEq V] [Module K V] {m r : Nat} {Tr : Type}

/-! ## C47 -/

/-- **C47** On a common face of two simplices of the mesh, evaluation of a continuous piecewise polynomial on one simplex and on the other one returns
the same value; this holds for all degrees, both bases, and also in spaces with vanishing boundary values. -/
theorem C47_continuous {p : PObj K V m Tr} (h : WellFormed p) (hc : p.cont = true) {j j' : ℕ} (hj : j < p.triangles.length)
    (hj' : j' < p.triangles.length) {x : Fin m → K} (hx : OnCommonFace p.vertices p.triangles[j] p.triangles[j'] x) :
    ∃ y, p.evaluateOnSimplex j x = .ok y ∧ p.evaluateOnSimplex j' x = .ok y := by
  obtain ⟨F, hF⟩ := h.denotes
  exact ⟨F j x, hF j hj x, by rw [common_face h hc hj hj' hx hF]; exact hF j' hj' x⟩

/-- **C47** Calling a continuous piecewise polynomial at a point of a conforming mesh returns the value on each simplex that contains the point,
whichever simplex the search finds first: `leaf` are the candidates that the space partitioning tree returns for the point, `inside` decides whether
a point is in a simplex, and the mesh is conforming, i.e. points in two simplices are on the common face. -/
theorem C47_call {p : PObj K V m Tr} (h : WellFormed p) (hc : p.cont = true) {leaf : Tr → (Fin m → K) → Py (List Nat)}
    {inside : (Fin m → K) → Vertices K m m → Bool} {x : Fin m → K} {js : List ℕ} (hl : leaf p.tree x = .ok js)
    (hjs : ∀ i ∈ js, i < p.triangles.length)
    (hconf : ∀ i i' (hi : i < p.triangles.length) (hi' : i' < p.triangles.length) v v', cell p.triangles p.vertices i = .ok v →
      cell p.triangles p.vertices i' = .ok v' → inside x v = true → inside x v' = true → OnCommonFace p.vertices p.triangles[i] p.triangles[i'] x)
    {j : ℕ} (hj : j < p.triangles.length) (hjm : j ∈ js) {v : Vertices K m m} (hv : cell p.triangles p.vertices j = .ok v) (hin : inside x v = true) :
    p.call leaf inside x = p.evaluateOnSimplex j x := by
  have key : ∀ l : List ℕ, (∀ i ∈ l, i < p.triangles.length) → j ∈ l →
      ∃ i, i < p.triangles.length ∧ findCell p.triangles p.vertices inside x l = .ok (some i) ∧ ∃ v, cell p.triangles p.vertices i = .ok v ∧ inside x v = true := by
    intro l
    induction l with
    | nil => intro _ h; simp at h
    | cons i l ih =>
      intro hlt hm
      obtain ⟨w, hw, hd⟩ := h.space.cells i (hlt i (by simp))
      by_cases hi : inside x w = true
      · exact ⟨i, hlt i (by simp), by unfold findCell; rw [hw, Py.bind_ok, if_pos hi], w, hw, hi⟩
      · have hne : j ≠ i := by
          rintro rfl
          rw [hv] at hw
          obtain rfl := Except.ok.inj hw
          exact hi hin
        obtain ⟨i', h1, h2, h3⟩ := ih (fun a ha => hlt a (by simp [ha])) ((List.mem_cons.1 hm).resolve_left hne)
        exact ⟨i', h1, by unfold findCell; rw [hw, Py.bind_ok, if_neg hi, h2], h3⟩
  obtain ⟨i, hi, h1, w, hw, hi'⟩ := key js hjs hjm
  unfold PObj.call
  rw [hl, Py.bind_ok, h1, Py.bind_ok]
  obtain ⟨y, h2, h3⟩ := C47_continuous h hc hi hj (hconf i j hi hj w v hw hv hi' hin)
  simp only
  rw [h2, h3]

/-! ## C48: construction and evaluation -/

/-- **C48** The constructor accepts one coefficient for each degree of freedom of the space and returns a consistent object, whose values on
each simplex are the combination of the basis polynomials of the simplex with the coefficients that the local-to-global map assigns to it (zero for
degrees of freedom that are not part of the space). The local-to-global map may be given or is generated. -/
theorem C48_construct {b : Basis} (hb : b ≠ .monomial) {cont : Bool} {triangles : List (List ℕ)} {vertices : List (Fin m → K)}
    {boundary : Option (List (List ℕ))} {keepLast : Bool} (hsp : IsSpace cont triangles vertices r boundary) (hf : Fits r m) {M : L2G.Map}
    (hM : genMap cont triangles r boundary keepLast = .ok M) {coeff : List V} (hn : M.numDofs = coeff.length) (hc : coeff ≠ [])
    {tau : Option (Int → List Nat → Py Int)} (htau : (tau = none ∧ (cont = true ∨ keepLast = false)) ∨ tau = some M.tau)
    {mkTree : List ℕ → Py Tr} (htree : ∀ S : List ℕ, (∀ j ∈ S, j < triangles.length) → ∃ T, mkTree S = .ok T) :
    ∃ p : PObj K V m Tr, PObj.new mkTree b cont coeff triangles vertices r tau boundary keepLast none none none = .ok p ∧ WellFormed p ∧
      p.basis = b ∧ p.cont = cont ∧ p.coeff = coeff ∧ p.triangles = triangles ∧ p.vertices = vertices ∧ p.boundary = boundary ∧
      p.keepLast = keepLast ∧ p.r = r ∧ p.tau = M.tau ∧
      ∀ j, j < triangles.length → ∀ v, cell triangles vertices j = .ok v → ∀ x w, IsBarycentric v x w →
        p.evaluateOnSimplex j x = .ok (combination b r (coeffAt M.tau coeff j) w) := by
  obtain ⟨M', N, t, hM', ht⟩ := genMap_spec hsp keepLast
  obtain rfl : M = M' := Except.ok.inj (hM.symm.trans hM')
  obtain rfl : N = coeff.length := by have := ht.num; omega
  obtain ⟨T, hT⟩ := htree (sup m r coeff t triangles.length) (fun j hj => (mem_sup.1 hj).1)
  obtain ⟨p, q1, q2, q3, q4, q5, q6, q7, q8, q9, q10, q11, q12, q13⟩ := new_general hb hsp hM ht hc (tauArg_ok hM hn htau) (supportArg_eq hc ht)
    (fun j hj => (mem_sup.1 hj).1) (fun j hj hj' ν hν => sup_cover hj hj' hν) (treeO := none) hT (polysO := none) (Or.inl ⟨rfl, hf⟩)
  refine ⟨p, q1, q2, q3, q4, q5, q7, q8, q9, q10, q11, q6, fun j hj v hv x w hw => ?_⟩
  obtain ⟨v', hv', hd⟩ := hsp.cells j hj
  obtain rfl : v' = v := Except.ok.inj (hv'.symm.trans hv)
  rw [eval_eq q2 q6 (t := t) (by rw [q4, q11, q7, q9, q10, q5]; exact ht) (by rw [q7]; exact hj) (by rw [q7, q8]; exact hv), down_bary v' hd hw, q3, q11, q5]
  congr 1
  refine val_congr (d := coeffAt M.tau coeff j) (fun ν hν => ?_) _
  unfold coeffAt loc
  rw [ht.tau j hj]
  rcases ht.range j hj ν hν with h1 | ⟨i, hi, h1⟩
  · rw [if_pos h1, h1]
    rfl
  · rw [if_neg (by omega), h1]
    rfl

/-- **C48** Without a given local-to-global map, the constructor of a discontinuous space with boundary degrees of freedom last fails. -/
theorem C48_construct_keep_last {b : Basis} {triangles : List (List ℕ)} {vertices : List (Fin m → K)} {boundary : Option (List (List ℕ))}
    (hsp : IsSpace false triangles vertices r boundary) (coeff : List V) (mkTree : List ℕ → Py Tr) (support : Option (List ℕ)) (tree : Option Tr)
    (polys : Option (List (Nat × List (SObj K K m)))) :
    PObj.new mkTree b false coeff triangles vertices r none boundary true support tree polys = .error .value := by
  obtain ⟨M, N, t, hM, ht⟩ := genMap_spec hsp true
  unfold PObj.new tauArg
  simp only
  rw [hM, Py.bind_ok, if_pos (by rfl)]
  rfl

/-! ## C48: linear operations, in all spaces -/

/-- **C48** Multiplication with a scalar. -/
theorem C48_smul {p : PObj K V m Tr} (h : WellFormed p) {F : ℕ → (Fin m → K) → V} (hF : Denotes p F) (c : K) :
    ∃ s, p.smul c = .ok s ∧ WellFormed s ∧ SameKind s p ∧ s.r = p.r ∧ Denotes s (fun j x => c • F j x) := by
  unfold PObj.smul
  refine smul_spec h hF (fun a => c • a) (smul_zero c) _ ?_ (fun d x => val_smul _ _ _ _ _ _)
  by_cases hc : c = 0
  · right
    simp [hc]
  · left
    simp [hc]

/-- **C48** Multiplication of a scalar valued function with a vector. -/
theorem C48_outer {n : ℕ} {p : PObj K K m Tr} (h : WellFormed p) {F : ℕ → (Fin m → K) → K} (hF : Denotes p F) (c : Fin n → K) :
    ∃ s, p.outer c = .ok s ∧ WellFormed s ∧ SameKind s p ∧ s.r = p.r ∧ Denotes s (fun j x => F j x • c) := by
  unfold PObj.outer
  refine smul_spec h hF (fun a => a • c) (zero_smul K c) _ ?_ (fun d x => val_smul_const _ _ _ _ _ _)
  by_cases hc : c = 0
  · right
    simp [hc]
  · left
    simp [hc]

/-- **C48** Division by a scalar (for division by zero see C98). -/
theorem C48_div {p : PObj K V m Tr} (h : WellFormed p) {F : ℕ → (Fin m → K) → V} (hF : Denotes p F) (c : K) (_ : c ≠ 0) :
    ∃ s, p.divConst c = .ok s ∧ WellFormed s ∧ SameKind s p ∧ s.r = p.r ∧ Denotes s (fun j x => c⁻¹ • F j x) :=
  smul_spec h hF (fun a => c⁻¹ • a) (smul_zero _) _ (Or.inl rfl) (fun d x => val_smul _ _ _ _ _ _)

/-- **C48** Sum of two piecewise polynomials of the same kind on the same mesh. If the degrees are the same, or no degree of freedom is left out and
the larger degree is accepted: a returned function is the sum on each simplex; the only exception is KeyError; if no degree of freedom is left out,
the sum is returned exactly if it vanishes on the simplices outside the support of the first operand; and it is always returned if the
first operand is supported on all simplices. -/
theorem C48_add {p q : PObj K V m Tr} (hp : WellFormed p) (hq : WellFormed q) (hk : SameKind p q)
    {F G : ℕ → (Fin m → K) → V} (hF : Denotes p F) (hG : Denotes q G) (hcase : p.r = q.r ∨ (Full p ∧ Fits (max p.r q.r) m)) :
    (∀ s, p.add q = .ok s → WellFormed s ∧ SameKind s p ∧ s.r = max p.r q.r ∧ Denotes s (fun j x => F j x + G j x)) ∧
    (∀ e, p.add q = .error e → e = .key) ∧
    (Full p → ((∃ s, p.add q = .ok s) ↔ ∀ j, j < p.triangles.length → j ∉ p.support → ∀ x, F j x + G j x = 0)) ∧
    ((∀ j, j < p.triangles.length → j ∈ p.support) → ∃ s, p.add q = .ok s) :=
  combine_spec hp hq hk hF hG (· + ·) (by simp) (fun b n c d x => val_add b m n c d x) hcase

/-- **C48** Difference of two piecewise polynomials of the same kind on the same mesh. -/
theorem C48_sub {p q : PObj K V m Tr} (hp : WellFormed p) (hq : WellFormed q) (hk : SameKind p q)
    {F G : ℕ → (Fin m → K) → V} (hF : Denotes p F) (hG : Denotes q G) (hcase : p.r = q.r ∨ (Full p ∧ Fits (max p.r q.r) m)) :
    (∀ s, p.sub q = .ok s → WellFormed s ∧ SameKind s p ∧ s.r = max p.r q.r ∧ Denotes s (fun j x => F j x - G j x)) ∧
    (∀ e, p.sub q = .error e → e = .key) ∧
    (Full p → ((∃ s, p.sub q = .ok s) ↔ ∀ j, j < p.triangles.length → j ∉ p.support → ∀ x, F j x - G j x = 0)) ∧
    ((∀ j, j < p.triangles.length → j ∈ p.support) → ∃ s, p.sub q = .ok s) :=
  combine_spec hp hq hk hF hG (· - ·) (by simp) (fun b n c d x => val_sub b m n c d x) hcase

/-- **C48** Operands in different bases or on different meshes are rejected by `+` and `-`. -/
theorem C48_add_reject (p q : PObj K V m Tr) (h : p.basis ≠ q.basis ∨ p.triangles ≠ q.triangles ∨ p.vertices ≠ q.vertices) :
    p.add q = .error .assertion ∧ p.sub q = .error .assertion := by
  have : ∀ op : V → V → V, PP.combine op p q = .error .assertion := by
    intro op
    unfold PP.combine sameMesh
    by_cases h1 : p.basis = q.basis
    · by_cases h2 : p.triangles = q.triangles
      · have h3 : ¬ p.vertices = q.vertices := by tauto
        rw [decide_eq_true h1, decide_eq_true h2, decide_eq_false h3]
        rfl
      · rw [decide_eq_true h1, decide_eq_false h2]
        rfl
    · rw [decide_eq_false h1]
      rfl
  exact ⟨this _, this _⟩

/-- **C48** If only one of the operands has a list of boundary simplices, `+` and `-` fail. -/
theorem C48_add_boundary (p q : PObj K V m Tr) (h1 : p.basis = q.basis) (h2 : p.triangles = q.triangles) (h3 : p.vertices = q.vertices)
    (h4 : p.boundary.isSome ≠ q.boundary.isSome) : p.add q = .error .attribute ∧ p.sub q = .error .attribute := by
  have : ∀ op : V → V → V, PP.combine op p q = .error .attribute := by
    intro op
    unfold PP.combine sameMesh
    rw [decide_eq_true h1, decide_eq_true h2, decide_eq_true h3]
    cases hp : p.boundary <;> cases hq : q.boundary
    · rw [hp, hq] at h4; exact absurd rfl h4
    · rfl
    · rfl
    · rw [hp, hq] at h4; exact absurd rfl h4
  exact ⟨this _, this _⟩

/-! ## C48: operations in spaces without left out degrees of freedom -/

/-- **C48** Components of a vector valued function. -/
theorem C48_component {n : ℕ} {p : PObj K (Fin n → K) m Tr} (h : WellFormed p) (hfull : Full p) {F : ℕ → (Fin m → K) → (Fin n → K)} (hF : Denotes p F) :
    (∀ i : Fin n, ∃ s, p.component i = .ok s ∧ WellFormed s ∧ SameKind s p ∧ s.r = p.r ∧ Denotes s (fun j x => F j x i)) ∧
    ∀ i, n ≤ i → p.component i = .error .assertion :=
  ⟨fun i => component_spec h hF hfull i, fun i hi => by unfold PObj.component; rw [dif_neg (by omega)]⟩

/-- **C48** Restriction to a simplex: the returned polynomial takes the values of the piecewise polynomial on the simplex. -/
theorem C48_restrict {p : PObj K V m Tr} (h : WellFormed p) (hfull : Full p) {F : ℕ → (Fin m → K) → V} (hF : Denotes p F) (hf : Fits p.r m) :
    (∀ j, j < p.triangles.length → ∃ v s, cell p.triangles p.vertices j = .ok v ∧ p.restrictToSimplex j = .ok s ∧ RepresentsOn s v (F j) ∧
      s.poly.basis = p.basis ∧ s.poly.r = p.r) ∧
    ∀ j, p.triangles.length ≤ j → p.restrictToSimplex j = .error .assertion := by
  obtain ⟨M, t, hg, hM, ht⟩ := h.data
  refine ⟨fun j hj => ?_, fun j hj => ?_⟩
  · obtain ⟨v, hv, hd⟩ := h.space.cells j hj
    refine ⟨v, _, hv, restrict_eq h hfull hM ht hj hv hd hf, ?_, rfl, rfl⟩
    have : F j = fun x => val p.basis m p.r (loc p.coeff t j) (createAffineMap (down v) x) := by
      funext x
      exact denotes_val h hF hM ht hj hv x
    rw [this]
    exact repOn_mk hd (rep_mk _ _ _ _ hf)
  · unfold PObj.restrictToSimplex
    rw [decide_eq_false (by omega)]
    rfl

/-- **C48** Degree elevation returns the same function in the space of the higher degree, if this degree is accepted; a lower degree is
rejected. -/
theorem C48_elevate {p : PObj K V m Tr} (h : WellFormed p) (hfull : Full p) {F : ℕ → (Fin m → K) → V} (hF : Denotes p F) (s : ℕ) :
    (p.r ≤ s → s = p.r ∨ Fits s m →
      ∃ q, p.degreeElevate s = .ok q ∧ WellFormed q ∧ SameKind q p ∧ q.r = s ∧ q.support = p.support ∧ Denotes q F) ∧
    (s < p.r → p.degreeElevate s = .error .assertion) ∧
    (p.r < s → ¬ Fits s m → ∃ e, p.degreeElevate s = .error e) := by
  refine ⟨fun h1 h2 => ?_, fun h1 => ?_, fun h1 h2 => elevate_toobig h hfull h1 h2⟩
  · obtain ⟨q, e1, e2, e3, e4, e5, -, e7⟩ := elevate_spec h hfull hF h1 h2
    exact ⟨q, e1, e2, e3, e4, e5, e7⟩
  · unfold PObj.degreeElevate
    rw [decide_eq_false (by omega)]
    rfl

/-- **C48** Product of two piecewise polynomials on the same mesh: it is the product on each simplex. It is returned if the sum of the degrees is
accepted or no simplex is in both supports, and an exception is raised otherwise. The second factor may be expressed in another basis if the first one is
a Lagrange function, and a factor of a continuous function has to be continuous (`Compatible`). -/
theorem C48_mul {p q : PObj K K m Tr} (hp : WellFormed p) (hq : WellFormed q) (hfull : Full p) (hpq : Compatible p q) {F G : ℕ → (Fin m → K) → K}
    (hF : Denotes p F) (hG : Denotes q G) :
    ((∀ j ∈ p.support, j ∉ q.support) ∨ Fits (p.r + q.r) m →
      ∃ s, p.mul q = .ok s ∧ WellFormed s ∧ SameKind s p ∧ s.r = p.r + q.r ∧ Denotes s (fun j x => F j x * G j x)) ∧
    (¬ ((∀ j ∈ p.support, j ∉ q.support) ∨ Fits (p.r + q.r) m) → ∃ e, p.mul q = .error e) := by
  obtain ⟨h1, h2⟩ := mul_spec hp hq hfull hpq hF hG
  refine ⟨fun h => ?_, h2⟩
  obtain ⟨s, e1, e2, e3, e4, -, -, e7⟩ := h1 h
  exact ⟨s, e1, e2, e3, e4, e7⟩

/-- **C48** Factors on different meshes or with different numberings are rejected. -/
theorem C48_mul_reject (p q : PObj K K m Tr) (h : p.triangles ≠ q.triangles ∨ p.vertices ≠ q.vertices ∨ (p.boundary = q.boundary ∧ p.keepLast ≠ q.keepLast)) :
    p.mul q = .error .assertion := by
  unfold PObj.mul sameMesh
  by_cases h2 : p.triangles = q.triangles
  · by_cases h3 : p.vertices = q.vertices
    · obtain ⟨h4, h5⟩ : p.boundary = q.boundary ∧ p.keepLast ≠ q.keepLast := by tauto
      rw [decide_eq_true h2, decide_eq_true h3, h4, boundaryCheck_same, decide_eq_false h5]
      rfl
    · rw [decide_eq_true h2, decide_eq_false h3]
      rfl
  · rw [decide_eq_false h2]
    rfl

/-- **C48** Powers with a positive exponent. -/
theorem C48_pow {p : PObj K K m Tr} (h : WellFormed p) (hfull : Full p) {F : ℕ → (Fin m → K) → K} (hF : Denotes p F) (k : ℕ) (hk : k ≠ 0) :
    (p.support = [] ∨ k = 1 ∨ Fits (k * p.r) m →
      ∃ s, p.powNat k = .ok s ∧ WellFormed s ∧ SameKind s p ∧ s.r = k * p.r ∧ Denotes s (fun j x => F j x ^ k)) ∧
    (¬ (p.support = [] ∨ k = 1 ∨ Fits (k * p.r) m) → ∃ e, p.powNat k = .error e) := by
  obtain ⟨n, rfl⟩ := Nat.exists_eq_succ_of_ne_zero hk
  have hn : n.succ = 1 ↔ n = 0 := by omega
  rw [hn]
  obtain ⟨h1, h2⟩ := pow_spec h hfull hF n
  refine ⟨fun h => ?_, h2⟩
  obtain ⟨s, e1, e2, e3, e4, -, -, e7⟩ := h1 h
  exact ⟨s, e1, e2, e3, e4, e7⟩

/-- **C48** The power zero is the constant function one on each simplex, if every vertex of the vertex list is used (continuous functions) or the boundary
degrees of freedom are not numbered last (discontinuous functions). It re-uses the space partitioning tree of `p`, which only knows the simplices in the support
of `p`. -/
theorem C48_pow_zero {p : PObj K K m Tr} (h : WellFormed p) (hfull : Full p)
    (hall : p.cont = true → ∀ v, v < p.vertices.length → ∃ T ∈ p.triangles, v ∈ T) (hkeep : p.cont = true ∨ p.keepLast = false) :
    ∃ s, p.powNat 0 = .ok s ∧ WellFormed s ∧ SameKind s p ∧ s.tree = p.tree ∧ Denotes s (fun _ _ => 1) := by
  have hsp : IsSpace p.cont p.triangles p.vertices (if p.cont then 1 else 0) p.boundary :=
    ⟨h.space.mesh, h.space.cells, h.space.boundary, fun hc => ⟨(h.space.continuous hc).1, by rw [hc]; simp⟩⟩
  obtain ⟨M, N, t, hM, ht⟩ := genMap_spec hsp p.keepLast
  obtain ⟨s, e1, e2, e3, e4, e5, e6, e7, e8, -, e9, e10⟩ := unit_spec (Tr := Tr) h.basis hsp hM (NoDrop.of_full hfull) hall (tauO := none) (Or.inl ⟨rfl, hkeep⟩)
    (mkTree := fun _ => .ok p.tree) (treeO := some p.tree) (tree := p.tree) rfl
  exact ⟨s, e1, e2, ⟨e3, e4, e5, e6, e7, e8⟩, e9, e10⟩

/-- **C48** The unit and the zero function. -/
theorem C48_unit_zero {b : Basis} (hb : b ≠ .monomial) {cont : Bool} {triangles : List (List ℕ)} {vertices : List (Fin m → K)}
    {boundary : Option (List (List ℕ))} {keepLast : Bool} (hsp : IsSpace cont triangles vertices (if cont then 1 else 0) boundary)
    (hfull : keepLast = true ∨ boundary.getD [] = []) (hall : cont = true → ∀ v, v < vertices.length → ∃ T ∈ triangles, v ∈ T)
    (hkeep : cont = true ∨ keepLast = false) {mkTree : List ℕ → Py Tr} (htree : ∀ S : List ℕ, (∀ j ∈ S, j < triangles.length) → ∃ T, mkTree S = .ok T) :
    (∃ p : PObj K K m Tr, unitPiecewise mkTree b cont triangles vertices none boundary keepLast none = .ok p ∧ WellFormed p ∧ Denotes p (fun _ _ => 1)) ∧
    (∃ p : PObj K V m Tr, zeroPiecewise V mkTree b cont triangles vertices none boundary keepLast none = .ok p ∧ WellFormed p ∧
      Denotes p (fun _ _ => 0)) := by
  obtain ⟨M, N, t, hM, ht⟩ := genMap_spec hsp keepLast
  obtain ⟨T, hT⟩ := htree (List.range triangles.length) (by simp)
  obtain ⟨T', hT'⟩ := htree [] (by simp)
  obtain ⟨p, e1, e2, -, -, -, -, -, -, -, -, e3⟩ := unit_spec (Tr := Tr) hb hsp hM (NoDrop.of_full hfull) hall (tauO := none) (Or.inl ⟨rfl, hkeep⟩)
    (mkTree := mkTree) (treeO := none) (tree := T) hT
  obtain ⟨q, f1, f2, -, -, -, -, -, -, -, -, f3⟩ := zero_spec (V := V) (Tr := Tr) hb hsp hM (NoDrop.of_full hfull) hall (tauO := none) (Or.inl ⟨rfl, hkeep⟩)
    (mkTree := mkTree) (treeO := none) (tree := T') hT'
  exact ⟨⟨p, e1, e2, e3⟩, ⟨q, f1, f2, f3⟩⟩

end Verif.Props
