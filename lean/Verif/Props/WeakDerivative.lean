import Verif.Props.PiecewiseBases
/-!
# C66: weak partial derivatives of continuous piecewise polynomials

The partial derivatives on the simplices of a mesh, put together to a discontinuous piecewise polynomial. `IsPartial i f f'` (`Verif/Spec/Calculus.lean`): `f'`
is the partial derivative of `f` with respect to the coordinate `i`. `empty` is what `np.empty` returns: arbitrary entries.
-/

namespace Verif.Props
open Verif Verif.Poly Verif.Simplex Verif.SPoly Verif.L2G Verif.Spec Verif.PP

section
variable {K V : Type} [NontriviallyNormedField K] [DecidableEq K] [CharZero K] [NormedAddCommGroup V] [DecidableEq V] [NormedSpace K V] {m : ℕ} {Tr : Type}

/-- The restrictions and their derivatives. -/
theorem weak_setup {p : PObj K V m Tr} (h : WellFormed p) (hfull : Full p) {F : ℕ → (Fin m → K) → V} (hF : Denotes p F) (hf : Fits p.r m) (i : Fin m) :
    ∃ (v : ℕ → Vertices K m m) (q s : ℕ → SObj K V m) (F' : ℕ → (Fin m → K) → V), ∀ j, j < p.triangles.length →
      cell p.triangles p.vertices j = .ok (v j) ∧ edgeDet (v j) ≠ 0 ∧ p.restrictToSimplex j = .ok (q j) ∧ RepresentsOn (q j) (v j) (F j) ∧
      (q j).poly.basis = p.basis ∧ (q j).poly.r = p.r ∧
      (q j).partialDerivative i = .ok (s j) ∧ RepresentsOn (s j) (v j) (F' j) ∧ IsPartial i (F j) (F' j) ∧ (s j).poly.basis = p.basis ∧
      (s j).poly.r = p.r - 1 ∧ (j ∉ p.support → ∀ x, F' j x = 0) := by
  obtain ⟨M, t, hg, hM, ht⟩ := h.data
  have key : ∀ j, ∃ (v : Vertices K m m) (q s : SObj K V m) (f' : (Fin m → K) → V), j < p.triangles.length →
      cell p.triangles p.vertices j = .ok v ∧ edgeDet v ≠ 0 ∧ p.restrictToSimplex j = .ok q ∧ RepresentsOn q v (F j) ∧
      q.poly.basis = p.basis ∧ q.poly.r = p.r ∧ q.partialDerivative i = .ok s ∧ RepresentsOn s v f' ∧ IsPartial i (F j) f' ∧ s.poly.basis = p.basis ∧
      s.poly.r = p.r - 1 ∧ (j ∉ p.support → ∀ x, f' x = 0) := by
    intro j
    by_cases hj : j < p.triangles.length
    · obtain ⟨v, hv, hd⟩ := h.space.cells j hj
      have hres := restrict_eq h hfull hM ht hj hv hd hf
      have hrep : RepresentsOn (⟨mkObj p.basis m p.r (loc p.coeff t j), v, down v⟩ : SObj K V m) v (F j) := by
        have h1 := repOn_mk hd (rep_mk (K := K) p.basis m p.r (loc p.coeff t j) hf)
        rwa [show (fun x => val p.basis m p.r (loc p.coeff t j) (createAffineMap (down v) x)) = F j from
          (funext fun x => (denotes_val h hF hM ht hj hv x).symm)] at h1
      obtain ⟨s, f', h1, h2, h3, h4, h5⟩ := partialDerivative_repOn hrep i
      refine ⟨v, _, s, f', fun _ => ⟨hv, hd, hres, hrep, rfl, rfl, h1, h2, h3, h4, h5, fun hs x => ?_⟩⟩
      have h6 : ∀ y, F j y = 0 := (zero_iff h hF hM ht hj).2 (fun ν hν => off_support h hM ht hj hs hν)
      have h7 := h3 x
      simp only [h6] at h7
      exact h7.unique (hasDerivAt_const _ _)
    · have v : Vertices K m m := fun _ _ => 0
      exact ⟨v, ⟨⟨p.basis, [], 0, 0⟩, v, down v⟩, ⟨⟨p.basis, [], 0, 0⟩, v, down v⟩, fun _ => 0, fun h => absurd h hj⟩
  choose v q s F' hall using key
  exact ⟨v, q, s, F', hall⟩

/-- **C66** The weak partial derivative of a continuous piecewise polynomial in the Lagrange basis, in a space without left out degrees of freedom, is the discontinuous
piecewise polynomial on the same mesh with one degree less whose function on each simplex is the partial derivative of the function there. -/
theorem C66_weak_derivative_lagrange {p : PObj K V m Tr} (h : WellFormed p) (hb : p.basis = .lagrange) (hc : p.cont = true) (hfull : Full p)
    {F : ℕ → (Fin m → K) → V} (hF : Denotes p F) (hf : Fits p.r m) (i : Fin m) {empty : ℕ → List V} (hempty : ∀ n, (empty n).length = n) :
    ∃ s F', weakPartialDerivativeLagrange empty p i = .ok s ∧ WellFormed s ∧ s.basis = p.basis ∧ s.cont = false ∧ s.triangles = p.triangles ∧
      s.vertices = p.vertices ∧ s.boundary = p.boundary ∧ s.keepLast = p.keepLast ∧ s.r + 1 = p.r ∧ Denotes s F' ∧
      ∀ j, j < p.triangles.length → IsPartial i (F j) (F' j) := by
  obtain ⟨v, q, d, F', hall⟩ := weak_setup h hfull hF hf i
  have hr := (h.space.continuous hc).2
  have hpt : ∀ j, ∀ ν ∈ MI.mis m (p.r - 1), lagrangePointSimplex (v j) (p.r - 1) ν =
      .ok (createAffineMap (up (v j)) (fun i => ((ν.getD i 0 : ℕ) : K) / ((p.r - 1 : ℕ) : K))) := fun j ν hν =>
    lagrangePointSimplex_eq (v j) (p.r - 1) ν ((mem_mis_iff m _ ν).1 hν).1 ((mem_mis_iff m _ ν).1 hν).2
  obtain ⟨s, q1, q2, q3, q4, q5, q6, q7, q8, q9, q10, q11, q12⟩ := weak_spec h hfull (hf.mono (by omega)) hempty
    (val' := fun j _ nu => do
      let x ← lagrangePointSimplex (v j) (p.r - 1) nu
      let d ← (q j).partialDerivative i
      d.call x)
    (step := fun M r coeff j => do
      let q ← p.restrictToSimplex j
      let v ← cell p.triangles p.vertices j
      weakLoop M.tau j (fun _ nu => do
        let x ← lagrangePointSimplex v r nu
        let d ← q.partialDerivative i
        d.call x) (MI.generateAll m r) 0 coeff)
    (c := fun j ν => F' j (createAffineMap (up (v j)) (fun i => ((ν.getD i 0 : ℕ) : K) / ((p.r - 1 : ℕ) : K))))
    (fun M coeff j hj => by
      obtain ⟨h1, h2, h3, -⟩ := hall j hj
      simp only [h1, h3, Py.bind_ok])
    (fun j hj k ν hν => by
      obtain ⟨-, -, -, -, -, -, h4, h5, -⟩ := hall j hj
      simp only [hpt j ν (List.mem_of_getElem? hν), h4, Py.bind_ok, h5.value])
    (F' := F')
    (fun j hj v' hv' hd x => by
      obtain ⟨h1, h2, -, -, -, -, -, h5, -, -, h8, -⟩ := hall j hj
      obtain rfl : v j = v' := Except.ok.inj (h1.symm.trans hv')
      have hpoly : IsPoly m (p.r - 1) (fun u => F' j (createAffineMap (up (v j)) u)) := by
        have := Poly.Represents.isPoly ((repOn_iff h2).1 h5).2.2
        rwa [h8] at this
      rw [hb, val_lagrange_values hpoly _ (fun μ _ => ?_), up_down (v j) h2]
      congr 2
      funext k
      simp [lpt])
    (fun j hj hs x => (hall j hj).2.2.2.2.2.2.2.2.2.2.2 hs x)
  exact ⟨s, F', q1, q2, q3, q4, q5, q6, q7, q8, by omega, q12, fun j hj => (hall j hj).2.2.2.2.2.2.2.2.1⟩

end

section
variable {m : ℕ} {Tr : Type}

/-- The dual Bernstein functions of a simplex applied to a polynomial in the Bernstein basis, one by one. -/
theorem bernstein_values {v : Vertices ℝ m m} (hd : 0 < edgeDet v) {d : SObj ℝ ℝ m} {f : (Fin m → ℝ) → ℝ} (hrep : RepresentsOn d v f)
    (hb : d.poly.basis = .bernstein) {r : ℕ} (hr : d.poly.r = r) (hf : Fits (2 * r) m) :
    ∃ (duals : List (DualArg ℝ m → Py ℝ)) (c : List ℕ → ℝ), dualBernsteinBasisSimplex r v = .ok duals ∧
      (∀ (k : ℕ) ν, (MI.mis m r)[k]? = some ν → ∃ g, getE duals k = .ok g ∧ g (.simplex d) = .ok (c ν)) ∧
      ∀ x, val .bernstein m r c (createAffineMap (down v) x) = f x := by
  subst hr
  obtain ⟨duals, e1, e2⟩ := C64_dual_bernstein_coefficients hd hrep hb hf
  obtain ⟨c, hc1, hc2, -⟩ := (((repOn_iff hd.ne').1 hrep).2.2).exists_mk
  have hcoeff : d.poly.coeff = tab m d.poly.r c := by rw [hc1]; rfl
  refine ⟨duals, c, e1, fun k ν hν => ?_, fun x => ?_⟩
  · rw [hcoeff] at e2
    obtain ⟨e3, e4⟩ := mapM_getElem e2
    have hk : (tab m d.poly.r c)[k]? = some (c ν) := by unfold tab; rw [List.getElem?_map, hν]; rfl
    have hkl : k < duals.length := by rw [← e3]; exact (List.getElem?_eq_some_iff.1 hk).1
    obtain ⟨b, hb1, hb2⟩ := e4 k duals[k] (List.getElem?_eq_getElem hkl)
    refine ⟨duals[k], getE_ok hkl, ?_⟩
    rw [hb2]
    exact congrArg Except.ok (Option.some.inj (hb1.symm.trans hk))
  · have := congrFun hc2 (createAffineMap (down v) x)
    rw [up_down v hd.ne', hb] at this
    exact this.symm

/-- **C66** The same for the Bernstein basis, for scalar valued functions on positively oriented simplices. -/
theorem C66_weak_derivative_bernstein {p : PObj ℝ ℝ m Tr} (h : WellFormed p) (hb : p.basis = .bernstein) (hc : p.cont = true) (hfull : Full p)
    (hpos : ∀ j v, cell p.triangles p.vertices j = .ok v → 0 < edgeDet v)
    {F : ℕ → (Fin m → ℝ) → ℝ} (hF : Denotes p F) (hf : Fits p.r m) (hf2 : Fits (2 * (p.r - 1)) m) (i : Fin m)
    {empty : ℕ → List ℝ} (hempty : ∀ n, (empty n).length = n) :
    ∃ s F', weakPartialDerivativeBernstein empty p i = .ok s ∧ WellFormed s ∧ s.basis = p.basis ∧ s.cont = false ∧ s.triangles = p.triangles ∧
      s.vertices = p.vertices ∧ s.boundary = p.boundary ∧ s.keepLast = p.keepLast ∧ s.r + 1 = p.r ∧ Denotes s F' ∧
      ∀ j, j < p.triangles.length → IsPartial i (F j) (F' j) := by
  obtain ⟨v, q, d, F', hall⟩ := weak_setup h hfull hF hf i
  have hr := (h.space.continuous hc).2
  have hdual : ∀ j, ∃ (duals : List (DualArg ℝ m → Py ℝ)) (c : List ℕ → ℝ), j < p.triangles.length →
      dualBernsteinBasisSimplex (p.r - 1) (v j) = .ok duals ∧
      (∀ (k : ℕ) ν, (MI.mis m (p.r - 1))[k]? = some ν → ∃ g, getE duals k = .ok g ∧ g (.simplex (d j)) = .ok (c ν)) ∧
      ∀ x, val .bernstein m (p.r - 1) c (createAffineMap (down (v j)) x) = F' j x := by
    intro j
    by_cases hj : j < p.triangles.length
    · obtain ⟨h1, h2, -, -, -, -, h4, h5, -, h7, h8, -⟩ := hall j hj
      obtain ⟨duals, c, e1, e2, e3⟩ := bernstein_values (hpos j _ h1) h5 (h7.trans hb) h8 hf2
      exact ⟨duals, c, fun _ => ⟨e1, e2, e3⟩⟩
    · exact ⟨[], fun _ => 0, fun h => absurd h hj⟩
  choose duals c hdual using hdual
  obtain ⟨s, q1, q2, q3, q4, q5, q6, q7, q8, q9, q10, q11, q12⟩ := weak_spec h hfull (hf.mono (by omega)) hempty
    (val' := fun j l _ => do
      let dual ← getE (duals j) l
      let d ← (q j).partialDerivative i
      dual (.simplex d))
    (step := fun M r coeff j => do
      let q ← p.restrictToSimplex j
      let v ← cell p.triangles p.vertices j
      let duals ← dualBernsteinBasisSimplex r v
      weakLoop M.tau j (fun l _ => do
        let dual ← getE duals l
        let d ← q.partialDerivative i
        dual (.simplex d)) (MI.generateAll m r) 0 coeff)
    (c := c)
    (fun M coeff j hj => by
      obtain ⟨h1, h2, h3, -⟩ := hall j hj
      simp only [h1, h3, Py.bind_ok, (hdual j hj).1])
    (fun j hj k ν hν => by
      obtain ⟨-, -, -, -, -, -, h4, -⟩ := hall j hj
      obtain ⟨g, g1, g2⟩ := (hdual j hj).2.1 k ν hν
      simp only [g1, h4, Py.bind_ok, g2])
    (F' := F')
    (fun j hj v' hv' hd x => by
      obtain ⟨h1, -⟩ := hall j hj
      obtain rfl : v j = v' := Except.ok.inj (h1.symm.trans hv')
      rw [hb]
      exact (hdual j hj).2.2 x)
    (fun j hj hs x => (hall j hj).2.2.2.2.2.2.2.2.2.2.2 hs x)
  exact ⟨s, F', q1, q2, q3, q4, q5, q6, q7, q8, by omega, q12, fun j hj => (hall j hj).2.2.2.2.2.2.2.2.1⟩

theorem vectorM_ok {n : ℕ} {f : Fin n → Py ℝ} {a : Fin n → ℝ} (h : ∀ k, f k = .ok (a k)) : vectorM f = .ok a := by
  unfold vectorM
  rw [mapM_eq_ok a _ (fun k _ => h k), Py.bind_ok, dif_pos (by simp)]
  congr 1
  funext k
  simp

/-- **C66** The same for the Bernstein basis and vector valued functions. -/
theorem C66_weak_derivative_bernstein_vector {n : ℕ} {p : PObj ℝ (Fin n → ℝ) m Tr} (h : WellFormed p) (hb : p.basis = .bernstein) (hc : p.cont = true)
    (hfull : Full p) (hpos : ∀ j v, cell p.triangles p.vertices j = .ok v → 0 < edgeDet v)
    {F : ℕ → (Fin m → ℝ) → (Fin n → ℝ)} (hF : Denotes p F) (hf : Fits p.r m) (hf2 : Fits (2 * (p.r - 1)) m) (i : Fin m)
    {empty : ℕ → List (Fin n → ℝ)} (hempty : ∀ n, (empty n).length = n) :
    ∃ s F', weakPartialDerivativeBernsteinVector empty p i = .ok s ∧ WellFormed s ∧ s.basis = p.basis ∧ s.cont = false ∧ s.triangles = p.triangles ∧
      s.vertices = p.vertices ∧ s.boundary = p.boundary ∧ s.keepLast = p.keepLast ∧ s.r + 1 = p.r ∧ Denotes s F' ∧
      ∀ j, j < p.triangles.length → IsPartial i (F j) (F' j) := by
  obtain ⟨v, q, d, F', hall⟩ := weak_setup h hfull hF hf i
  have hr := (h.space.continuous hc).2
  have hdual : ∀ j, ∃ (duals : List (DualArg ℝ m → Py ℝ)) (c : List ℕ → (Fin n → ℝ)), j < p.triangles.length →
      dualBernsteinBasisSimplex (p.r - 1) (v j) = .ok duals ∧
      (∀ (k : ℕ) ν, (MI.mis m (p.r - 1))[k]? = some ν → vectorM (fun a => do
        let dual ← getE duals k
        let c ← (q j).component a
        let d ← c.partialDerivative i
        dual (.simplex d)) = .ok (c ν)) ∧
      ∀ x, val .bernstein m (p.r - 1) c (createAffineMap (down (v j)) x) = F' j x := by
    intro j
    by_cases hj : j < p.triangles.length
    · obtain ⟨h1, h2, h3, h4, h5, h6, -, -, h9, -⟩ := hall j hj
      have hd := hpos j _ h1
      have hcomp : ∀ a : Fin n, ∃ (duals : List (DualArg ℝ m → Py ℝ)) (c : List ℕ → ℝ) (qa da : SObj ℝ ℝ m), (q j).component a = .ok qa ∧
          qa.partialDerivative i = .ok da ∧ dualBernsteinBasisSimplex (p.r - 1) (v j) = .ok duals ∧
          (∀ (k : ℕ) ν, (MI.mis m (p.r - 1))[k]? = some ν → ∃ g, getE duals k = .ok g ∧ g (.simplex da) = .ok (c ν)) ∧
          ∀ x, val .bernstein m (p.r - 1) c (createAffineMap (down (v j)) x) = F' j x a := by
        intro a
        obtain ⟨qa, a1, a2, a3, a4⟩ := component_repOn h4 a
        obtain ⟨da, f', b1, b2, b3, b4, b5⟩ := partialDerivative_repOn a2 i
        obtain ⟨duals, c, e1, e2, e3⟩ := bernstein_values hd b2 (by rw [b4, a3, h5, hb]) (r := p.r - 1) (by rw [b5, a4, h6]) hf2
        refine ⟨duals, c, qa, da, a1, b1, e1, e2, fun x => ?_⟩
        rw [e3]
        exact (b3 x).unique (hasDerivAt_pi.1 (h9 x) a)
      choose duals c qa da g1 g2 g3 g4 g5 using hcomp
      obtain ⟨e, -, -, w3⟩ := dualBasis_list (v j) hd (p.r - 1) (hf.mono (by omega))
      have hD : dualBernsteinBasisSimplex (p.r - 1) (v j) = .ok (tab m (p.r - 1) (fun μ =>
          dualBernsteinApplySimplex ⟨mkObj .bernstein m (p.r - 1) (fun ν => 1 / edgeDet (v j) * e μ ν), v j, down (v j)⟩ (p.r - 1) (v j))) := by
        unfold dualBernsteinBasisSimplex
        rw [MI.generateAll_eq_mis]
        exact mapM_eq_ok _ _ w3
      refine ⟨_, fun ν a => c a ν, fun _ => ⟨hD, fun k ν hν => ?_, fun x => ?_⟩⟩
      · refine vectorM_ok (fun a => ?_)
        obtain ⟨g, k1, k2⟩ := g4 a k ν hν
        have := Except.ok.inj (hD.symm.trans (g3 a))
        rw [this, k1, Py.bind_ok, g1, Py.bind_ok, g2, Py.bind_ok, k2]
      · funext a
        rw [← g5 a x]
        exact (val_component .bernstein m (p.r - 1) (fun ν a => c a ν) a _).symm
    · exact ⟨[], fun _ => 0, fun h => absurd h hj⟩
  choose duals c hdual using hdual
  obtain ⟨s, q1, q2, q3, q4, q5, q6, q7, q8, q9, q10, q11, q12⟩ := weak_spec h hfull (hf.mono (by omega)) hempty
    (val' := fun j l _ => vectorM (fun k => do
      let dual ← getE (duals j) l
      let c ← (q j).component k
      let d ← c.partialDerivative i
      dual (.simplex d)))
    (step := fun M r coeff j => do
      let q ← p.restrictToSimplex j
      let v ← cell p.triangles p.vertices j
      let duals ← dualBernsteinBasisSimplex r v
      weakLoop M.tau j (fun l _ => vectorM (fun k => do
        let dual ← getE duals l
        let c ← q.component k
        let d ← c.partialDerivative i
        dual (.simplex d))) (MI.generateAll m r) 0 coeff)
    (c := c)
    (fun M coeff j hj => by
      obtain ⟨h1, h2, h3, -⟩ := hall j hj
      simp only [h1, h3, Py.bind_ok, (hdual j hj).1])
    (fun j hj k ν hν => (hdual j hj).2.1 k ν hν)
    (F' := F')
    (fun j hj v' hv' hd x => by
      obtain ⟨h1, -⟩ := hall j hj
      obtain rfl : v j = v' := Except.ok.inj (h1.symm.trans hv')
      rw [hb]
      exact (hdual j hj).2.2 x)
    (fun j hj hs x => (hall j hj).2.2.2.2.2.2.2.2.2.2.2 hs x)
  exact ⟨s, F', q1, q2, q3, q4, q5, q6, q7, q8, by omega, q12, fun j hj => (hall j hj).2.2.2.2.2.2.2.2.1⟩

/-- **C66** For the Bernstein basis a first simplex with the wrong orientation is rejected. -/
theorem C66_orientation {p : PObj ℝ ℝ m Tr} (h : WellFormed p) (hfull : Full p) (hf : Fits p.r m) {v : Vertices ℝ m m}
    (hv : cell p.triangles p.vertices 0 = .ok v) (hneg : edgeDet v < 0) (i : ℕ) (empty : ℕ → List ℝ) :
    weakPartialDerivativeBernstein empty p i = .error .assertion := by
  have hj : 0 < p.triangles.length := List.length_pos_iff.2 h.space.mesh.ne
  obtain ⟨M, t, hg, hM, ht⟩ := h.data
  have hsp : IsSpace false p.triangles p.vertices (p.r - 1) p.boundary := ⟨h.space.mesh, h.space.cells, h.space.boundary, fun h => by cases h⟩
  obtain ⟨M', N', t', hg', ht'⟩ := genMap_spec hsp p.keepLast
  have hg' : discMap p.triangles (p.r - 1) p.boundary p.keepLast = .ok M' := hg'
  unfold weakPartialDerivativeBernstein weakDerivative
  obtain ⟨n, hn⟩ := Nat.exists_eq_succ_of_ne_zero hj.ne'
  have hduals : dualBernsteinBasisSimplex (p.r - 1) v = .error .assertion := by
    unfold dualBernsteinBasisSimplex
    obtain ⟨ν, l, hl⟩ := List.exists_cons_of_ne_nil (mis_ne_nil m (p.r - 1))
    rw [MI.generateAll_eq_mis, hl, List.mapM_cons,
      (C64_dual_bernstein_orientation v hneg.le (p.r - 1) (hf.mono (by omega)) ν (by rw [MI.generateAll_eq_mis, hl]; simp)).2]
    rfl
  simp only [hg', Py.bind_ok]
  rw [hn, List.range_succ_eq_map, List.foldlM_cons, restrict_eq h hfull hM ht hj hv hneg.ne hf]
  simp only [Py.bind_ok, hv, hduals, Py.bind_error]

end

section
variable {K V : Type} [NontriviallyNormedField K] [DecidableEq K] [CharZero K] [NormedAddCommGroup V] [DecidableEq V] [NormedSpace K V] {m : ℕ} {Tr : Type}

/-- **C66** A coordinate that does not exist is rejected. -/
theorem C66_coordinate {p : PObj K V m Tr} (h : WellFormed p) (hfull : Full p) (hf : Fits p.r m) {i : ℕ} (hi : m ≤ i) (empty : ℕ → List V) :
    weakPartialDerivativeLagrange empty p i = .error .assertion := by
  have hj : 0 < p.triangles.length := List.length_pos_iff.2 h.space.mesh.ne
  obtain ⟨M, t, hg, hM, ht⟩ := h.data
  obtain ⟨v, hv, hd⟩ := h.space.cells 0 hj
  have hsp : IsSpace false p.triangles p.vertices (p.r - 1) p.boundary := ⟨h.space.mesh, h.space.cells, h.space.boundary, fun h => by cases h⟩
  obtain ⟨M', N', t', hg', ht'⟩ := genMap_spec hsp p.keepLast
  have hg' : discMap p.triangles (p.r - 1) p.boundary p.keepLast = .ok M' := hg'
  unfold weakPartialDerivativeLagrange weakDerivative
  obtain ⟨n, hn⟩ := Nat.exists_eq_succ_of_ne_zero hj.ne'
  obtain ⟨ν, l, hl⟩ := List.exists_cons_of_ne_nil (mis_ne_nil m (p.r - 1))
  have hν : IsIndex m (p.r - 1) ν := (mem_mis_iff m _ ν).1 (by rw [hl]; simp)
  obtain ⟨k, hk, hk'⟩ := ht'.full hfull hj hν
  simp only [hg', Py.bind_ok]
  rw [hn, List.range_succ_eq_map, List.foldlM_cons, restrict_eq h hfull hM ht hj hv hd hf, MI.generateAll_eq_mis, hl]
  simp only [Py.bind_ok, hv, weakLoop, ht'.tau 0 hj ν, hk', lagrangePointSimplex_eq v _ ν hν.1 hν.2, C62_derivative_range _ i hi, Py.bind_error]
  rw [if_neg (by omega)]
  rfl

end

/-- **C66** A second defect in spaces with vanishing boundary values: the number of the dual function is not increased for a degree of freedom that is
left out, so that the first degree of freedom kept after `d` left out ones gets the value of the dual function of the first one left out (number `l`
instead of `l + d`). -/
theorem C66_dropped_counter {V : Type} (tau : Int → List Nat → Py Int) (j : Nat) (val : Nat → List Nat → Py V) (dropped : List (List Nat))
    (hd : ∀ mu ∈ dropped, tau j mu = .ok (-1)) (nu : List Nat) (k : Int) (hk : tau j nu = .ok k) (hk0 : 0 ≤ k) (l : Nat) (coeff : List V) :
    weakLoop tau j val (dropped ++ [nu]) l coeff = (do
      let c ← val l nu
      pySet coeff k c) := by
  induction dropped with
  | nil =>
    simp only [List.nil_append, weakLoop, hk, Py.bind_ok]
    rw [if_neg (by omega)]
    cases val l nu with
    | error e => rfl
    | ok c => cases h : pySet coeff k c <;> simp [h]
  | cons mu ds ih =>
    rw [List.cons_append, weakLoop, hd mu List.mem_cons_self]
    simp only [Py.bind_ok, if_true]
    exact ih fun x hx => hd x (List.mem_cons_of_mem _ hx)

/-- **C66** In a space with vanishing boundary values the weak derivative can be wrong: the derivative of `1 - x` on the unit interval, in the space of continuous functions
that vanish at the vertex 1, comes out as zero. -/
theorem C66_dropped_wrong : ∃ p : PObj ℚ ℚ 1 Unit,
    PObj.new (fun _ => .ok ()) .lagrange true [1] [[0, 1]] C48_interval 1 none (some [[1]]) false none none none = .ok p ∧ WellFormed p ∧
    Denotes p (fun _ x => 1 - x 0) ∧ ∀ empty : ℕ → List ℚ, (∀ n, (empty n).length = n) →
      ∃ s, weakPartialDerivativeLagrange empty p 0 = .ok s ∧ ∀ x, s.evaluateOnSimplex 0 x = .ok 0 := by
  obtain ⟨p, hnew, h, hb, hc, hco, htr, hve, hbo, hk, hr, hs, hF⟩ := interval_object
  obtain ⟨M1, t, hg, hM1, ht⟩ := h.data
  obtain ⟨M0, hM0, hn0, h00⟩ : ∃ M, discMap [[0, 1]] 0 (some [[1]]) false = .ok M ∧ M.numDofs = 1 ∧ M.tau 0 [0] = .ok 0 := ⟨_, rfl, rfl, rfl⟩
  have hcell : cell p.triangles p.vertices 0 = .ok (fun i _ => (i : ℕ)) := by rw [htr, hve]; exact interval_cell
  refine ⟨p, hnew, h, hF, fun empty hempty => ?_⟩
  have hrd : ∀ ν, IsIndex 1 1 ν → rd p.coeff t 0 ν = (1 : ℚ) := by
    intro ν hν
    unfold rd
    rw [hco]
    rcases ht.range 0 (by rw [htr]; simp) ν (by rw [hr]; exact hν) with h1 | ⟨i, hi, h1⟩
    · rw [if_pos h1]
      rfl
    · rw [hco] at hi
      obtain rfl : i = 0 := by simpa using hi
      rw [h1]
      rfl
  have hfit : Fits p.r 1 := by rw [hr]; exact Or.inr (by norm_num)
  have hrestr := restrict_rd h hM1 ht (j := 0) (by rw [hs]; simp) hcell interval_det hfit
  rw [hb, hr] at hrestr
  have hrep : RepresentsOn (⟨mkObj .lagrange 1 1 (rd p.coeff t 0), fun i _ => ((i : ℕ) : ℚ), down (fun i _ => ((i : ℕ) : ℚ))⟩ : SObj ℚ ℚ 1) (fun i _ => ((i : ℕ) : ℚ) : Vertices ℚ 1 1) (fun _ => (1 : ℚ)) := by
    have h1 := repOn_mk interval_det (rep_mk (K := ℚ) .lagrange 1 1 (rd p.coeff t 0) (Or.inr (by norm_num)))
    have h2 : (fun x => val .lagrange 1 1 (rd p.coeff t 0) (createAffineMap (down (fun (i : Fin 2) (_ : Fin 1) => ((i : ℕ) : ℚ))) x)) = fun _ => (1 : ℚ) := by
      funext x
      rw [val_congr hrd, val_lagrange_one]
    rwa [h2] at h1
  obtain ⟨d, f', d1, d2, d3, -, -⟩ := partialDerivative_repOn hrep 0
  have hf' : ∀ x, f' x = 0 := fun x => (d3 x).unique (hasDerivAt_const _ _)
  have hsp : IsSpace false [[0, 1]] C48_interval 0 (some [[1]]) :=
    ⟨⟨by simp, by simp⟩, (interval_space 1 (by norm_num) _ interval_boundary).cells, interval_boundary, fun h => by cases h⟩
  obtain ⟨M', N, t0, hM', ht0⟩ := genMap_spec hsp false
  obtain rfl : M0 = M' := Except.ok.inj (hM0.symm.trans hM')
  obtain rfl : N = [(0 : ℚ)].length := by
    have := ht0.num
    simp only [List.length_cons, List.length_nil]
    omega
  obtain ⟨q, q1, q2, q3, q4, q5, q6, q7, q8, q9, q10, q11, q12, q13⟩ := new_given (Tr := Unit) (b := .lagrange) (by simp) hsp hM' ht0 (by simp)
    (support := p.support) (by rw [hs]; simp) (fun j hj hj' => absurd (by rw [hs]; simpa using hj) hj') (fun _ => .ok p.tree) p.tree (Or.inr (Or.inr (by norm_num)))
  refine ⟨q, ?_, fun x => ?_⟩
  · obtain ⟨a, ha⟩ : ∃ a, empty 1 = [a] := List.length_eq_one_iff.1 (hempty 1)
    unfold weakPartialDerivativeLagrange weakDerivative
    simp only [hr, htr, hve, hbo, hk, hb]
    rw [show 1 - 1 = 0 from rfl, hM0, Py.bind_ok, hn0, show (1 : ℤ).toNat = 1 from rfl, ha, show List.range [[0, 1]].length = [0] from rfl, List.foldlM_cons,
      show MI.generateAll 1 0 = [[0]] from rfl]
    have hpt := lagrangePointSimplex_eq (fun i _ => ((i : ℕ) : ℚ) : Vertices ℚ 1 1) 0 [0] rfl (by simp)
    have d1' : (⟨mkObj .lagrange 1 1 (rd p.coeff t 0), fun i _ => ((i : ℕ) : ℚ), down (fun i _ => ((i : ℕ) : ℚ))⟩ : SObj ℚ ℚ 1).partialDerivative 0 = .ok d := d1
    simp only [hrestr, interval_cell, Py.bind_ok, weakLoop, Nat.cast_zero, h00, hpt, d1', d2.value, hf']
    rw [if_neg (by norm_num), show pySet [a] 0 0 = .ok [(0 : ℚ)] from rfl]
    simp only [Py.bind_ok, List.foldlM_nil, Py.pure_eq]
    exact q1
  · rw [eval_eq q2 q6 (t := t0) (by rw [q4, q11, q7, q9, q10, q5]; exact ht0) (by rw [q7]; simp) (by rw [q7, q8]; exact interval_cell), interval_down, q3, q11, q5,
      val_congr (d := fun _ => (0 : ℚ)), val_zero]
    intro ν hν
    unfold loc
    rcases ht0.range 0 (by simp) ν hν with h1 | ⟨i, hi, h1⟩
    · rw [if_pos h1]
    · obtain rfl : i = 0 := by simpa using hi
      rw [h1]
      rfl

/-! ## Examples -/

/-- C66 applies to a piecewise quadratic function on the square in the Bernstein basis. -/
example : ∃ (p s : PObj ℝ ℝ 2 Unit) (F F' : ℕ → (Fin 2 → ℝ) → ℝ), p.coeff = [1, 2, 3, 4, 5, 6, 7, 8, 9] ∧ Denotes p F ∧
    weakPartialDerivativeBernstein (fun n => List.replicate n 7) p 1 = .ok s ∧ s.r = 1 ∧ Denotes s F' ∧ ∀ j, j < 2 → IsPartial 1 (F j) (F' j) := by
  obtain ⟨M, hM, hn⟩ : ∃ M, genMap true squareTriangles 2 none false = .ok M ∧ M.numDofs = 9 := ⟨_, rfl, rfl⟩
  obtain ⟨p, hnew, q1, q2, q3, q4, q5, q6, q7, q8, q9, q10, q11⟩ := C48_construct (K := ℝ) (V := ℝ) (m := 2) (Tr := Unit) (b := .bernstein) (by simp)
    (squareReal_space true 2 (by norm_num) none (by simp [AreSimplices])) (Or.inr (by norm_num)) hM (coeff := [1, 2, 3, 4, 5, 6, 7, 8, 9]) hn (by simp)
    (tau := none) (Or.inl ⟨rfl, Or.inl rfl⟩) (mkTree := fun _ => .ok ()) (fun _ _ => ⟨_, rfl⟩)
  obtain ⟨F, hF⟩ := q1.denotes
  obtain ⟨s, F', h1, -, -, -, -, -, -, -, h2, h3, h4⟩ := C66_weak_derivative_bernstein q1 q2 q3 (Or.inr (by rw [q7]; rfl)) (by rw [q5, q6]; exact squareReal_pos) hF
    (Or.inr (by rw [q9]; norm_num)) (Or.inr (by rw [q9]; norm_num)) 1 (empty := fun n => List.replicate n 7) (by simp)
  exact ⟨p, s, F, F', q4, hF, h1, by omega, h3, fun j hj => h4 j (by rw [q5]; exact hj)⟩

/-- C66 applies to `x` on the interval, with the boundary vertex numbered last: the derivative is one. -/
example : ∃ (p s : PObj ℚ ℚ 1 Unit) (F' : ℕ → (Fin 1 → ℚ) → ℚ), Denotes p (fun _ x => x 0) ∧
    weakPartialDerivativeLagrange (fun n => List.replicate n 7) p 0 = .ok s ∧ Denotes s F' ∧ IsPartial 0 (fun x => x 0) (F' 0) := by
  obtain ⟨p, h1, h2, h3, h4, h5, h6, h7, h8, h9, h10, h11, h12⟩ := interval_object_last
  obtain ⟨s, F', e1, -, -, -, -, -, -, -, -, e3, e4⟩ := C66_weak_derivative_lagrange h2 h3 h4 (Or.inl h9) h12 (Or.inr (by rw [h10]; norm_num)) 0
    (empty := fun n => List.replicate n 7) (by simp)
  exact ⟨p, s, F', h12, e1, e3, e4 0 (by rw [h6]; simp)⟩

end Verif.Props
