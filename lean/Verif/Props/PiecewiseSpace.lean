import Verif.Lemmas.PiecewiseSpace
import Verif.Props.MeshFunctions
import Mathlib.LinearAlgebra.Dimension.Finrank
/-!
# C87: the spaces of piecewise polynomials are complete

`IsPiecewisePolynomial`, `IsPiecewiseOn` and `zeroOn` are defined in `Verif/Spec/PiecewiseSpace.lean`.
-/

namespace Verif.Props
open Verif Verif.Poly Verif.Simplex Verif.SPoly Verif.L2G Verif.PP Verif.Spec

section Space
variable {K W : Type} [Field K] [LinearOrder K] [IsStrictOrderedRing K] [AddCommGroup W] [DecidableEq W] [Module K W] {m r : Nat} {Tr : Type}
  {cont keepLast : Bool} {triangles : List (List ℕ)} {vertices : List (Fin m → K)} {boundary : Option (List (List ℕ))}

/-- **C87** The values of a piecewise polynomial are a polynomial of the degree of the space on each simplex. If the function is continuous they agree on the common
faces, and if the degrees of freedom on the boundary are left out they are zero on the boundary simplices. -/
theorem C87_sound {p : PObj K W m Tr} (h : WellFormed p) {F : ℕ → (Fin m → K) → W} (hF : Denotes p F) (hr : p.r ≠ 0 ∨ zeroOn p.keepLast p.boundary = []) :
    IsPiecewisePolynomial p.cont p.triangles p.vertices p.r (zeroOn p.keepLast p.boundary) F := by
  obtain ⟨M, t, hg, hM, ht⟩ := h.data
  exact val_isPiecewise h.space ht hr h.basis p.coeff fun j hj v hv x => denotes_val h hF hM ht hj hv x

/-- **C87** Each function that is a polynomial of the degree of the space on each simplex (continuous, zero on the boundary) is the function of exactly one list of
coefficients, in the Bernstein basis as well as in the Lagrange basis. -/
theorem C87_complete {b : Basis} (hb : b ≠ .monomial) (hsp : IsSpace cont triangles vertices r boundary) (hf : Fits r m) (hr : r ≠ 0 ∨ zeroOn keepLast boundary = [])
    {mkTree : List ℕ → Py Tr} (htree : ∀ S : List ℕ, (∀ j ∈ S, j < triangles.length) → ∃ T, mkTree S = .ok T) {F : ℕ → (Fin m → K) → W}
    (hF : IsPiecewisePolynomial cont triangles vertices r (zeroOn keepLast boundary) F) :
    ∃ (M : L2G.Map) (N : ℕ), genMap cont triangles r boundary keepLast = .ok M ∧ M.numDofs = N ∧
      (N ≠ 0 → ∃! coeff : List W, coeff.length = N ∧
        ∃ p : PObj K W m Tr, PObj.new mkTree b cont coeff triangles vertices r (some M.tau) boundary keepLast none none none = .ok p ∧ Denotes p F) ∧
      (N = 0 → ∀ j, j < triangles.length → ∀ x, F j x = 0) := by
  obtain ⟨M, N, t, hM, ht⟩ := genMap_spec hsp keepLast
  have hval : ∀ coeff : List W, coeff.length = N → coeff ≠ [] → ∃ p : PObj K W m Tr,
      PObj.new mkTree b cont coeff triangles vertices r (some M.tau) boundary keepLast none none none = .ok p ∧ p.triangles = triangles ∧
      ∀ j, j < triangles.length → ∀ v, cell triangles vertices j = .ok v → ∀ x,
        p.evaluateOnSimplex j x = .ok (val b m r (loc coeff t j) (createAffineMap (down v) x)) := by
    rintro coeff rfl hne
    obtain ⟨p, h1, h2, h3, h4, h5, h6, h7, h8, h9, h10, h11, -⟩ := C48_construct hb hsp hf hM (coeff := coeff) ht.num hne (tau := some M.tau) (Or.inr rfl) htree
    refine ⟨p, h1, h6, fun j hj v hv x => ?_⟩
    rw [eval_eq h2 h11 (t := t) (by rw [h4, h10, h6, h8, h9, h5]; exact ht) (by rw [h6]; exact hj) (by rw [h6, h7]; exact hv), h3, h10, h5]
  obtain ⟨c, hc, hcF⟩ := complete hsp ht hr hb hF
  refine ⟨M, N, hM, ht.num, fun hN => ?_, fun hN j hj x => ?_⟩
  · obtain ⟨p, h1, h2, h3⟩ := hval c hc (by rintro rfl; exact hN hc.symm)
    refine ⟨c, ⟨hc, p, h1, fun j hj x => ?_⟩, ?_⟩
    · rw [h2] at hj
      obtain ⟨v, hv, -⟩ := hsp.cells j hj
      rw [h3 j hj v hv, hcF j hj v hv]
    · rintro c' ⟨hc', q, g1, g2⟩
      obtain ⟨q', g3, g4, g5⟩ := hval c' hc' (by rintro rfl; exact hN hc'.symm)
      obtain rfl : q = q' := Except.ok.inj (g1.symm.trans g3)
      refine coeff_unique (K := K) ht (b := b) hc' hc fun j hj y => ?_
      obtain ⟨v, hv, hd⟩ := hsp.cells j hj
      have e1 := Except.ok.inj ((g5 j hj v hv (createAffineMap (up v) y)).symm.trans (g2 j (by rw [g4]; exact hj) _))
      have e2 := hcF j hj v hv (createAffineMap (up v) y)
      rw [down_up v hd] at e1 e2
      rw [e1, e2]
  · obtain ⟨v, hv, -⟩ := hsp.cells j hj
    rw [← hcF j hj v hv x]
    obtain rfl : c = [] := List.length_eq_zero_iff.1 (hc.trans hN)
    refine (val_congr (d := fun _ => 0) (fun ν hν => ?_) _).trans (by simp [val])
    rcases ht.range j hj ν hν with h | ⟨i, hi, -⟩
    · unfold loc; rw [if_pos h]
    · omega

theorem commonFace_inCell (hsp : IsSpace cont triangles vertices r boundary) {j : ℕ} (hj : j < triangles.length) {s : List ℕ} {x : Fin m → K}
    (hx : InCommonFace vertices triangles[j] s x) : InCell triangles vertices j x := by
  classical
  obtain ⟨v, hv, hd⟩ := hsp.cells j hj
  have hT := hsp.mesh.simplex _ (List.getElem_mem hj)
  obtain ⟨w, hw0, hw1, hw2⟩ := hx
  set I := triangles[j].toFinset ∩ s.toFinset with hI
  set w' : ℕ → K := fun i => if i ∈ I then w i else 0 with hw'
  have hA : I ⊆ triangles[j].toFinset := Finset.inter_subset_left
  have e1 : ∑ i ∈ triangles[j].toFinset, w' i = 1 := by
    rw [← hw1, ← Finset.sum_subset hA (fun i _ hi => by simp [hw', hi])]
    exact Finset.sum_congr rfl (fun i hi => by simp [hw', hi])
  have e2 : x = ∑ i ∈ triangles[j].toFinset, w' i • vertices.getD i 0 := by
    rw [hw2, ← Finset.sum_subset hA (fun i _ hi => by simp [hw', hi])]
    exact Finset.sum_congr rfl (fun i hi => by simp [hw', hi])
  have e3 := face_weights hj hv hd hT.2 e1 e2
  have h0 : ∀ a ∈ (1 - ∑ i, createAffineMap (down v) x i) :: List.ofFn (createAffineMap (down v) x), 0 ≤ a := by
    rw [← e3]
    intro a ha
    obtain ⟨u, -, rfl⟩ := List.mem_map.1 ha
    simp only [hw']
    split
    · exact hw0 u
    · exact le_rfl
  have h1 := up_bary v (createAffineMap (down v) x)
  rw [up_down v hd] at h1
  refine ⟨v, hv, _, fun i => ?_, h1⟩
  refine Fin.cases ?_ (fun i => ?_) i
  · exact h0 _ (by simp)
  · rw [Fin.cons_succ]
    exact h0 _ (List.mem_cons_of_mem _ (List.mem_ofFn.2 ⟨i, rfl⟩))

/-- Coefficients of functions with the same values on the simplices. -/
theorem coeff_unique_cells (hsp : IsSpace cont triangles vertices r boundary) {M : L2G.Map} {N : ℕ} {t : ℕ → List ℕ → ℤ}
    (ht : TauSpec cont m r triangles boundary keepLast M N t) {b : Basis} {c d : List W} (hc : c.length = N) (hd : d.length = N)
    (h : ∀ j, j < triangles.length → ∀ v, cell triangles vertices j = .ok v → ∀ x, InCell triangles vertices j x →
      val b m r (loc c t j) (createAffineMap (down v) x) = val b m r (loc d t j) (createAffineMap (down v) x)) : c = d := by
  refine coeff_unique (K := K) ht (b := b) hc hd fun j hj y => ?_
  obtain ⟨v, hv, hdet⟩ := hsp.cells j hj
  rw [← val_lagrange_values (val_isPoly b m r (loc c t j)) (fun ν => val b m r (loc c t j) (lpt K r fun i => ν.getD i 0)) (fun μ _ => by
      congr 2; funext i; simp) y,
    ← val_lagrange_values (val_isPoly b m r (loc d t j)) (fun ν => val b m r (loc d t j) (lpt K r fun i => ν.getD i 0)) (fun μ _ => by
      congr 2; funext i; simp) y]
  refine val_congr (fun ν hν => ?_) _
  obtain ⟨μ, hμ, rfl⟩ := isIndex_iff.1 hν
  have h1 := h j hj v hv (createAffineMap (up v) (lpt K r μ)) ⟨v, hv, _, ?_, up_bary v _⟩
  · rw [down_up v hdet] at h1
    have : (fun i : Fin m => (List.ofFn μ).getD i 0) = μ := by funext i; simp
    simp only [this]
    exact h1
  · have h2 : ∑ i, lpt K r μ i ≤ 1 := by
      unfold lpt
      rw [← Finset.sum_div]
      refine div_le_one_of_le₀ ?_ (by positivity)
      exact_mod_cast mem_S.1 hμ
    intro i
    refine Fin.cases ?_ (fun i => ?_) i
    · rw [Fin.cons_zero]; linarith
    · rw [Fin.cons_succ]; unfold lpt; positivity

/-- **C87** Interpolation: applying the dual Lagrange basis functions to any function `g` gives coefficients whose function has the values of `g` at the Lagrange points
of the degrees of freedom. If `g` is a function of the space, it is this function. -/
theorem C87_interpolate (hsp : IsSpace cont triangles vertices r boundary) (hf : Fits r m) (hr : r ≠ 0 ∨ zeroOn keepLast boundary = [])
    {pick : List (Int × List ℕ) → Option (Int × List ℕ)} (hpick : AnyElement pick)
    {mkTree : List ℕ → Py Tr} (htree : ∀ S : List ℕ, (∀ j ∈ S, j < triangles.length) → ∃ T, mkTree S = .ok T) (g : (Fin m → K) → W) :
    ∃ (M : L2G.Map) (N : ℕ) (duals : List (PArg K W m Tr → Py W)) (coeff : List W), genMap cont triangles r boundary keepLast = .ok M ∧ M.numDofs = N ∧
      dualLagrangeBasis W Tr pick cont triangles vertices r boundary keepLast = .ok duals ∧
      duals.mapM (fun d => d (.other fun x => .ok (g x))) = .ok coeff ∧ coeff.length = N ∧
      (N ≠ 0 → ∃ p : PObj K W m Tr, PObj.new mkTree .lagrange cont coeff triangles vertices r (some M.tau) boundary keepLast none none none = .ok p ∧
        (∀ j ν v x w, IsIndex m r ν → cell triangles vertices j = .ok v → IsBarycentric v x w → (∀ k : Fin m, w k.succ = ((ν.getD k 0 : ℕ) : K) / (r : K)) →
          ∀ i : ℕ, M.tau j ν = .ok (i : ℤ) → p.evaluateOnSimplex j x = .ok (g x)) ∧
        ∀ F, IsPiecewisePolynomial cont triangles vertices r (zeroOn keepLast boundary) F → (∀ j x, InCell triangles vertices j x → F j x = g x) → Denotes p F) := by
  obtain ⟨M, N, t, hM, ht⟩ := genMap_spec hsp keepLast
  obtain ⟨M', N', duals, h1, h2, h3, h4, h5⟩ := C65_dual_lagrange (V := W) (Tr := Tr) (keepLast := keepLast) hsp hpick
  obtain rfl : M = M' := Except.ok.inj (hM.symm.trans h1)
  obtain rfl : N = N' := by have := ht.num; omega
  have h6 := fun i : Fin N => h5 i duals[(i : ℕ)] (by rw [List.getElem?_eq_getElem (by omega)])
  choose J ν v x w hJ hν hτ hv hx hw _ hd using h6
  have hlpt : ∀ {j ν v x w}, IsIndex m r ν → cell triangles vertices j = .ok v → IsBarycentric v x w → (∀ k : Fin m, w k.succ = ((ν.getD k 0 : ℕ) : K) / (r : K)) →
      ∃ μ ∈ S m r, ν = List.ofFn μ ∧ createAffineMap (down v) x = lpt K r μ ∧ x = nodeAt v r μ ∧ InCell triangles vertices j x := by
    intro j ν v x w hν hv hx hw
    obtain ⟨μ, hμ, rfl⟩ := isIndex_iff.1 hν
    have hj := cell_lt hv
    obtain ⟨v', hv', hdet⟩ := hsp.cells j hj
    obtain rfl : v' = v := Except.ok.inj (hv'.symm.trans hv)
    have e : createAffineMap (down v') x = lpt K r μ := by
      rw [down_bary v' hdet hx]
      funext i
      rw [hw i]
      simp [lpt]
    refine ⟨μ, hμ, rfl, e, ?_, v', hv, w, fun i => ?_, hx⟩
    · unfold nodeAt
      rw [← e, up_down v' hdet]
    · have hs : ∑ i, lpt K r μ i ≤ 1 := by
        unfold lpt
        rw [← Finset.sum_div]
        refine div_le_one_of_le₀ ?_ (by positivity)
        exact_mod_cast mem_S.1 hμ
      have h0 : w 0 = 1 - ∑ i, lpt K r μ i := by
        have := hx.1
        rw [Fin.sum_univ_succ] at this
        rw [← this, ← e, down_bary v' hdet hx]
        ring
      refine Fin.cases ?_ (fun i => ?_) i
      · rw [h0]; linarith
      · rw [hw i]; positivity
  refine ⟨M, N, duals, List.ofFn fun i => g (x i), hM, ht.num, h3, mapM_of_getElem (by simp [h4]) (fun i d c h7 h8 => ?_), by simp, fun hN => ?_⟩
  · obtain ⟨hi, rfl⟩ := List.getElem?_eq_some_iff.1 h7
    rw [List.getElem?_ofFn] at h8
    rw [dif_pos (by omega)] at h8
    rw [hd ⟨i, by omega⟩, Option.some.inj h8]
  · have hne : (List.ofFn fun i => g (x i)) ≠ [] := by
      intro h
      have := congrArg List.length h
      simp at this
      exact hN this
    obtain ⟨p, q1, q2, q3, q4, q5, q6, q7, q8, q9, q10, q11, -⟩ := C48_construct (b := .lagrange) (by decide) hsp hf hM (coeff := List.ofFn fun i => g (x i))
      (by simpa using ht.num) hne (tau := some M.tau) (Or.inr rfl) htree
    have heval : ∀ j v y, cell triangles vertices j = .ok v →
        p.evaluateOnSimplex j y = .ok (val .lagrange m r (loc (List.ofFn fun i => g (x i)) t j) (createAffineMap (down v) y)) := by
      intro j v y hv
      have hj := cell_lt hv
      rw [eval_eq q2 q11 (t := t) (by rw [q4, q10, q6, q8, q9, q5]; simpa using ht) (by rw [q6]; exact hj) (by rw [q6, q7]; exact hv), q3, q10, q5]
    refine ⟨p, q1, fun j ν' v' y w' hν' hv' hy hw' i hi => ?_, fun F hF hFg => ?_⟩
    · have hj := cell_lt hv'
      rw [ht.tau j hj] at hi
      have hi := Except.ok.inj hi
      obtain ⟨μ', hμ', rfl, e1, e2, -⟩ := hlpt hν' hv' hy hw'
      have hiN : i < N := by
        rcases ht.range j hj _ hν' with h | ⟨k, hk, h⟩ <;> omega
      rw [heval j v' y hv', e1, val_lpt _ hμ', loc_of_tau hi (by simpa using hiN), List.getElem_ofFn]
      obtain ⟨μ, hμ, e3, -, e4, -⟩ := hlpt (hν ⟨i, hiN⟩) (hv ⟨i, hiN⟩) (hx ⟨i, hiN⟩) (hw ⟨i, hiN⟩)
      have h7 := Except.ok.inj ((ht.tau _ (hJ ⟨i, hiN⟩) _).symm.trans (hτ ⟨i, hiN⟩))
      have h8 := ht.inj j hj _ hν' _ (hJ ⟨i, hiN⟩) _ (hν ⟨i, hiN⟩) (hi.trans h7.symm) (by omega)
      obtain ⟨v₁, hv₁, hd₁⟩ := hsp.cells j hj
      obtain rfl : v₁ = v' := Except.ok.inj (hv₁.symm.trans hv')
      obtain ⟨v₂, hv₂, hd₂⟩ := hsp.cells _ (hJ ⟨i, hiN⟩)
      obtain rfl : v₂ = v ⟨i, hiN⟩ := Except.ok.inj (hv₂.symm.trans (hv ⟨i, hiN⟩))
      suffices x ⟨i, hiN⟩ = y by rw [this]
      unfold SameDof at h8
      cases cont with
      | true =>
        obtain ⟨-, hr'⟩ := hsp.continuous rfl
        rw [if_pos rfl, getD_triangles hj, getD_triangles (hJ ⟨i, hiN⟩), e3] at h8
        rw [e2, e4, (node_common hsp hr' hj (hJ ⟨i, hiN⟩) hv' hd₁ hv₂ hd₂ hμ' hμ h8).1]
      | false =>
        simp only [Bool.false_eq_true, if_false] at h8
        obtain ⟨h9, h10⟩ := h8
        rw [e3] at h10
        rw [e2, e4, List.ofFn_injective h10]
        congr 1
        rw [← h9] at hv₂
        exact Except.ok.inj (hv₂.symm.trans hv')
    · obtain ⟨c, hc, hcF⟩ := complete hsp ht hr (b := .lagrange) (by decide) hF
      have hcc : c = List.ofFn fun i => g (x i) := by
        refine List.ext_getElem (by simpa using hc) fun i h7 h8 => ?_
        have hiN : i < N := by omega
        obtain ⟨μ, hμ, e3, e4, -, e6⟩ := hlpt (hν ⟨i, hiN⟩) (hv ⟨i, hiN⟩) (hx ⟨i, hiN⟩) (hw ⟨i, hiN⟩)
        have h9 := Except.ok.inj ((ht.tau _ (hJ ⟨i, hiN⟩) _).symm.trans (hτ ⟨i, hiN⟩))
        have h10 := hcF _ (hJ ⟨i, hiN⟩) _ (hv ⟨i, hiN⟩) (x ⟨i, hiN⟩)
        rw [e4, val_lpt _ hμ, ← e3, loc_of_tau h9 (by omega), hFg _ _ e6] at h10
        rw [h10, List.getElem_ofFn]
      intro j hj y
      rw [q6] at hj
      obtain ⟨v', hv', -⟩ := hsp.cells j hj
      rw [heval j v' y hv', ← hcc, hcF j hj v' hv']

end Space

/-! ## Functions on a domain -/

section Domain
open PointCloud
variable [Sub (Kd.Ext ℝ)] [Mul (Kd.Ext ℝ)] [One (Kd.Ext ℝ)] {k r : Nat} {W : Type} [AddCommGroup W] [DecidableEq W] [Module ℝ W]

omit [Sub (Kd.Ext ℝ)] [Mul (Kd.Ext ℝ)] [One (Kd.Ext ℝ)] [DecidableEq W] in
theorem piecewise_of {m : ℕ} {T : List (List ℕ)} {V : List (Fin m → ℝ)} {D : Set (Fin m → ℝ)} (h : MeshOf T V D) (hr : r ≠ 0) {bs : List (List ℕ)} {f : (Fin m → ℝ) → W}
    (hf : IsPiecewiseOn T V D r bs f) : ∃ F, IsPiecewisePolynomial true T V r bs F ∧ ∀ j x, InCell T V j x → F j x = f x := by
  have hsp := h.space (r := r) true hr (boundary := none) (by simp [AreSimplices])
  choose g hg hgf using fun j : Fin T.length => hf.polynomial j j.2
  have hF : ∀ j (hj : j < T.length) x, InCell T V j x → (if hj : j < T.length then g ⟨j, hj⟩ x else 0) = f x := by
    intro j hj x hx
    rw [dif_pos hj, hgf ⟨j, hj⟩ x hx]
  have hcomm : ∀ {A B : List ℕ} {x}, InCommonFace V A B x → InCommonFace V B A x := by
    rintro A B x hx
    unfold InCommonFace at hx ⊢
    rwa [Finset.inter_comm]
  refine ⟨fun j x => if hj : j < T.length then g ⟨j, hj⟩ x else 0, ⟨fun j hj => ?_, fun _ j j' hj hj' x hx => ?_, fun j hj b hb x hx => ?_⟩, fun j x hx => ?_⟩
  · have := hg ⟨j, hj⟩
    simp only [hj, dif_pos]
    exact this
  · rw [hF j hj x (commonFace_inCell hsp hj hx), hF j' hj' x (commonFace_inCell hsp hj' (hcomm hx))]
  · rw [hF j hj x (commonFace_inCell hsp hj hx), hf.zero j hj b hb x hx]
  · obtain ⟨v, hv, -⟩ := id hx
    exact hF j (cell_lt hv) x hx

theorem callAt_val {eigh : Eigh (k + 1)} (he : IsEigh eigh) {b : Basis} (hb : b ≠ .monomial) {T : List (List ℕ)} {V : List (Fin (k + 1) → ℝ)}
    {D : Set (Fin (k + 1) → ℝ)} (h : MeshOf T V D) (hr : r ≠ 0) (hf : Fits r (k + 1)) {boundary : Option (List (List ℕ))}
    (hbd : AreSimplices (boundary.getD [])) {keepLast : Bool} {M : L2G.Map} {N : ℕ} {t : ℕ → List ℕ → ℤ} (hM : genMap true T r boundary keepLast = .ok M)
    (ht : TauSpec true (k + 1) r T boundary keepLast M N t) {coeff : List W} (hN : coeff.length = N) (hc : coeff ≠ []) :
    ∃ p : PObj ℝ W (k + 1) (Kd.MeshTree ℝ), PObj.new (buildTree (splitPlane eigh (meshOf T V)) T V) b true coeff T V r none boundary keepLast none none none = .ok p ∧
      (∀ j v x, cell T V j = .ok v → InCell T V j x → p.callAt x = .ok (val b (k + 1) r (loc coeff t j) (createAffineMap (down v) x))) ∧
      ∀ x, x ∉ D → p.callAt x = .ok 0 := by
  subst hN
  have hsp := h.space (r := r) true hr hbd
  obtain ⟨p, h1, h2, h3, h4, h5, h6, h7, h8, h9, h10, h11, h12⟩ := C48_construct hb hsp hf hM (coeff := coeff) ht.num hc (tau := none) (Or.inl ⟨rfl, Or.inl rfl⟩)
    (buildTree_ok he hsp)
  have hcov := C81_new h1 h2
  have hpos : PositivelyOriented p.triangles p.vertices := by rw [h6, h7]; exact h.oriented
  refine ⟨p, h1, fun j v x hv hx => ?_, fun x hx => ?_⟩
  · obtain ⟨F, hF⟩ := h2.denotes
    have hs : SingleValued p x := Or.inl ⟨h4, by rw [h6, h7]; exact h.conforming⟩
    rw [C81_call h2 ⟨_, hcov⟩ hpos hF hs (j := j) (by rw [h6, h7]; exact hx), ← hF j (by rw [h6]; exact cell_lt hv) x,
      eval_eq h2 h11 (t := t) (by rw [h4, h10, h6, h8, h9, h5]; exact ht) (by rw [h6]; exact cell_lt hv) (by rw [h6, h7]; exact hv), h3, h10, h5]
  · exact C81_outside h2 ⟨_, hcov⟩ hpos (by rw [h6, h7]; exact fun j hj => hx ((h.points x).1 ⟨j, hj⟩))

/-- **C87** The continuous space on a mesh of a domain: the functions that are returned by calling its objects are exactly the functions on the domain that are a
polynomial of degree at most `r` on each simplex (and zero on the boundary simplices), and the coefficients of such a function are unique. -/
theorem C87_mesh {eigh : Eigh (k + 1)} (he : IsEigh eigh) {b : Basis} (hb : b ≠ .monomial) {T : List (List ℕ)} {V : List (Fin (k + 1) → ℝ)}
    {D : Set (Fin (k + 1) → ℝ)} (h : MeshOf T V D) (hr : r ≠ 0) (hf : Fits r (k + 1)) {boundary : Option (List (List ℕ))}
    (hbd : AreSimplices (boundary.getD [])) (keepLast : Bool) :
    ∃ (M : L2G.Map) (N : ℕ), genMap true T r boundary keepLast = .ok M ∧ M.numDofs = N ∧ (N ≠ 0 → ∀ f : (Fin (k + 1) → ℝ) → W,
      (IsPiecewiseOn T V D r (zeroOn keepLast boundary) f ↔ ∃ coeff : List W, coeff.length = N ∧ ∃ p : PObj ℝ W (k + 1) (Kd.MeshTree ℝ),
        PObj.new (buildTree (splitPlane eigh (meshOf T V)) T V) b true coeff T V r none boundary keepLast none none none = .ok p ∧ ∀ x, p.callAt x = .ok (f x)) ∧
      ∀ c d : List W, c.length = N → d.length = N → ∀ p q : PObj ℝ W (k + 1) (Kd.MeshTree ℝ),
        PObj.new (buildTree (splitPlane eigh (meshOf T V)) T V) b true c T V r none boundary keepLast none none none = .ok p →
        PObj.new (buildTree (splitPlane eigh (meshOf T V)) T V) b true d T V r none boundary keepLast none none none = .ok q →
        (∀ x, p.callAt x = q.callAt x) → c = d) := by
  have hsp := h.space (r := r) true hr hbd
  obtain ⟨M, N, t, hM, ht⟩ := genMap_spec hsp keepLast
  refine ⟨M, N, hM, ht.num, fun hN f => ⟨⟨fun hp => ?_, ?_⟩, ?_⟩⟩
  · obtain ⟨F, hF, hFf⟩ := piecewise_of h hr hp
    obtain ⟨c, hc, hcF⟩ := complete hsp ht (Or.inl hr) hb hF
    obtain ⟨p, h1, h2, h3⟩ := callAt_val he hb h hr hf hbd hM ht hc (by rintro rfl; exact hN hc.symm)
    refine ⟨c, hc, p, h1, fun x => ?_⟩
    by_cases hx : x ∈ D
    · obtain ⟨j, hj⟩ := (h.points x).2 hx
      obtain ⟨v, hv, -⟩ := id hj
      rw [h2 j v x hv hj, hcF j (cell_lt hv) v hv, hFf j x hj]
    · rw [h3 x hx, hp.outside x hx]
  · rintro ⟨c, hc, p, hp, hpf⟩
    obtain ⟨q, h1, h2, h3⟩ := callAt_val he hb h hr hf hbd hM ht hc (by rintro rfl; exact hN hc.symm)
    obtain rfl : p = q := Except.ok.inj (hp.symm.trans h1)
    have hcell : ∀ j v x, cell T V j = .ok v → InCell T V j x → f x = val b (k + 1) r (loc c t j) (createAffineMap (down v) x) := fun j v x hv hx =>
      Except.ok.inj ((hpf x).symm.trans (h2 j v x hv hx))
    refine ⟨fun j hj => ?_, fun x hx => Except.ok.inj ((hpf x).symm.trans (h3 x hx)), fun j hj s hs x hx => ?_⟩
    · obtain ⟨v, hv, -⟩ := hsp.cells j hj
      exact ⟨_, isPolynomial_iff.2 (isPoly_comp (val_isPoly b (k + 1) r (loc c t j)) (down v)), fun x hx => hcell j v x hv hx⟩
    · obtain ⟨v, hv, hd⟩ := hsp.cells j hj
      rw [hcell j v x hv (commonFace_inCell hsp hj hx), val_boundary hsp ht (Or.inl hr) hb c hj hv hd hs hx]
  · intro c d hc hd p q hp hq hpq
    obtain ⟨p', h1, h2, -⟩ := callAt_val he hb h hr hf hbd hM ht hc (by rintro rfl; exact hN hc.symm)
    obtain rfl : p = p' := Except.ok.inj (hp.symm.trans h1)
    obtain ⟨q', g1, g2, -⟩ := callAt_val he hb h hr hf hbd hM ht hd (by rintro rfl; exact hN hd.symm)
    obtain rfl : q = q' := Except.ok.inj (hq.symm.trans g1)
    refine coeff_unique_cells hsp ht (b := b) hc hd fun j hj v hv x hx => ?_
    exact Except.ok.inj ((h2 j v x hv hx).symm.trans ((hpq x).trans (g2 j v x hv hx)))

omit [Sub (Kd.Ext ℝ)] [Mul (Kd.Ext ℝ)] [One (Kd.Ext ℝ)] in
/-- **C87** The number of degrees of freedom of the space on a mesh of a domain is the dimension of the vector space of the continuous piecewise polynomials on
the domain. -/
theorem C87_dimension {m : ℕ} {T : List (List ℕ)} {V : List (Fin m → ℝ)} {D : Set (Fin m → ℝ)} (h : MeshOf T V D) (hr : r ≠ 0)
    {boundary : Option (List (List ℕ))} (hbd : AreSimplices (boundary.getD [])) (keepLast : Bool) :
    ∃ (M : L2G.Map) (N : ℕ) (S : Submodule ℝ ((Fin m → ℝ) → ℝ)), genMap true T r boundary keepLast = .ok M ∧ M.numDofs = N ∧
      (∀ f, f ∈ S ↔ IsPiecewiseOn T V D r (zeroOn keepLast boundary) f) ∧ Module.finrank ℝ S = N := by
  classical
  have hsp := h.space (r := r) true hr hbd
  obtain ⟨M, N, t, hM, ht⟩ := genMap_spec hsp keepLast
  choose v hv hd using fun j : Fin T.length => hsp.cells j j.2
  have hlt : ∀ {x}, (hx : ∃ j, InCell T V j x) → hx.choose < T.length := fun hx => by
    obtain ⟨v, hv, -⟩ := hx.choose_spec
    exact cell_lt hv
  let Φ : (Fin N → ℝ) →ₗ[ℝ] ((Fin m → ℝ) → ℝ) :=
    { toFun := fun c x => if hx : ∃ j, InCell T V j x then ∑ i : Fin N, val .lagrange m r (ind ℝ t i hx.choose) (createAffineMap (down (v ⟨_, hlt hx⟩)) x) * c i else 0
      map_add' := fun c d => by
        funext x
        by_cases hx : ∃ j, InCell T V j x
        · simp only [Pi.add_apply, dif_pos hx, mul_add, Finset.sum_add_distrib]
        · simp [hx]
      map_smul' := fun a c => by
        funext x
        by_cases hx : ∃ j, InCell T V j x
        · simp only [Pi.smul_apply, dif_pos hx, smul_eq_mul, RingHom.id_apply, Finset.mul_sum]
          exact Finset.sum_congr rfl fun i _ => by ring
        · simp [hx] }
  have hΦ : ∀ c j v x, cell T V j = .ok v → InCell T V j x → Φ c x = val .lagrange m r (loc (List.ofFn c) t j) (createAffineMap (down v) x) := by
    intro c j v' x hv' hx
    have hex : ∃ j, InCell T V j x := ⟨j, hx⟩
    have e1 : Φ c x = val .lagrange m r (loc (List.ofFn c) t hex.choose) (createAffineMap (down (v ⟨_, hlt hex⟩)) x) := by
      show (if hx : ∃ j, InCell T V j x then _ else _) = _
      rw [dif_pos hex, val_ind ht .lagrange c (hlt hex)]
      rfl
    have hj := cell_lt hv'
    obtain rfl : v ⟨j, hj⟩ = v' := Except.ok.inj ((hv ⟨j, hj⟩).symm.trans hv')
    rw [e1]
    obtain ⟨w, hw1, hw2⟩ := h.conforming _ j (hlt hex) hj x hex.choose_spec hx
    exact val_common_face hsp ht (by decide) (List.ofFn c) (hlt hex) hj (hv ⟨_, hlt hex⟩) (hd _) (hv ⟨j, hj⟩) (hd _) ⟨w, hw1, hw2⟩
  have hΦ0 : ∀ c x, x ∉ D → Φ c x = 0 := fun c x hx => dif_neg fun hex => hx ((h.points x).1 hex)
  refine ⟨M, N, LinearMap.range Φ, hM, ht.num, fun f => ⟨?_, fun hf => ?_⟩, ?_⟩
  · rintro ⟨c, rfl⟩
    refine ⟨fun j hj => ?_, hΦ0 c, fun j hj s hs x hx => ?_⟩
    · exact ⟨_, isPolynomial_iff.2 (isPoly_comp (val_isPoly .lagrange m r (loc (List.ofFn c) t j)) (down (v ⟨j, hj⟩))), fun x hx => hΦ c j _ x (hv ⟨j, hj⟩) hx⟩
    · rw [hΦ c j _ x (hv ⟨j, hj⟩) (commonFace_inCell hsp hj hx), val_boundary hsp ht (Or.inl hr) (by decide) _ hj (hv ⟨j, hj⟩) (hd _) hs hx]
  · obtain ⟨F, hF, hFf⟩ := piecewise_of h hr hf
    obtain ⟨c, rfl, hcF⟩ := complete hsp ht (Or.inl hr) (b := .lagrange) (by decide) hF
    refine ⟨fun i => c[(i : ℕ)], ?_⟩
    funext x
    by_cases hx : x ∈ D
    · obtain ⟨j, hj⟩ := (h.points x).2 hx
      obtain ⟨v', hv', -⟩ := id hj
      rw [hΦ _ j v' x hv' hj, List.ofFn_getElem, hcF j (cell_lt hv') v' hv', hFf j x hj]
    · rw [hΦ0 _ x hx, hf.outside x hx]
  · rw [LinearMap.finrank_range_of_inj, Module.finrank_fin_fun]
    intro c d hcd
    refine List.ofFn_injective (coeff_unique_cells hsp ht (b := .lagrange) (by simp) (by simp) fun j hj v' hv' x hx => ?_)
    rw [← hΦ c j v' x hv' hx, ← hΦ d j v' x hv' hx, hcd]

end Domain

/-! ## Examples -/

/-- The function `x₁ ^ 2` on the square is zero on the edge from vertex 0 to vertex 1. -/
theorem square_piecewise : IsPiecewisePolynomial (K := ℚ) (W := ℚ) true squareTriangles squareVertices 2 (zeroOn false (some [[0, 1]])) (fun _ x => x 1 ^ 2) where
  polynomial := fun j _ => ⟨fun ν => if ν = ![0, 2] then 1 else 0, fun x => by
    rw [Finset.sum_eq_single ![0, 2]]
    · simp [Fin.prod_univ_two]
    · intro ν _ hν
      simp [hν]
    · intro h
      exact absurd (by decide) h⟩
  continuous := fun _ _ _ _ _ _ _ => rfl
  zero := fun j hj b hb x hx => by
    simp [zeroOn] at hb
    subst hb
    obtain ⟨w, -, -, rfl⟩ := hx
    simp only [Finset.sum_apply, Pi.smul_apply, smul_eq_mul]
    rw [Finset.sum_eq_zero, zero_pow two_ne_zero]
    intro i hi
    rw [Finset.mem_inter, List.mem_toFinset, List.mem_toFinset] at hi
    have : i = 0 ∨ i = 1 := by simpa using hi.2
    rcases this with rfl | rfl <;> simp [squareVertices]

/-- It is the function of exactly one list of six coefficients in the Bernstein basis. -/
example : ∃ M, genMap true squareTriangles 2 (some [[0, 1]]) false = .ok M ∧ ∃! coeff : List ℚ, coeff.length = 6 ∧ ∃ p : PObj ℚ ℚ 2 Unit,
    PObj.new (fun _ => .ok ()) .bernstein true coeff squareTriangles squareVertices 2 (some M.tau) (some [[0, 1]]) false none none none = .ok p ∧
    Denotes p (fun _ x => x 1 ^ 2) := by
  obtain ⟨M, N, h1, h2, h3, -⟩ := C87_complete (K := ℚ) (W := ℚ) (m := 2) (Tr := Unit) (b := .bernstein) (by simp)
    (square_space true 2 (by norm_num) (some [[0, 1]]) (by simp [AreSimplices])) (Or.inr (by norm_num)) (Or.inl (by norm_num)) (mkTree := fun _ => .ok ())
    (fun _ _ => ⟨_, rfl⟩) square_piecewise
  obtain ⟨M', hM', hn⟩ : ∃ M, genMap true squareTriangles 2 (some [[0, 1]]) false = .ok M ∧ M.numDofs = 6 := ⟨_, rfl, rfl⟩
  obtain rfl := Except.ok.inj (h1.symm.trans hM')
  obtain rfl : N = 6 := by omega
  exact ⟨M, h1, h3 (by norm_num)⟩

/-- It is its own interpolation. -/
example : ∃ (duals : List (PArg ℚ ℚ 2 Unit → Py ℚ)) (coeff : List ℚ) (M : L2G.Map) (p : PObj ℚ ℚ 2 Unit),
    dualLagrangeBasis ℚ Unit List.head? true squareTriangles squareVertices 2 (some [[0, 1]]) false = .ok duals ∧
    duals.mapM (fun d => d (.other fun x => .ok (x 1 ^ 2))) = .ok coeff ∧
    PObj.new (fun _ => .ok ()) .lagrange true coeff squareTriangles squareVertices 2 (some M.tau) (some [[0, 1]]) false none none none = .ok p ∧
    Denotes p (fun _ x => x 1 ^ 2) := by
  obtain ⟨M, N, duals, coeff, h1, h2, h3, h4, h5, h6⟩ := C87_interpolate (K := ℚ) (W := ℚ) (m := 2) (Tr := Unit)
    (square_space true 2 (by norm_num) (some [[0, 1]]) (by simp [AreSimplices])) (Or.inr (by norm_num)) (Or.inl (by norm_num)) anyElement_head (mkTree := fun _ => .ok ())
    (fun _ _ => ⟨_, rfl⟩) (fun x => x 1 ^ 2) (keepLast := false)
  obtain ⟨M', hM', hn⟩ : ∃ M, genMap true squareTriangles 2 (some [[0, 1]]) false = .ok M ∧ M.numDofs = 6 := ⟨_, rfl, rfl⟩
  obtain rfl := Except.ok.inj (h1.symm.trans hM')
  obtain ⟨p, g1, -, g3⟩ := h6 (by omega)
  exact ⟨duals, coeff, M, p, h3, h4, g1, g3 _ square_piecewise fun _ _ _ => rfl⟩

open Mesh Midpoint in
/-- The continuous piecewise linear functions on the mesh of the unit square with `3 × 2` vertices are a vector space of dimension 6; the absolute value of
`x₀ - 1/2` is one of them. -/
example [Sub (Kd.Ext ℝ)] [Mul (Kd.Ext ℝ)] [One (Kd.Ext ℝ)] {eigh : PointCloud.Eigh 2} (he : PointCloud.IsEigh eigh) :
    ∃ (T : List (List ℕ)) (V : List (List ℝ)), rectangleTriangulation 3 2 = .ok (T.map some) ∧ unitSquareVertices ℝ 3 2 = .ok (V.map some) ∧
      (∃ S : Submodule ℝ ((Fin 2 → ℝ) → ℝ), (∀ f, f ∈ S ↔ IsPiecewiseOn T (columns 2 V) {x | 0 ≤ x 0 ∧ x 0 ≤ 1 ∧ 0 ≤ x 1 ∧ x 1 ≤ 1} 1 [] f) ∧ Module.finrank ℝ S = 6) ∧
      ∃ (coeff : List ℝ) (p : PObj ℝ ℝ 2 (Kd.MeshTree ℝ)), coeff.length = 6 ∧
        PObj.new (buildTree (PointCloud.splitPlane eigh (meshOf T (columns 2 V))) T (columns 2 V)) .bernstein true coeff T (columns 2 V) 1 none none false
          none none none = .ok p ∧
        ∀ x, p.callAt x = .ok (if 0 ≤ x 0 ∧ x 0 ≤ 1 ∧ 0 ≤ x 1 ∧ x 1 ≤ 1 then |x 0 - 1 / 2| else 0) := by
  obtain ⟨T, V, h1, h2, hm⟩ := C83_unit_square 3 2 (by norm_num) (by norm_num)
  obtain rfl : T = [[0, 1, 3], [1, 4, 3], [1, 2, 4], [2, 5, 4]] := fillRows_written (num := 4) (rows := [[0, 1, 3], [1, 4, 3], [1, 2, 4], [2, 5, 4]]) h1
  have hV : V = unitSquareVertexRows ℝ 3 2 := fillRows_written (num := 6) h2
  obtain ⟨M', hM', hn⟩ : ∃ M, genMap true [[0, 1, 3], [1, 4, 3], [1, 2, 4], [2, 5, 4]] 1 none false = .ok M ∧ M.numDofs = 6 := ⟨_, rfl, rfl⟩
  refine ⟨_, V, h1, h2, ?_, ?_⟩
  · obtain ⟨M, N, S, g1, g2, g3, g4⟩ := C87_dimension hm one_ne_zero (boundary := none) (by simp [AreSimplices]) false
    obtain rfl := Except.ok.inj (g1.symm.trans hM')
    exact ⟨S, g3, by omega⟩
  · obtain ⟨M, N, g1, g2, g3⟩ := C87_mesh (W := ℝ) he (b := .bernstein) (by simp) hm one_ne_zero (Or.inr (by norm_num)) (boundary := none) (by simp [AreSimplices]) false
    obtain rfl := Except.ok.inj (g1.symm.trans hM')
    obtain rfl : N = 6 := by omega
    obtain ⟨coeff, e1, p, e2, e3⟩ := (g3 (by norm_num) fun x => if 0 ≤ x 0 ∧ x 0 ≤ 1 ∧ 0 ≤ x 1 ∧ x 1 ≤ 1 then |x 0 - 1 / 2| else 0).1.1 (by
      have hlin : ∀ a b : ℝ, IsPolynomial (m := 2) 1 (fun x : Fin 2 → ℝ => a * x 0 + b) := by
        intro a b
        refine ⟨fun ν => if ν = ![1, 0] then a else if ν = ![0, 0] then b else 0, fun x => ?_⟩
        rw [show (Fintype.piFinset fun _ : Fin 2 => Finset.range (1 + 1)).filter (fun ν => ∑ i, ν i ≤ 1) = {![1, 0], ![0, 0], ![0, 1]} by decide]
        simp [Fin.prod_univ_two]
        ring
      have hc : ∀ j x, PP.InCell [[0, 1, 3], [1, 4, 3], [1, 2, 4], [2, 5, 4]] (columns 2 V) j x →
          (0 ≤ x 0 ∧ x 0 ≤ 1 ∧ 0 ≤ x 1 ∧ x 1 ≤ 1) ∧ (j < 2 → x 0 ≤ 1 / 2) ∧ (2 ≤ j → 1 / 2 ≤ x 0) := by
        intro j x hx
        refine ⟨(hm.points x).1 ⟨j, hx⟩, ?_⟩
        obtain ⟨v, hv, w, h0, h1, rfl⟩ := hx
        have hj := cell_lt hv
        rw [Fin.sum_univ_three] at h1
        have := h0 0; have := h0 1; have := h0 2
        obtain ⟨hl, hvv⟩ := cell_vertex hj hv
        have hj4 : j = 0 ∨ j = 1 ∨ j = 2 ∨ j = 3 := by simp at hj; omega
        rcases hj4 with rfl | rfl | rfl | rfl
        all_goals
          rw [Finset.sum_apply, Fin.sum_univ_three, hvv, hvv, hvv]
          simp [hV, columns, unitSquareVertexRows, List.range_succ]
          norm_num
          linarith
      refine ⟨fun j hj => ?_, fun x hx => if_neg hx, by simp [zeroOn]⟩
      by_cases h : j < 2
      · refine ⟨_, hlin (-1) (1 / 2), fun x hx => ?_⟩
        obtain ⟨c1, c2, -⟩ := hc j x hx
        rw [if_pos c1, abs_of_nonpos (by linarith [c2 h])]
        ring
      · refine ⟨_, hlin 1 (-1 / 2), fun x hx => ?_⟩
        obtain ⟨c1, -, c2⟩ := hc j x hx
        rw [if_pos c1, abs_of_nonneg (by linarith [c2 (by omega)])]
        ring)
    exact ⟨coeff, p, e1, e2, e3⟩

end Verif.Props
