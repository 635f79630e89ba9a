import Verif.Lemmas.PiecewiseDual
import Verif.Props.PiecewiseExamples
import Verif.Props.SimplexDual
/-!
# C65: bases and dual bases of spaces of piecewise polynomials

`IsSpace`, `WellFormed`, `Denotes` and `Full` are defined in `Verif/Spec/Piecewise.lean`. The theorems on the Lagrange bases and on the combinations hold
in all spaces, also in those where the degrees of freedom on the boundary are left out.
-/

namespace Verif.Props
open Verif Verif.Poly Verif.Simplex Verif.SPoly Verif.L2G Verif.Spec Verif.PP

section
variable {K V : Type} [Field K] [DecidableEq K] [CharZero K] [AddCommGroup V] [DecidableEq V] [Module K V] {m r : Nat} {Tr : Type}

variable {b : Basis} {cont : Bool} {triangles : List (List ℕ)} {vertices : List (Fin m → K)} {boundary : Option (List (List ℕ))} {keepLast : Bool}

/-- **C65** The basis of a space has one function for each degree of freedom, and each function is a consistent object of the space. On a simplex the function
with number `i` is the basis polynomial of the multi-index that has this number there, and zero if there is no such multi-index. -/
theorem C65_basis (hb : b ≠ .monomial) (hsp : IsSpace cont triangles vertices r boundary) (hf : Fits r m) {mkTree : List ℕ → Py Tr}
    (htree : ∀ S : List ℕ, (∀ j ∈ S, j < triangles.length) → ∃ T, mkTree S = .ok T) :
    ∃ M, ∃ N : ℕ, ∃ l, genMap cont triangles r boundary keepLast = .ok M ∧ M.numDofs = N ∧
      piecewiseBasis mkTree b cont triangles vertices r boundary keepLast none = .ok l ∧ l.length = N ∧
      ∀ (i : ℕ) (p : PObj K K m Tr), l[i]? = some p → WellFormed p ∧ p.basis = b ∧ p.cont = cont ∧ p.triangles = triangles ∧ p.vertices = vertices ∧
        p.boundary = boundary ∧ p.keepLast = keepLast ∧ p.r = r ∧
        ∃ B, Denotes p B ∧ ∀ j, j < triangles.length → ∀ v, cell triangles vertices j = .ok v → ∀ x w, IsBarycentric v x w →
          (∀ ν, IsIndex m r ν → M.tau j ν = .ok (i : ℤ) → B j x = Poly.basisFn b r (List.ofFn fun k : Fin m => w k.succ) ν) ∧
          ((∀ ν, IsIndex m r ν → M.tau j ν ≠ .ok (i : ℤ)) → B j x = 0) := by
  obtain ⟨M, N, t, hM, ht⟩ := genMap_spec hsp keepLast
  obtain ⟨l, h1, h2, h3⟩ := basis_spec (Tr := Tr) hb hsp hM ht hf (treeO := none) (Or.inr htree)
  refine ⟨M, N, l, hM, ht.num, h1, h2, fun i p hp => ?_⟩
  have hi : i < N := by rw [← h2]; exact (List.getElem?_eq_some_iff.1 hp).1
  obtain ⟨p', hp', q2, q3, q4, q5, q6, q7, q8, q9, q10, q11⟩ := h3 i hi
  obtain rfl : p = p' := Option.some.inj (hp.symm.trans hp')
  obtain ⟨B, hB⟩ := q2.denotes
  refine ⟨q2, q3, q4, q7, q8, q9, q10, q11, B, hB, fun j hj v hv x w hw => ?_⟩
  obtain ⟨v', hv', hd⟩ := hsp.cells j hj
  obtain rfl : v' = v := Except.ok.inj (hv'.symm.trans hv)
  have hl : ((zeros K N).set i 1).length = N := by simp [zeros]
  have hval := denotes_val q2 hB q6 (t := t) (by rw [q4, q11, q7, q9, q10, q5, hl]; exact ht) (j := j) (by rw [q7]; exact hj) (by rw [q7, q8]; exact hv) x
  rw [down_bary v' hd hw, q3, q11, q5] at hval
  rw [hval]
  constructor
  · intro ν hν hi'
    rw [ht.tau j hj] at hi'
    have hi' := Except.ok.inj hi'
    obtain ⟨μ, hμ, rfl⟩ := isIndex_iff.1 hν
    unfold val
    rw [Finset.sum_eq_single μ]
    · rw [loc_basis ht hi hj hν, if_pos hi']; simp
    · intro μ' hμ' hne
      have hν' : IsIndex m r (List.ofFn μ') := isIndex_iff.2 ⟨μ', hμ', rfl⟩
      rw [loc_basis ht hi hj hν', if_neg, smul_zero]
      intro h4
      have h5 := ht.inj j hj _ hν' j hj _ hν (by rw [h4, hi']) (by omega)
      unfold SameDof at h5
      by_cases hc : cont = true
      · rw [if_pos hc, getD_triangles hj] at h5
        have hT := hsp.mesh.simplex _ (List.getElem_mem hj)
        exact hne (List.ofFn_injective (latticePoint_inj hT.2 (by rw [hT.1, hν'.1]) (by rw [hT.1, hν.1]) h5))
      · rw [if_neg hc] at h5
        exact hne (List.ofFn_injective h5.2)
    · intro h; exact absurd hμ h
  · intro hno
    rw [val_congr (d := fun _ => 0) (fun ν hν => ?_), val_zero]
    rw [loc_basis ht hi hj hν, if_neg]
    intro h4
    exact hno ν hν (by rw [ht.tau j hj, h4])

/-- **C65** A degree above 19 is rejected. -/
theorem C65_basis_degree (hsp : IsSpace cont triangles vertices r boundary) (hf : ¬ Fits r m) (mkTree : List ℕ → Py Tr) (tree : Option Tr) :
    piecewiseBasis mkTree b cont triangles vertices r boundary keepLast tree = .error .assertion := by
  obtain ⟨M, N, t, hM, ht⟩ := genMap_spec hsp keepLast
  obtain ⟨n, hn⟩ := Nat.exists_eq_succ_of_ne_zero (List.length_pos_iff.2 hsp.mesh.ne).ne'
  obtain ⟨v, hv, hd⟩ := hsp.cells 0 (List.length_pos_iff.2 hsp.mesh.ne)
  unfold piecewiseBasis
  rw [hM, Py.bind_ok, hn, List.range_succ_eq_map, List.mapM_cons]
  simp only [hv, Py.bind_ok, basisSimplex_error b v hf, Py.bind_error]

/-- **C65** A piecewise polynomial is the combination of the basis functions of its space with its coefficients, and with no others: the basis functions are linearly
independent and span the space. -/
theorem C65_combination {p : PObj K V m Tr} (h : WellFormed p) {F : ℕ → (Fin m → K) → V} (hF : Denotes p F) (hf : Fits p.r m) {mkTree : List ℕ → Py Tr}
    (htree : ∀ S : List ℕ, (∀ j ∈ S, j < p.triangles.length) → ∃ T, mkTree S = .ok T) :
    ∃ l : List (PObj K K m Tr), piecewiseBasis mkTree p.basis p.cont p.triangles p.vertices p.r p.boundary p.keepLast none = .ok l ∧
      l.length = p.coeff.length ∧ ∀ B : ℕ → ℕ → (Fin m → K) → K, (∀ (i : ℕ) q, l[i]? = some q → Denotes q (B i)) →
        ∀ a : List V, a.length = p.coeff.length →
          ((∀ j, j < p.triangles.length → ∀ x, F j x = ∑ i : Fin a.length, B i j x • a[i]) ↔ a = p.coeff) := by
  obtain ⟨M, t, hg, hM, ht⟩ := h.data
  obtain ⟨l, h1, h2, h3⟩ := basis_spec (Tr := Tr) h.basis h.space hg ht hf (treeO := none) (Or.inr htree)
  refine ⟨l, h1, h2, fun B hB a ha => ?_⟩
  have hsum : ∀ j, j < p.triangles.length → ∀ v, cell p.triangles p.vertices j = .ok v → ∀ x,
      ∑ i : Fin a.length, B i j x • a[i] = val p.basis m p.r (loc a t j) (createAffineMap (down v) x) := by
    intro j hj v hv x
    have hb : ∀ i : ℕ, i < a.length → B i j x = val p.basis m p.r (loc ((zeros K a.length).set i 1) t j) (createAffineMap (down v) x) := by
      intro i hi
      obtain ⟨q, hq, q2, q3, q4, q5, q6, q7, q8, q9, q10, q11⟩ := h3 i (by omega)
      have hl : ((zeros K p.coeff.length).set i 1).length = p.coeff.length := by simp [zeros]
      have := denotes_val q2 (hB i q hq) q6 (t := t) (by rw [q4, q11, q7, q9, q10, q5, hl]; exact ht) (j := j) (by rw [q7]; exact hj)
        (by rw [q7, q8]; exact hv) x
      rw [q3, q11, q5] at this
      rw [this, ha]
    simp only [fun i : Fin a.length => hb i i.2]
    unfold val
    simp only [Finset.sum_smul]
    rw [Finset.sum_comm]
    refine Finset.sum_congr rfl (fun ν hν => ?_)
    rw [loc_sum (K := K) (coeff := a) (by rw [ha]; exact ht) hj (isIndex_iff.2 ⟨ν, hν, rfl⟩), Finset.smul_sum]
    refine Finset.sum_congr rfl (fun i _ => ?_)
    rw [smul_assoc]
  constructor
  · intro hFa
    refine List.ext_getElem ha (fun i hi hi' => ?_)
    obtain ⟨j, ν, hj, hν, hi''⟩ := ht.surj i hi'
    obtain ⟨v, hv, hd⟩ := h.space.cells j hj
    rw [← loc_of_tau hi'' hi, ← loc_of_tau hi'' hi']
    refine val_inj (K := K) (b := p.basis) (m := m) (r := p.r) (fun u => ?_) hν.1 hν.2
    have h5 := hFa j hj (createAffineMap (up v) u)
    rw [hsum j hj v hv, denotes_val h hF hM ht hj hv, down_up v hd] at h5
    exact h5.symm
  · rintro rfl j hj x
    obtain ⟨v, hv, hd⟩ := h.space.cells j hj
    rw [hsum j hj v hv, denotes_val h hF hM ht hj hv]

/-- **C65** In a space without left out degrees of freedom the sum of the basis functions is one at each point of each simplex. -/
theorem C65_partition_of_unity (hb : b ≠ .monomial) (hsp : IsSpace cont triangles vertices r boundary) (hfull : keepLast = true ∨ boundary.getD [] = [])
    (hf : Fits r m) {mkTree : List ℕ → Py Tr} (htree : ∀ S : List ℕ, (∀ j ∈ S, j < triangles.length) → ∃ T, mkTree S = .ok T) :
    ∃ l : List (PObj K K m Tr), piecewiseBasis mkTree b cont triangles vertices r boundary keepLast none = .ok l ∧
      ∀ B : ℕ → ℕ → (Fin m → K) → K, (∀ (i : ℕ) q, l[i]? = some q → Denotes q (B i)) →
        ∀ j, j < triangles.length → ∀ x, ∑ i : Fin l.length, B i j x = 1 := by
  obtain ⟨M, N, t, hM, ht⟩ := genMap_spec hsp keepLast
  obtain ⟨l, h1, h2, h3⟩ := basis_spec (Tr := Tr) hb hsp hM ht hf (treeO := none) (Or.inr htree)
  refine ⟨l, h1, fun B hB j hj x => ?_⟩
  obtain ⟨v, hv, hd⟩ := hsp.cells j hj
  have hb : ∀ i : Fin l.length, B i j x = val b m r (loc ((zeros K N).set i 1) t j) (createAffineMap (down v) x) := by
    intro i
    obtain ⟨q, hq, q2, q3, q4, q5, q6, q7, q8, q9, q10, q11⟩ := h3 i (by omega)
    have hl : ((zeros K N).set i 1).length = N := by simp [zeros]
    have := denotes_val q2 (hB i q hq) q6 (t := t) (by rw [q4, q11, q7, q9, q10, q5, hl]; exact ht) (j := j) (by rw [q7]; exact hj)
      (by rw [q7, q8]; exact hv) x
    rw [q3, q11, q5] at this
    exact this
  simp only [hb]
  have h1 : val b m r (fun _ => (1 : K)) (createAffineMap (down v) x) = 1 := by
    cases b with
    | monomial => exact absurd rfl ‹_›
    | bernstein => exact val_bernstein_one m r _
    | lagrange => exact val_lagrange_one m r _
  refine Eq.trans ?_ h1
  unfold val
  rw [Finset.sum_comm]
  refine Finset.sum_congr rfl (fun ν hν => ?_)
  rw [← Finset.smul_sum]
  congr 1
  have hν' : IsIndex m r (List.ofFn ν) := isIndex_iff.2 ⟨ν, hν, rfl⟩
  obtain ⟨k, hk, hk'⟩ := ht.full hfull hj hν'
  rw [Finset.sum_eq_single (⟨k, by omega⟩ : Fin l.length)]
  · rw [loc_basis ht hk hj hν', if_pos hk']
  · intro i _ hne
    rw [loc_basis ht (by omega) hj hν', if_neg]
    intro h'
    apply hne
    ext
    simp only
    omega
  · intro h; exact absurd (Finset.mem_univ _) h

/-! ## Dual Lagrange basis -/

/-- **C65** The dual Lagrange basis of a space has one function for each degree of freedom. The function with number `i` returns the value at the Lagrange point
of the degree of freedom, on a simplex that has it: the point with barycentric coordinates `ν / r`. It returns the value of any piecewise polynomial on the mesh, and of
anything else that can be called at a point. Which of several simplices is used is not determined (`pick`). -/
theorem C65_dual_lagrange (hsp : IsSpace cont triangles vertices r boundary) {pick : List (Int × List ℕ) → Option (Int × List ℕ)} (hpick : AnyElement pick) :
    ∃ M, ∃ N : ℕ, ∃ duals, genMap cont triangles r boundary keepLast = .ok M ∧ M.numDofs = N ∧
      dualLagrangeBasis V Tr pick cont triangles vertices r boundary keepLast = .ok duals ∧ duals.length = N ∧
      ∀ (i : ℕ) d, duals[i]? = some d → ∃ (j : ℕ) (ν : List ℕ) (v : Vertices K m m) (x : Fin m → K) (w : Fin (m + 1) → K), j < triangles.length ∧
        IsIndex m r ν ∧ M.tau j ν = .ok (i : ℤ) ∧ cell triangles vertices j = .ok v ∧ IsBarycentric v x w ∧
        (∀ k : Fin m, w k.succ = ((ν.getD k 0 : ℕ) : K) / (r : K)) ∧
        (∀ (p : PObj K V m Tr) F, p.triangles = triangles → Denotes p F → d (.piecewise p) = .ok (F j x)) ∧ ∀ f, d (.other f) = f x := by
  obtain ⟨M, N, t, hM, ht⟩ := genMap_spec hsp keepLast
  obtain ⟨find, hfind, hspec⟩ := find_spec ht hpick
  obtain ⟨l, h1, h2, h3⟩ := mapM_range (N := N) (f := fun (i : ℕ) => dualLagrangeFn (V := V) (Tr := Tr) find triangles vertices r i) (fun i hi => by
    obtain ⟨j, ν, hj, hν, -, hfi⟩ := hspec i hi
    obtain ⟨v, hv, hd⟩ := hsp.cells j hj
    unfold dualLagrangeFn
    simp only [hfi, Py.bind_ok, Int.toNat_natCast, hv, lagrangePointSimplex_eq v r ν hν.1 hν.2]
    exact ⟨_, rfl⟩)
  refine ⟨M, N, l, hM, ht.num, ?_, h2, fun i d hid => ?_⟩
  · unfold dualLagrangeBasis
    rw [hM, Py.bind_ok, hfind, Py.bind_ok, ht.toNat, h1]
  · have hi : i < N := by rw [← h2]; exact (List.getElem?_eq_some_iff.1 hid).1
    obtain ⟨d', hd', hfn⟩ := h3 i hi
    obtain rfl : d = d' := Option.some.inj (hid.symm.trans hd')
    obtain ⟨j, ν, hj, hν, hi', hfi⟩ := hspec i hi
    obtain ⟨v, hv, hd⟩ := hsp.cells j hj
    refine ⟨j, ν, v, _, _, hj, hν, by rw [ht.tau j hj, hi'], hv, up_bary v (fun k => ((ν.getD k 0 : ℕ) : K) / (r : K)), fun k => by simp, ?_⟩
    unfold dualLagrangeFn at hfn
    simp only [hfi, Py.bind_ok, Int.toNat_natCast, hv, lagrangePointSimplex_eq v r ν hν.1 hν.2] at hfn
    obtain rfl := Except.ok.inj hfn
    exact ⟨fun p F hp hF => hF j (by rw [hp]; exact hj) _, fun f => rfl⟩

/-- **C65** The functions of the dual Lagrange basis return the coefficients of a piecewise polynomial in the Lagrange basis, in the same order. -/
theorem C65_dual_lagrange_coefficients {p : PObj K V m Tr} (h : WellFormed p) (hb : p.basis = .lagrange)
    {pick : List (Int × List ℕ) → Option (Int × List ℕ)} (hpick : AnyElement pick) :
    ∃ duals, dualLagrangeBasis V Tr pick p.cont p.triangles p.vertices p.r p.boundary p.keepLast = .ok duals ∧
      duals.mapM (fun d => d (.piecewise p)) = .ok p.coeff := by
  obtain ⟨M, t, hg, hM, ht⟩ := h.data
  obtain ⟨M', N, duals, h1, h2, h3, h4, h5⟩ := C65_dual_lagrange (V := V) (Tr := Tr) (keepLast := p.keepLast) h.space hpick
  obtain rfl : M = M' := Except.ok.inj (hg.symm.trans h1)
  have hN : N = p.coeff.length := by have := h2.symm.trans ht.num; omega
  obtain ⟨F, hF⟩ := h.denotes
  refine ⟨duals, h3, mapM_of_getElem (h4.trans hN) (fun i d c hd hc => ?_)⟩
  obtain ⟨j, ν, v, x, w, hj, hν, hτ, hv, hx, hw, h6, -⟩ := h5 i d hd
  obtain ⟨v', hv', hdet⟩ := h.space.cells j hj
  obtain rfl : v' = v := Except.ok.inj (hv'.symm.trans hv)
  obtain ⟨hi, rfl⟩ := List.getElem?_eq_some_iff.1 hc
  rw [ht.tau j hj] at hτ
  rw [h6 p F rfl hF, denotes_val h hF hM ht hj hv x, down_bary v' hdet hx, hb]
  obtain ⟨μ, hμ, rfl⟩ := isIndex_iff.1 hν
  have : (fun i : Fin m => w i.succ) = lpt K p.r μ := by
    funext k
    rw [hw k]
    simp [lpt]
  rw [this, val_lpt _ hμ, loc_of_tau (Except.ok.inj hτ) hi]

/-- **C65** The dual Lagrange basis is dual to the Lagrange basis of the space. -/
theorem C65_dual_lagrange_basis (hsp : IsSpace cont triangles vertices r boundary) (hf : Fits r m)
    {pick : List (Int × List ℕ) → Option (Int × List ℕ)} (hpick : AnyElement pick) {mkTree : List ℕ → Py Tr} (htree : ∀ S : List ℕ, (∀ j ∈ S, j < triangles.length) → ∃ T, mkTree S = .ok T) :
    ∃ duals l, dualLagrangeBasis K Tr pick cont triangles vertices r boundary keepLast = .ok duals ∧
      piecewiseBasis mkTree .lagrange cont triangles vertices r boundary keepLast none = .ok l ∧ l.length = duals.length ∧
      ∀ (i k : ℕ) d p, duals[i]? = some d → l[k]? = some p → d (.piecewise p) = .ok (if i = k then 1 else 0) := by
  obtain ⟨M, N, t, hM, ht⟩ := genMap_spec hsp keepLast
  obtain ⟨l, h1, h2, h3⟩ := basis_spec (K := K) (Tr := Tr) (b := .lagrange) (by decide) hsp hM ht hf (treeO := none) (Or.inr htree)
  obtain ⟨M', N', duals, g1, g2, g3, g4, -⟩ := C65_dual_lagrange (V := K) (Tr := Tr) (keepLast := keepLast) hsp hpick
  obtain rfl : M = M' := Except.ok.inj (hM.symm.trans g1)
  have hN : N' = N := by have := g2.symm.trans ht.num; omega
  refine ⟨duals, l, g3, h1, by omega, fun i k d p hd hp => ?_⟩
  have hk : k < N := by rw [← h2]; exact (List.getElem?_eq_some_iff.1 hp).1
  obtain ⟨p', hp', q2, q3, q4, q5, q6, q7, q8, q9, q10, q11⟩ := h3 k hk
  obtain rfl : p = p' := Option.some.inj (hp.symm.trans hp')
  obtain ⟨duals', g5, g6⟩ := C65_dual_lagrange_coefficients q2 q3 hpick
  rw [q4, q7, q8, q9, q10, q11] at g5
  obtain rfl : duals = duals' := Except.ok.inj (g3.symm.trans g5)
  obtain ⟨e1, e2⟩ := mapM_getElem g6
  obtain ⟨c, hc, hc'⟩ := e2 i d hd
  rw [hc']
  have hi : i < N := by rw [← hN, ← g4]; exact (List.getElem?_eq_some_iff.1 hd).1
  rw [q5, List.getElem?_set] at hc
  by_cases hik : i = k
  · subst hik
    rw [if_pos rfl] at hc
    simp [zeros, hi] at hc
    rw [if_pos rfl, hc]
  · rw [if_neg (fun h => hik h.symm)] at hc
    simp [zeros, hi] at hc
    rw [if_neg hik, hc]

end

/-! ## Dual Bernstein basis -/

section
variable {m : ℕ} {Tr : Type} {cont : Bool} {triangles : List (List ℕ)} {vertices : List (Fin m → ℝ)} {r : ℕ} {boundary : Option (List (List ℕ))}
  {keepLast : Bool}

/-- **C65** The functions of the dual Bernstein basis return the coefficients of a piecewise polynomial in the Bernstein basis, in the same order, also in spaces where
degrees of freedom on the boundary are left out. The simplices have to be positively oriented. -/
theorem C65_dual_bernstein_coefficients {p : PObj ℝ ℝ m Tr} (h : WellFormed p) (hb : p.basis = .bernstein)
    (hpos : ∀ j v, cell p.triangles p.vertices j = .ok v → 0 < edgeDet v) (hf : Fits (2 * p.r) m)
    {pick : List (Int × List ℕ) → Option (Int × List ℕ)} (hpick : AnyElement pick) :
    ∃ duals, dualBernsteinBasisPiecewise Tr pick p.cont p.triangles p.vertices p.r p.boundary p.keepLast = .ok duals ∧
      duals.mapM (fun d => d (.piecewise p)) = .ok p.coeff := by
  obtain ⟨M, t, hg, hM, ht⟩ := h.data
  obtain ⟨find, hfind, hspec⟩ := find_spec ht hpick
  have hfr : Fits p.r m := hf.mono (by omega)
  have hfn : ∀ i (hi : i < p.coeff.length), ∃ d : PArg ℝ ℝ m Tr → Py ℝ, dualBernsteinFn p.cont find p.triangles p.vertices p.r (i : ℕ) = .ok d ∧
      d (.piecewise p) = .ok p.coeff[i] := by
    intro i hi
    obtain ⟨j, ν, hj, hν, hi', hfi⟩ := hspec i hi
    obtain ⟨v, hv, -⟩ := h.space.cells j hj
    have hd := hpos j v hv
    obtain ⟨e, h1, -, h3⟩ := dualBasis_list v hd p.r hfr
    obtain ⟨μ, hμ, rfl⟩ := isIndex_iff.1 hν
    unfold PP.dualBernsteinFn
    simp only [hfi, Py.bind_ok, Int.toNat_natCast, hv, h3 _ ((mem_mis_iff m _ _).2 hν)]
    refine ⟨_, rfl, ?_⟩
    have key : ∃ c : List ℕ → ℝ, p.restrictToSimplex j = .ok ⟨mkObj p.basis m p.r c, v, down v⟩ ∧ c (List.ofFn μ) = p.coeff[i] := by
      by_cases hs : j ∈ p.support
      · refine ⟨_, restrict_rd h hM ht hs hv hd.ne' hfr, ?_⟩
        rw [(rd_eq_loc_iff h.coeff).2 (fun h => by omega), loc_of_tau hi' hi]
      · refine ⟨fun _ => 0, ?_, ?_⟩
        · unfold PObj.restrictToSimplex
          rw [decide_eq_true hj, pyAssert_true, Py.bind_ok, hv, Py.bind_ok, if_pos hs]
          unfold zeroPolynomialSimplex
          rw [zeros_tab]
          exact snew_ok hd.ne' (new_mk _ _ _ _ hfr)
        · rw [← loc_of_tau (coeff := p.coeff) hi' hi, off_support h hM ht hj hs hν]
    obtain ⟨c, hres, hc⟩ := key
    simp only [hres, Py.bind_ok]
    have hrep : RepresentsOn (⟨mkObj p.basis m p.r c, v, down v⟩ : SObj ℝ ℝ m) v (fun x => val p.basis m p.r c (createAffineMap (down v) x)) :=
      repOn_mk hd.ne' (rep_mk _ _ _ _ hfr)
    rw [apply_bernstein v hd p.r hf _ hrep hb rfl, integral_dualFun v hd p.r (h1 μ hμ) hμ c _ (fun u => by rw [down_up v hd.ne', hb]), hc]
  obtain ⟨l, h1, h2, h3⟩ := mapM_range (N := p.coeff.length) (f := fun (i : ℕ) => dualBernsteinFn (Tr := Tr) p.cont find p.triangles p.vertices p.r i)
    (fun i hi => by
      obtain ⟨d, hd, -⟩ := hfn i hi
      exact ⟨d, hd⟩)
  refine ⟨l, ?_, mapM_of_getElem h2 (fun i d c hd hc => ?_)⟩
  · unfold dualBernsteinBasisPiecewise
    rw [hg, Py.bind_ok, hfind, Py.bind_ok, ht.toNat, h1]
  · obtain ⟨hi, rfl⟩ := List.getElem?_eq_some_iff.1 hc
    obtain ⟨d', hd', hfn'⟩ := h3 i hi
    obtain rfl : d = d' := Option.some.inj (hd.symm.trans hd')
    obtain ⟨d'', g1, g2⟩ := hfn i hi
    obtain rfl : d = d'' := Except.ok.inj (hfn'.symm.trans g1)
    exact g2

/-- **C65** The dual Bernstein basis is dual to the Bernstein basis of the space. -/
theorem C65_dual_bernstein_basis (hsp : IsSpace cont triangles vertices r boundary) (hpos : ∀ j v, cell triangles vertices j = .ok v → 0 < edgeDet v)
    (hf : Fits (2 * r) m) {pick : List (Int × List ℕ) → Option (Int × List ℕ)} (hpick : AnyElement pick) {mkTree : List ℕ → Py Tr}
    (htree : ∀ S : List ℕ, (∀ j ∈ S, j < triangles.length) → ∃ T, mkTree S = .ok T) {l : List (PObj ℝ ℝ m Tr)}
    (hl : piecewiseBasis mkTree .bernstein cont triangles vertices r boundary keepLast none = .ok l) (hne : l ≠ []) :
    ∃ duals, dualBernsteinBasisPiecewise Tr pick cont triangles vertices r boundary keepLast = .ok duals ∧ l.length = duals.length ∧
      ∀ (i k : ℕ) d p, duals[i]? = some d → l[k]? = some p → d (.piecewise p) = .ok (if i = k then 1 else 0) := by
  obtain ⟨M, N, t, hM, ht⟩ := genMap_spec hsp keepLast
  obtain ⟨l', h1, h2, h3⟩ := basis_spec (K := ℝ) (Tr := Tr) (b := .bernstein) (by decide) hsp hM ht (hf.mono (by omega)) (treeO := none) (Or.inr htree)
  obtain rfl : l = l' := Except.ok.inj (hl.symm.trans h1)
  have hfun : ∀ k, k < N → ∃ p duals, l[k]? = some p ∧ dualBernsteinBasisPiecewise Tr pick cont triangles vertices r boundary keepLast = .ok duals ∧
      duals.mapM (fun d => d (.piecewise p)) = .ok ((zeros ℝ N).set k 1) := by
    intro k hk
    obtain ⟨p, hp, q2, q3, q4, q5, q6, q7, q8, q9, q10, q11⟩ := h3 k hk
    obtain ⟨duals, g5, g6⟩ := C65_dual_bernstein_coefficients q2 q3 (by rw [q7, q8]; exact hpos) (by rw [q11]; exact hf) hpick
    rw [q4, q7, q8, q9, q10, q11] at g5
    rw [q5] at g6
    exact ⟨p, duals, hp, g5, g6⟩
  have hN : 0 < N := by rw [← h2]; exact List.length_pos_iff.2 hne
  obtain ⟨p0, duals, -, g5, g6⟩ := hfun 0 hN
  have hlen : duals.length = N := by
    have := (mapM_getElem g6).1
    simpa [zeros] using this.symm
  refine ⟨duals, g5, by omega, fun i k d p hd hp => ?_⟩
  have hk : k < N := by rw [← h2]; exact (List.getElem?_eq_some_iff.1 hp).1
  have hi : i < N := by rw [← hlen]; exact (List.getElem?_eq_some_iff.1 hd).1
  obtain ⟨p', duals', hp', g7, g8⟩ := hfun k hk
  obtain rfl : p = p' := Option.some.inj (hp.symm.trans hp')
  obtain rfl : duals = duals' := Except.ok.inj (g5.symm.trans g7)
  obtain ⟨c, hc, hc'⟩ := (mapM_getElem g8).2 i d hd
  rw [hc']
  rw [List.getElem?_set] at hc
  by_cases hik : i = k
  · subst hik
    rw [if_pos rfl] at hc
    simp [zeros, hi] at hc
    rw [if_pos rfl, hc]
  · rw [if_neg (fun h => hik h.symm)] at hc
    simp [zeros, hi] at hc
    rw [if_neg hik, hc]

/-- **C65** The functions of the dual Bernstein basis reject what is not a piecewise polynomial: with AssertionError in the continuous spaces and with AttributeError
in the discontinuous ones. -/
theorem C65_dual_bernstein_rejects {find : Int → Py (Int × List Nat)} {i : ℤ} {d : PArg ℝ ℝ m Tr → Py ℝ}
    (h : dualBernsteinFn cont find triangles vertices r i = .ok d) (f : (Fin m → ℝ) → Py ℝ) :
    d (.other f) = .error (if cont then .assertion else .attribute) := by
  unfold PP.dualBernsteinFn at h
  cases h1 : find i with
  | error e => rw [h1] at h; cases h
  | ok a =>
    rw [h1, Py.bind_ok] at h
    cases h2 : cell triangles vertices a.1.toNat with
    | error e => rw [h2] at h; cases h
    | ok v =>
      rw [h2, Py.bind_ok] at h
      cases h3 : dualBernsteinFnSimplex a.2 r v with
      | error e => rw [h3] at h; cases h
      | ok q =>
        rw [h3, Py.bind_ok] at h
        obtain rfl := Except.ok.inj h
        rfl

end

/-! ## Examples -/

/-- The first element of a set is an element of the set. -/
theorem anyElement_head : AnyElement List.head? := fun l h => ⟨l.head h, List.head_mem h, List.head?_eq_some_head h⟩

/-- Also the last one. -/
theorem anyElement_last : AnyElement List.getLast? := fun l h => ⟨l.getLast h, List.getLast_mem h, List.getLast?_eq_some_getLast h⟩

/-- C65 applies to the continuous piecewise quadratic functions on the square, without left out degrees of freedom and with vanishing values on an edge. -/
example : ∃ M, ∃ N : ℕ, ∃ l : List (PObj ℚ ℚ 2 Unit), genMap true squareTriangles 2 (some [[0, 1]]) false = .ok M ∧ M.numDofs = N ∧
    piecewiseBasis (fun _ => .ok ()) .bernstein true squareTriangles squareVertices 2 (some [[0, 1]]) false none = .ok l ∧ l.length = N := by
  obtain ⟨M, N, l, h1, h2, h3, h4, -⟩ := C65_basis (K := ℚ) (m := 2) (Tr := Unit) (b := .bernstein) (keepLast := false) (by simp)
    (square_space true 2 (by norm_num) (some [[0, 1]]) (by simp [AreSimplices])) (Or.inr (by norm_num)) (mkTree := fun _ => .ok ()) (fun _ _ => ⟨_, rfl⟩)
  exact ⟨M, N, l, h1, h2, h3, h4⟩

/-- There are nine continuous basis functions of degree two on the square, and six of them remain if the values on the edge from vertex 0 to vertex 1 vanish. -/
example : (genMap true squareTriangles 2 none false).toOption.map (fun M => M.numDofs) = some 9 ∧
    (genMap true squareTriangles 2 (some [[0, 1]]) false).toOption.map (fun M => M.numDofs) = some 6 := ⟨rfl, rfl⟩

/-- C65_combination applies to the function with nine coefficients on the square. -/
example : ∃ (p : PObj ℚ ℚ 2 Unit) (l : List (PObj ℚ ℚ 2 Unit)), p.coeff.length = 9 ∧
    piecewiseBasis (fun _ => .ok ()) .bernstein true squareTriangles squareVertices 2 none false none = .ok l ∧ l.length = 9 := by
  obtain ⟨M, hM, hn⟩ : ∃ M, genMap true squareTriangles 2 none false = .ok M ∧ M.numDofs = 9 := ⟨_, rfl, rfl⟩
  obtain ⟨p, hnew, q1, q2, q3, q4, q5, q6, q7, q8, q9, q10, q11⟩ := C48_construct (K := ℚ) (V := ℚ) (m := 2) (Tr := Unit) (b := .bernstein) (by simp)
    (square_space true 2 (by norm_num) none (by simp [AreSimplices])) (Or.inr (by norm_num)) hM (coeff := [1, 2, 3, 4, 5, 6, 7, 8, 9]) hn (by simp)
    (tau := none) (Or.inl ⟨rfl, Or.inl rfl⟩) (mkTree := fun _ => .ok ()) (fun _ _ => ⟨_, rfl⟩)
  obtain ⟨F, hF⟩ := q1.denotes
  obtain ⟨l, h1, h2, -⟩ := C65_combination q1 hF (Or.inr (by rw [q9]; norm_num)) (mkTree := fun _ => .ok ()) (fun _ _ => ⟨_, rfl⟩)
  rw [q2, q3, q5, q6, q7, q8, q9] at h1
  exact ⟨p, l, by rw [q4]; rfl, h1, by rw [h2, q4]; rfl⟩

/-- C65_dual_lagrange_coefficients applies to `1 - x` in the space of functions that vanish at the vertex 1: there is one dual function, and it returns the value 1
at the vertex 0. -/
example : ∃ (p : PObj ℚ ℚ 1 Unit) (duals : List (PArg ℚ ℚ 1 Unit → Py ℚ)), Denotes p (fun _ x => 1 - x 0) ∧
    dualLagrangeBasis ℚ Unit List.getLast? true [[0, 1]] C48_interval 1 (some [[1]]) false = .ok duals ∧ duals.mapM (fun d => d (.piecewise p)) = .ok [1] := by
  obtain ⟨p, h1, h2, h3, h4, h5, h6, h7, h8, h9, h10, h11, h12⟩ := interval_object
  obtain ⟨duals, e1, e2⟩ := C65_dual_lagrange_coefficients h2 h3 anyElement_last
  rw [h4, h6, h7, h8, h9, h10] at e1
  rw [h5] at e2
  exact ⟨p, duals, h12, e1, e2⟩

/-- The square with real coordinates. -/
noncomputable def squareReal : List (Fin 2 → ℝ) := [![0, 0], ![1, 0], ![0, 1], ![1, 1]]

theorem squareReal_cell0 : cell squareTriangles squareReal 0 = .ok (fun i => [![0, 0], ![1, 0], ![0, 1]][(i : ℕ)]'(i.2)) := rfl

theorem squareReal_cell1 : cell squareTriangles squareReal 1 = .ok (fun i => [![1, 0], ![1, 1], ![0, 1]][(i : ℕ)]'(i.2)) := rfl

theorem squareReal_pos : ∀ j v, cell squareTriangles squareReal j = .ok v → 0 < edgeDet v := by
  intro j v hv
  have : j = 0 ∨ j = 1 ∨ 2 ≤ j := by omega
  rcases this with rfl | rfl | h
  · rw [squareReal_cell0] at hv
    obtain rfl := Except.ok.inj hv
    simp [edgeDet, Matrix.det_fin_two]
  · rw [squareReal_cell1] at hv
    obtain rfl := Except.ok.inj hv
    simp [edgeDet, Matrix.det_fin_two]
  · unfold cell at hv
    rw [getE_error (by simpa [squareTriangles] using h)] at hv
    cases hv

theorem squareReal_space (cont : Bool) (r : ℕ) (hr : r ≠ 0) (b : Option (List (List ℕ))) (hb : AreSimplices (b.getD [])) :
    IsSpace cont squareTriangles squareReal r b where
  mesh := ⟨by simp [squareTriangles], by simp [squareTriangles]⟩
  cells := fun j hj => by
    have : j = 0 ∨ j = 1 := by simp [squareTriangles] at hj; omega
    rcases this with rfl | rfl
    · exact ⟨_, squareReal_cell0, (squareReal_pos _ _ squareReal_cell0).ne'⟩
    · exact ⟨_, squareReal_cell1, (squareReal_pos _ _ squareReal_cell1).ne'⟩
  boundary := hb
  continuous := fun _ => ⟨by simp [NoDuplicates, squareTriangles]; exact ⟨0, by simp⟩, hr⟩

/-- C65_dual_bernstein_coefficients applies to a function with six coefficients that vanishes on an edge of the square. -/
example : ∃ (p : PObj ℝ ℝ 2 Unit) (duals : List (PArg ℝ ℝ 2 Unit → Py ℝ)), WellFormed p ∧
    dualBernsteinBasisPiecewise Unit List.head? true squareTriangles squareReal 2 (some [[0, 1]]) false = .ok duals ∧
    duals.mapM (fun d => d (.piecewise p)) = .ok [1, 2, 3, 4, 5, 6] := by
  obtain ⟨M, hM, hn⟩ : ∃ M, genMap true squareTriangles 2 (some [[0, 1]]) false = .ok M ∧ M.numDofs = 6 := ⟨_, rfl, rfl⟩
  obtain ⟨p, hnew, q1, q2, q3, q4, q5, q6, q7, q8, q9, q10, q11⟩ := C48_construct (K := ℝ) (V := ℝ) (m := 2) (Tr := Unit) (b := .bernstein) (by simp)
    (squareReal_space true 2 (by norm_num) (some [[0, 1]]) (by simp [AreSimplices])) (Or.inr (by norm_num)) hM (coeff := [1, 2, 3, 4, 5, 6]) hn (by simp)
    (tau := none) (Or.inl ⟨rfl, Or.inl rfl⟩) (mkTree := fun _ => .ok ()) (fun _ _ => ⟨_, rfl⟩)
  obtain ⟨duals, e1, e2⟩ := C65_dual_bernstein_coefficients q1 q2 (by rw [q5, q6]; exact squareReal_pos) (Or.inr (by rw [q9]; norm_num)) anyElement_head
  rw [q3, q5, q6, q7, q8, q9] at e1
  rw [q4] at e2
  exact ⟨p, duals, q1, e1, e2⟩

end Verif.Props
