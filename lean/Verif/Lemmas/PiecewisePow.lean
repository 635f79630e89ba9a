import Verif.Model.PiecewisePow
import Verif.Lemmas.PiecewiseMul
import Verif.Lemmas.PiecewiseNew
import Verif.Lemmas.PolyRepPow
/-!
# Powers of piecewise polynomials with multi-index exponents
-/

namespace Verif.PP
open Verif Verif.Poly Verif.Simplex Verif.SPoly Verif.L2G Verif.Spec

variable {K V : Type} [Field K] [DecidableEq K] [CharZero K] [AddCommGroup V] [DecidableEq V] [Module K V] {m r n : Nat} {Tr : Type}

omit [CharZero K] [Module K V] in
theorem new_fields {mkTree : List ℕ → Py Tr} {b : Basis} {cont : Bool} {coeff : List V} {triangles : List (List ℕ)} {vertices : List (Fin m → K)}
    {tau : Option (Int → List Nat → Py Int)} {boundary : Option (List (List ℕ))} {keepLast : Bool} {S : List ℕ} {T : Tr}
    {polys : Option (List (Nat × List (SObj K K m)))} {p : PObj K V m Tr}
    (h : PObj.new mkTree b cont coeff triangles vertices r tau boundary keepLast (some S) (some T) polys = .ok p) : p.support = S ∧ p.tree = T ∧ p.r = r := by
  unfold PObj.new at h
  simp only [supportArg, Py.bind_ok] at h
  cases h1 : tauArg cont coeff.length triangles r tau boundary keepLast with
  | error e => rw [h1] at h; cases h
  | ok tau' =>
    cases h2 : getE coeff 0 with
    | error e => rw [h1, h2] at h; cases h
    | ok c =>
      cases h3 : getE vertices 0 with
      | error e => rw [h1, h2, h3] at h; cases h
      | ok c =>
        cases h4 : polysArg b triangles vertices r S polys with
        | error e => rw [h1, h2, h3, h4] at h; cases h
        | ok l =>
          rw [h1, h2, h3, h4] at h
          obtain rfl := Except.ok.inj h
          exact ⟨rfl, rfl, rfl⟩

/-- The degree of the unit function. -/
def unitDegree (cont : Bool) : ℕ := if cont then 1 else 0

theorem unitPower_spec {p : PObj K V m Tr} (h : WellFormed p) (hfull : Full p)
    (hall : p.cont = true → ∀ v, v < p.vertices.length → ∃ T ∈ p.triangles, v ∈ T) (hkeep : p.cont = true ∨ p.keepLast = false) :
    ∃ s, p.unitPower = .ok s ∧ WellFormed s ∧ SameKind s p ∧ s.r = unitDegree p.cont ∧ s.support = List.range p.triangles.length ∧ s.tree = p.tree ∧
      Denotes s (fun _ _ => 1) := by
  have hsp : IsSpace p.cont p.triangles p.vertices (if p.cont then 1 else 0) p.boundary :=
    ⟨h.space.mesh, h.space.cells, h.space.boundary, fun hc => ⟨(h.space.continuous hc).1, by rw [hc]; simp⟩⟩
  obtain ⟨M, N, t, hM, ht⟩ := genMap_spec hsp p.keepLast
  obtain ⟨s, e1, e2, e3, e4, e5, e6, e7, e8, e8', e9, e10⟩ := unit_spec (Tr := Tr) h.basis hsp hM (NoDrop.of_full hfull) hall (tauO := none) (Or.inl ⟨rfl, hkeep⟩)
    (mkTree := fun _ => .ok p.tree) (treeO := some p.tree) (tree := p.tree) rfl
  exact ⟨s, e1, e2, ⟨e3, e4, e5, e6, e7, e8⟩, e8', (new_fields e1).1, e9, e10⟩

/-- Functions that are not continuous, with the boundary degrees of freedom numbered last: the constructor of the unit function fails. -/
theorem unitPower_value {p : PObj K V m Tr} (h : WellFormed p) (hc : p.cont = false) (hk : p.keepLast = true) : p.unitPower = .error .value := by
  have hsp : IsSpace p.cont p.triangles p.vertices 0 p.boundary :=
    ⟨h.space.mesh, h.space.cells, h.space.boundary, fun hc' => by rw [hc] at hc'; cases hc'⟩
  obtain ⟨M, N, t, hM, ht⟩ := genMap_spec hsp p.keepLast
  unfold PObj.unitPower unitPiecewise PObj.new tauArg
  rw [hc] at hM ⊢
  simp only [Bool.false_eq_true, if_false]
  rw [hM, Py.bind_ok, hk]
  rfl

theorem component_support {p : PObj K (Fin n → K) m Tr} (h : WellFormed p) {F : ℕ → (Fin m → K) → Fin n → K} (hF : Denotes p F) (i : Fin n) :
    ∃ s : PObj K K m Tr, p.remake (p.coeff.map (fun c => c i)) (some p.support) = .ok s ∧ WellFormed s ∧ SameKind s p ∧ s.r = p.r ∧
      s.support = p.support ∧ s.tree = p.tree ∧ Denotes s (fun j x => F j x i) := by
  obtain ⟨s, e1, e2, e3, e4, e5⟩ := smul_spec (W := K) h hF (fun c => c i) rfl p.support (Or.inl rfl) (by
    intro c x
    unfold val
    rw [Finset.sum_apply]
    rfl)
  obtain ⟨h1, h2, -⟩ := new_fields (K := K) e1
  exact ⟨s, e1, e2, e3, e4, h1, h2, e5⟩

theorem mul_covered {W : Type} {p : PObj K W m Tr} {a b : PObj K K m Tr} (ha : WellFormed a) (hb : WellFormed b) (hfull : Full p) (ka : SameKind a p)
    (kb : SameKind b p) (sa : a.support = p.support) (ta : a.tree = p.tree) (sb : ∀ j ∈ p.support, j ∈ b.support) {F G : ℕ → (Fin m → K) → K}
    (hF : Denotes a F) (hG : Denotes b G) :
    (p.support = [] ∨ Fits (a.r + b.r) m → ∃ t, a.mul b = .ok t ∧ WellFormed t ∧ SameKind t p ∧ t.r = a.r + b.r ∧ t.support = p.support ∧
      t.tree = p.tree ∧ Denotes t (fun j x => F j x * G j x)) ∧
    (¬ (p.support = [] ∨ Fits (a.r + b.r) m) → ∃ e, a.mul b = .error e) := by
  have hfa : Full a := by
    unfold Full at hfull ⊢
    rw [ka.keepLast, ka.boundary]
    exact hfull
  have hdis : (∀ j ∈ a.support, j ∉ b.support) ↔ p.support = [] := by
    rw [sa, List.eq_nil_iff_forall_not_mem]
    exact ⟨fun h j hj => h j hj (sb j hj), fun h j hj => absurd hj (h j)⟩
  obtain ⟨m1, m2⟩ := mul_spec ha hb hfa ⟨kb.triangles.trans ka.triangles.symm, kb.vertices.trans ka.vertices.symm,
    kb.boundary.trans ka.boundary.symm, kb.keepLast.trans ka.keepLast.symm, fun hc => by rw [kb.cont, ← ka.cont]; exact hc,
    Or.inr (ka.basis.trans kb.basis.symm)⟩ hF hG
  rw [hdis] at m1 m2
  refine ⟨fun hc => ?_, m2⟩
  obtain ⟨t, t1, t2, t3, t4, t5, t6, t7⟩ := m1 hc
  refine ⟨t, t1, t2, ⟨t3.basis.trans ka.basis, t3.cont.trans ka.cont, t3.triangles.trans ka.triangles, t3.vertices.trans ka.vertices,
    t3.boundary.trans ka.boundary, t3.keepLast.trans ka.keepLast⟩, t4, ?_, t6.trans ta, t7⟩
  rw [t5, sa, List.filter_eq_self]
  intro j hj
  simpa using sb j hj

omit [DecidableEq K] [CharZero K] [Field K] in
theorem single_le {ε : Fin n → ℕ} {i : Fin n} (h : ε i ≠ 0) : (Pi.single i 1 : Fin n → ℕ) ≤ ε := by
  intro j
  by_cases hj : j = i
  · subst hj; simp; omega
  · simp [hj]

omit [DecidableEq K] [CharZero K] [Field K] in
theorem zero_set (i : Fin n) : (MI.zero n).set i 1 = List.ofFn (Pi.single i 1 : Fin n → ℕ) := by
  apply List.ext_getElem
  · simp [MI.zero]
  · intro k h1 h2
    simp only [List.length_ofFn] at h2
    rw [List.getElem_set]
    by_cases hk : (i : Nat) = k
    · rw [if_pos hk]; simp [Pi.single_apply, Fin.ext_iff, hk]
    · rw [if_neg hk]; simp [MI.zero, Pi.single_apply, Fin.ext_iff, Ne.symm hk]

theorem powMultiBernsteinAux_spec {p : PObj K (Fin n → K) m Tr} (h : WellFormed p) (hfull : Full p) {F : ℕ → (Fin m → K) → Fin n → K} (hF : Denotes p F)
    (hb : p.basis = .bernstein) (hall : p.cont = true → ∀ v, v < p.vertices.length → ∃ T ∈ p.triangles, v ∈ T)
    (hkeep : p.cont = true ∨ p.keepLast = false) : ∀ (fuel : ℕ) (ε : Fin n → ℕ), ∑ i, ε i < fuel →
    (p.support = [] ∨ ∑ i, ε i = 0 ∨ Fits (p.r * ∑ i, ε i + unitDegree p.cont) m →
      ∃ s, p.powMultiBernsteinAux fuel (List.ofFn ε) = .ok s ∧ WellFormed s ∧ SameKind s p ∧ s.r = p.r * ∑ i, ε i + unitDegree p.cont ∧
        s.support = (if ∑ i, ε i = 0 then List.range p.triangles.length else p.support) ∧ s.tree = p.tree ∧
        Denotes s (fun j x => ∏ i, F j x i ^ ε i)) ∧
    (¬ (p.support = [] ∨ ∑ i, ε i = 0 ∨ Fits (p.r * ∑ i, ε i + unitDegree p.cont) m) → ∃ e, p.powMultiBernsteinAux fuel (List.ofFn ε) = .error e) := by
  intro fuel
  induction fuel with
  | zero => intro ε h; omega
  | succ fuel ih =>
    intro ε hfuel
    simp only [PObj.powMultiBernsteinAux, List.length_ofFn, decide_true, pyAssert_true, Py.bind_ok]
    have hnorm : MI.norm (List.ofFn ε) = ∑ i, ε i := by rw [show MI.norm (List.ofFn ε) = (List.ofFn ε).sum from rfl, List.sum_ofFn]
    by_cases h0 : ∑ i, ε i = 0
    · rw [if_pos (hnorm.trans h0)]
      have hz : ∀ i, ε i = 0 := fun i => by
        have := Finset.sum_eq_zero_iff.1 h0 i (Finset.mem_univ i); exact this
      refine ⟨fun _ => ?_, fun h => absurd (Or.inr (Or.inl h0)) h⟩
      obtain ⟨s, e1, e2, e3, e4, e5, e6, e7⟩ := unitPower_spec h hfull hall hkeep
      refine ⟨s, e1, e2, e3, by rw [e4, h0]; simp, by rw [e5, if_pos h0], e6, ?_⟩
      simpa [hz] using e7
    · rw [if_neg (fun h => h0 (hnorm.symm.trans h))]
      obtain ⟨i, hi, hne⟩ := find_ofFn ε h0
      rw [hi]
      obtain ⟨pi, c1, c2, c3, c4, c5, c6, c7⟩ := component_support h hF i
      simp only
      rw [unit_ok n i i.2]
      simp only [Py.bind_ok]
      rw [c1]
      simp only [Py.bind_ok]
      have hle : (Pi.single i 1 : Fin n → ℕ) ≤ ε := single_le hne
      rw [zero_set, sub_ofFn hle]
      simp only [Py.bind_ok]
      have hsum : ∑ j, (ε - (Pi.single i 1 : Fin n → ℕ)) j = ∑ j, ε j - 1 := by
        rw [sum_sub hle]; simp
      have hprod : (fun j x => F j x i * ∏ k, F j x k ^ (ε - (Pi.single i 1 : Fin n → ℕ)) k) = fun j x => ∏ k, F j x k ^ ε k := by
        funext j x
        rw [← Finset.mul_prod_erase Finset.univ (fun k => F j x k ^ (ε - (Pi.single i 1 : Fin n → ℕ)) k) (Finset.mem_univ i),
          ← Finset.mul_prod_erase Finset.univ (fun k => F j x k ^ ε k) (Finset.mem_univ i), ← mul_assoc]
        congr 1
        · simp only [Pi.sub_apply, Pi.single_eq_same]
          rw [← pow_succ', Nat.sub_add_cancel (Nat.pos_of_ne_zero hne)]
        · refine Finset.prod_congr rfl (fun j hj => ?_)
          simp [Pi.single_apply, (Finset.mem_erase.1 hj).1]
      obtain ⟨ih1, ih2⟩ := ih (ε - (Pi.single i 1 : Fin n → ℕ)) (by rw [hsum]; omega)
      have hdeg : p.r + (p.r * (∑ j, ε j - 1) + unitDegree p.cont) = p.r * ∑ j, ε j + unitDegree p.cont := by
        rw [← Nat.add_assoc]
        congr 1
        rw [Nat.add_comm, ← Nat.mul_succ, Nat.succ_eq_add_one, Nat.sub_add_cancel (Nat.pos_of_ne_zero h0)]
      by_cases hc : p.support = [] ∨ ∑ j, (ε - (Pi.single i 1 : Fin n → ℕ)) j = 0 ∨
          Fits (p.r * ∑ j, (ε - (Pi.single i 1 : Fin n → ℕ)) j + unitDegree p.cont) m
      · obtain ⟨s, e1, e2, e3, e4, e5, e6, e7⟩ := ih1 hc
        rw [e1]
        simp only [Py.bind_ok]
        have hsup : ∀ j ∈ p.support, j ∈ s.support := by
          intro j hj
          rw [e5]
          split
          · simpa using h.support j hj
          · exact hj
        obtain ⟨m1, m2⟩ := mul_covered c2 e2 hfull c3 e3 c5 c6 hsup c7 e7
        have hr : pi.r + s.r = p.r * ∑ i, ε i + unitDegree p.cont := by rw [c4, e4, hsum, hdeg]
        rw [hr] at m1 m2
        refine ⟨fun hc => ?_, fun hc => m2 (fun h1 => hc (h1.imp id Or.inr))⟩
        obtain ⟨t, t1, t2, t3, t4, t5, t6, t7⟩ := m1 (hc.imp id (fun h1 => h1.resolve_left h0))
        exact ⟨t, t1, t2, t3, t4, t5.trans (if_neg h0).symm, t6, hprod ▸ t7⟩
      · obtain ⟨e, he⟩ := ih2 hc
        rw [he]
        push Not at hc
        refine ⟨fun hc' => ?_, fun _ => ⟨e, rfl⟩⟩
        rcases hc' with hc' | hc' | hc'
        · exact absurd hc' hc.1
        · exact absurd hc' h0
        · refine absurd (hc'.mono ?_) hc.2.2
          rw [hsum]
          have := Nat.mul_le_mul_left p.r (Nat.sub_le (∑ j, ε j) 1)
          omega

omit [DecidableEq K] [CharZero K] in
theorem IsPoly_component {g : (Fin m → K) → Fin n → K} (hg : IsPoly m r g) (i : Fin n) : IsPoly m r (fun x => g x i) := by
  obtain ⟨c, hc⟩ := hg
  exact ⟨fun ν => c ν i, fun x => (congrFun (hc x) i).trans (by rw [Finset.sum_apply]; rfl)⟩

/-- Values of a continuous space at a common lattice point of two simplices. -/
theorem lattice_value {p : PObj K V m Tr} (h : WellFormed p) {M : L2G.Map} {t : ℕ → List ℕ → ℤ}
    (ht : TauSpec p.cont m p.r p.triangles p.boundary p.keepLast M p.coeff.length t) {s : ℕ} (hs : s ≠ 0) {j j' : ℕ} (hj : j < p.triangles.length)
    (hj' : j' < p.triangles.length) {a a' : Fin m → ℕ} (ha : a ∈ S m s) (ha' : a' ∈ S m s)
    (hsame : SameDof p.cont s p.triangles j (List.ofFn a) j' (List.ofFn a')) :
    val p.basis m p.r (loc p.coeff t j) (lpt K s a) = val p.basis m p.r (loc p.coeff t j') (lpt K s a') := by
  unfold SameDof at hsame
  by_cases hcont : p.cont = true
  · rw [if_pos hcont, getD_triangles hj, getD_triangles hj'] at hsame
    obtain ⟨cc, hcc⟩ := factor (hcont ▸ ht) p.coeff
    have hT := h.space.mesh.simplex _ (List.getElem_mem hj)
    have hT' := h.space.mesh.simplex _ (List.getElem_mem hj')
    have hW := lpt_bary (K := K) hT.2 hT.1 ha hs
    have hW' := lpt_bary (K := K) hT'.2 hT'.1 ha' hs
    rw [← hsame] at hW'
    refine val_common h.basis hT.2 hT.1 hT'.2 hT'.1 _ _ cc (fun ν hν => by rw [hcc j hj ν hν, getD_triangles hj])
      (fun ν hν => by rw [hcc j' hj' ν hν, getD_triangles hj']) hW hW' ?_ ?_
    · intro v _ hv
      rw [hsame, latticePoint_off (by simp [hT'.1]) hv]; simp
    · intro v _ hv
      rw [latticePoint_off (by simp [hT.1]) hv]; simp
  · rw [if_neg hcont] at hsame
    obtain rfl := hsame.1
    obtain rfl := List.ofFn_injective hsame.2
    rfl

theorem powMultiLagrange_spec {p : PObj K (Fin n → K) m Tr} (h : WellFormed p) (hfull : Full p) {F : ℕ → (Fin m → K) → Fin n → K} (hF : Denotes p F)
    (hb : p.basis = .lagrange) (ε : Fin n → ℕ) (h0 : p.r * ∑ i, ε i ≠ 0) :
    (p.support = [] ∨ Fits (p.r * ∑ i, ε i) m →
      ∃ s, p.powMultiLagrange (List.ofFn ε) = .ok s ∧ WellFormed s ∧ SameKind s p ∧ s.r = p.r * ∑ i, ε i ∧ s.support = p.support ∧ s.tree = p.tree ∧
        Denotes s (fun j x => ∏ i, F j x i ^ ε i)) ∧
    (¬ (p.support = [] ∨ Fits (p.r * ∑ i, ε i) m) → ∃ e, p.powMultiLagrange (List.ofFn ε) = .error e) := by
  obtain ⟨M, t, hg, hM, ht⟩ := h.data
  have hnorm : MI.norm (List.ofFn ε) = ∑ i, ε i := by rw [show MI.norm (List.ofFn ε) = (List.ofFn ε).sum from rfl, List.sum_ofFn]
  set R := p.r * ∑ i, ε i with hR
  have hsp := h.space.other (s := R) (fun _ => h0)
  obtain ⟨M', N', t', hg', ht'⟩ := genMap_spec hsp p.keepLast
  have hunf : p.powMultiLagrange (List.ofFn ε) = (do
      let coeff ← p.support.foldlM (powLoopLagrange p (List.ofFn ε) M'.tau R) (zeros K N')
      PObj.new (fun _ => .ok p.tree) p.basis p.cont coeff p.triangles p.vertices R (some M'.tau) p.boundary p.keepLast (some p.support) (some p.tree) none) := by
    unfold PObj.powMultiLagrange
    simp only [List.length_ofFn, decide_true, pyAssert_true, Py.bind_ok]
    rw [hnorm, ← hR, if_neg h0, hg', Py.bind_ok, ht'.toNat]
  have hpoly : ∀ j, IsPoly m R (fun u : Fin m → K => ∏ i, val p.basis m p.r (loc p.coeff t j) u i ^ ε i) := by
    intro j
    rw [hR, Finset.mul_sum]
    refine isPoly_finset_prod _ _ _ (fun i _ => ?_)
    exact (IsPoly_component (val_isPoly p.basis m p.r _) i).pow (ε i)
  set e : ℕ → List ℕ → K := fun j ν => ∏ i, val p.basis m p.r (loc p.coeff t j) (fun k : Fin m => ((ν.getD k 0 : ℕ) : K) / (R : K)) i ^ ε i with he
  have he1 : ∀ j (u : Fin m → K), val .lagrange m R (e j) u = ∏ i, val p.basis m p.r (loc p.coeff t j) u i ^ ε i := fun j u => val_sampled (hpoly j) u
  have hlp : ∀ a : Fin m → ℕ, (fun k : Fin m => (((List.ofFn a).getD k 0 : ℕ) : K) / (R : K)) = lpt K R a := fun a => by
    funext k
    simp [lpt]
  have hoff : ∀ j, j < p.triangles.length → j ∉ p.support → ∀ ν, IsIndex m R ν → e j ν = 0 := by
    intro j hj hjs ν _
    rw [he]
    simp only
    obtain ⟨k, -, hk⟩ := Finset.exists_ne_zero_of_sum_ne_zero (Nat.ne_zero_of_mul_ne_zero_right h0)
    refine Finset.prod_eq_zero (Finset.mem_univ k) ?_
    rw [cover_val h hM ht hj hjs, Pi.zero_apply, zero_pow hk]
  have hsame : ∀ j, j < p.triangles.length → ∀ ν, IsIndex m R ν → ∀ j', j' < p.triangles.length → ∀ ν', IsIndex m R ν' →
      SameDof p.cont R p.triangles j ν j' ν' → e j ν = e j' ν' := by
    intro j hj ν hν j' hj' ν' hν' hs
    obtain ⟨a, ha, rfl⟩ := isIndex_iff.1 hν
    obtain ⟨a', ha', rfl⟩ := isIndex_iff.1 hν'
    rw [he]
    simp only
    rw [hlp, hlp, lattice_value h ht h0 hj hj' ha ha' hs]
  have hstep : ∀ j ∈ p.support, ∀ coeff : List K, coeff.length = N' → powLoopLagrange p (List.ofFn ε) M'.tau R coeff j =
      .ok (stores coeff ((MI.mis m R).map (fun ν => ((t' j ν).toNat, e j ν)))) := by
    intro j hj coeff hcl
    have hjt := h.support j hj
    obtain ⟨v, hv, hd⟩ := h.space.cells j hjt
    unfold powLoopLagrange
    rw [hv, Py.bind_ok, MI.generateAll_eq_mis]
    refine storeLoop_eq (N := N') (fun ν => ht'.tau j hjt ν) _ 0 coeff
      (fun ν hν => ht'.full hfull hjt ((mem_mis_iff m _ ν).1 hν)) hcl ?_
    intro i ν hi
    obtain ⟨hν1, hν2⟩ := (mem_mis_iff m R ν).1 (List.mem_of_getElem? hi)
    rw [lagrangePointSimplex_eq v _ _ hν1 hν2, Py.bind_ok, hF j hjt, Py.bind_ok, MI.power_eq _ _ (by simp), denotes_val h hF hM ht hjt hv, down_up v hd]
    congr 1
    exact monomial_ofFn _ ε
  constructor
  · intro hcase
    obtain ⟨L, hL, hLl, hLn, hLe⟩ := assemble ht' hfull h.space.mesh.ne (e := e) hsame h.support hstep hoff
    rw [hunf, hL, Py.bind_ok]
    obtain ⟨s, q1, q2, q3, q4, q5, q6, q7, q8, q9, q10, q11, q12, q13⟩ := new_given (Tr := Tr) (mkTree := fun _ => .ok p.tree) h.basis hsp hg' (hLl ▸ ht') hLn
      h.support (fun j hj hj' ν hν => by rw [hLe j hj ν hν, hoff j hj hj' ν hν]) (tree := p.tree) hcase
    refine ⟨s, q1, q2, ⟨q3, q4, q7, q8, q9, q10⟩, q11, q12, q13, denotes_of q2 q6 (t := t') ?_ ?_⟩
    · rw [q4, q11, q7, q9, q10, q5, hLl]; exact ht'
    · intro j hj v hv hd x
      rw [q7] at hj
      rw [q7, q8] at hv
      rw [q3, q11, q5, val_congr (fun ν hν => hLe j hj ν hν), hb, he1 j, denotes_val h hF hM ht hj hv x]
  · intro hcase
    push Not at hcase
    rw [hunf]
    cases hfold : p.support.foldlM (powLoopLagrange p (List.ofFn ε) M'.tau R) (zeros K N') with
    | error e => exact ⟨e, rfl⟩
    | ok L =>
      rw [Py.bind_ok]
      exact new_toobig hsp h.support _ _ hcase.1 hcase.2

end Verif.PP
