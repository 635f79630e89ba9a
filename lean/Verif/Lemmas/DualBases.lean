import Verif.Lemmas.DualBernstein
import Verif.Lemmas.Lattice
/-!
# Dual bases and conversion of bases
-/

namespace Verif.Poly
open Verif Verif.MI Verif.Spec MeasureTheory

section General
variable {K V : Type} [Field K] [CharZero K] [AddCommGroup V] [Module K V]

theorem linComb_val (b : Basis) (m r : Nat) (c : List Nat → V) (x : Fin m → K) :
    linComb (basisFn b r (List.ofFn x)) (MI.generateAll m r) (tab m r c) = val b m r c x := by
  rw [MI.generateAll_eq_mis, linComb_tab]; rfl

/-- Every polynomial function of degree at most `r` is a combination of the basis of degree `r`. -/
theorem exists_val (b : Basis) {m r : Nat} {f : (Fin m → K) → V} (hf : IsPoly (K := K) m r f) : ∃ c, f = val b m r c := by
  classical
  -- one value at a time: scalar combinations with prescribed values
  let T : ({μ // μ ∈ S m r} → K) →ₗ[K] ({μ // μ ∈ S m r} → K) :=
    { toFun := fun w μ => ∑ ν : {μ // μ ∈ S m r}, basisFn b r (List.ofFn (lpt K r μ.1)) (List.ofFn ν.1) * w ν
      map_add' := fun w w' => by
        funext μ; simp [mul_add, Finset.sum_add_distrib]
      map_smul' := fun a w => by
        funext μ; simp only [Pi.smul_apply, smul_eq_mul, Finset.mul_sum, RingHom.id_apply]
        exact Finset.sum_congr rfl (fun ν _ => by ring) }
  have ext : ∀ w : {μ // μ ∈ S m r} → K, ∃ c : List Nat → K, ∀ ν : {μ // μ ∈ S m r}, c (List.ofFn ν.1) = w ν := by
    intro w
    refine ⟨fun l => if h : ∃ ν : {μ // μ ∈ S m r}, List.ofFn ν.1 = l then w h.choose else 0, fun ν => ?_⟩
    have h : ∃ ν' : {μ // μ ∈ S m r}, List.ofFn ν'.1 = List.ofFn ν.1 := ⟨ν, rfl⟩
    simp only [h, dif_pos]
    congr 1
    exact Subtype.ext (List.ofFn_injective h.choose_spec)
  have hT : ∀ (w : {μ // μ ∈ S m r} → K) (c : List Nat → K), (∀ ν : {μ // μ ∈ S m r}, c (List.ofFn ν.1) = w ν) →
      ∀ μ : {μ // μ ∈ S m r}, T w μ = val b m r c (lpt K r μ.1) := by
    intro w c hc μ
    show ∑ ν : {μ // μ ∈ S m r}, _ = ∑ ν ∈ S m r, _
    rw [← Finset.sum_coe_sort (S m r)]
    exact Finset.sum_congr rfl (fun ν _ => by rw [hc ν, smul_eq_mul])
  have hinj : Function.Injective T := by
    rw [injective_iff_map_eq_zero]
    intro w hw
    obtain ⟨c, hc⟩ := ext w
    have h0 : ∀ x : Fin m → K, val b m r c x = val b m r (fun _ => (0 : K)) x := by
      intro x
      rw [interpolation (val_isPoly (K := K) b m r c) x, val_zero]
      refine Finset.sum_eq_zero (fun μ hμ => ?_)
      rw [← hT w c hc ⟨μ, hμ⟩, hw]; simp
    have h1 := tab_unique (K := K) b m r c (fun _ => 0) h0
    funext ν
    rw [← hc ν]
    have hm : List.ofFn ν.1 ∈ mis m r := mem_mis.2 ⟨by simp, by rw [List.sum_ofFn]; exact mem_S.1 ν.2⟩
    exact List.map_inj_left.1 h1 _ hm
  have hsurj : Function.Surjective T := LinearMap.injective_iff_surjective.1 hinj
  -- the Lagrange functions
  have hl : ∀ μ : {μ // μ ∈ S m r}, ∃ c : List Nat → K, ∀ x, val b m r c x = lagrange r (List.ofFn x) (List.ofFn μ.1) := by
    intro μ
    obtain ⟨w, hw⟩ := hsurj (fun ν => if ν = μ then 1 else 0)
    obtain ⟨c, hc⟩ := ext w
    refine ⟨c, fun x => ?_⟩
    rw [interpolation (val_isPoly (K := K) b m r c) x, Finset.sum_eq_single μ.1]
    · rw [← hT w c hc μ, hw]; simp
    · intro ν hν hne
      rw [← hT w c hc ⟨ν, hν⟩, hw]
      have hn : (⟨ν, hν⟩ : {μ // μ ∈ S m r}) ≠ μ := fun h => hne (congrArg Subtype.val h)
      simp only [if_neg hn, smul_zero]
    · intro h; exact absurd μ.2 h
  choose c hc using hl
  refine ⟨fun l => ∑ μ : {μ // μ ∈ S m r}, c μ l • f (lpt K r μ.1), funext fun x => ?_⟩
  rw [interpolation hf x]
  unfold val
  simp only [Finset.smul_sum]
  rw [Finset.sum_comm, ← Finset.sum_coe_sort (S m r)]
  refine Finset.sum_congr rfl (fun μ _ => ?_)
  rw [← hc μ x]
  unfold val
  rw [Finset.sum_smul]
  exact Finset.sum_congr rfl (fun ν _ => by rw [smul_smul, smul_eq_mul])

end General

theorem basisOf_identifier (b : Basis) : basisOf b.identifier = .ok b := by cases b <;> rfl

theorem basisOf_unknown {name : String} (h : ∀ b : Basis, name ≠ b.identifier) : basisOf name = .error .value := by
  unfold basisOf
  rw [if_neg (h _), if_neg (h _), if_neg (h _)]

/-- The condition under which the dual basis functions work. -/
def DualOk (b : Basis) (m r : Nat) (p : Obj ℝ) : Prop := b = .bernstein → p.r = r ∧ Fits (2 * r) m

theorem dualLagrange_val {m r : Nat} {p : Obj ℝ} {f : (Fin m → ℝ) → ℝ} (hp : Represents p m f) (μ : Fin m → ℕ) (hμ : μ ∈ S m r) :
    dualLagrangeBasisFn ℝ (List.ofFn μ) r p = .ok (f (lpt ℝ r μ)) := by
  unfold dualLagrangeBasisFn
  rw [List.length_ofFn, lagrangePoint_ofFn ℝ m r μ hμ]
  exact hp.value _

theorem dualFn_spec (b : Basis) (r m : Nat) (hf : b = .bernstein → Fits r m) (μ : Fin m → ℕ) (hμ : μ ∈ S m r) :
    ∃ q, dualPolynomialBasisFn ℝ (List.ofFn μ) r b.identifier = .ok q ∧
      ∀ (p : Obj ℝ) (c : List Nat → ℝ), Represents p m (val (K := ℝ) b m r c) → DualOk b m r p → q p = .ok (c (List.ofFn μ)) := by
  unfold dualPolynomialBasisFn
  rw [basisOf_identifier]
  cases b with
  | monomial =>
    refine ⟨_, rfl, fun p c hp _ => ?_⟩
    have h1 : val (K := ℝ) .monomial m r c = mono r (fun ν => if ν ∈ S m r then c (List.ofFn ν) else 0) := by
      funext x
      unfold val mono
      refine Finset.sum_congr rfl (fun ν hν => ?_)
      simp only [if_pos hν]
      rw [show basisFn Basis.monomial r (List.ofFn x) (List.ofFn ν) = _ from monomial_ofFn x ν]
    rw [h1] at hp
    have h2 := dualMonomial_mono hp (fun ν hν => if_neg (fun h => absurd (mem_S.1 h) (by omega))) μ
    rw [if_pos hμ] at h2
    exact h2
  | lagrange =>
    refine ⟨_, rfl, fun p c hp _ => ?_⟩
    rw [dualLagrange_val hp μ hμ, PP.val_lpt c hμ]
  | bernstein =>
    obtain ⟨e, h1, h2⟩ := dualPolynomial_spec r m (hf rfl) μ hμ
    refine ⟨dualBernsteinApply (mkObj .bernstein m r e) m r, ?_, fun p c hp hok => ?_⟩
    · show dualBernsteinFn ℝ (List.ofFn μ) r = _
      unfold dualBernsteinFn
      rw [h1, List.length_ofFn]; rfl
    · rw [dualApply_spec e hp (hok rfl).1 (hok rfl).2, integral_dual h2 hμ]

theorem dualBasis_spec (b : Basis) (r m : Nat) (hf : b = .bernstein → Fits r m) :
    ∃ qs : List Nat → Obj ℝ → Py ℝ, dualPolynomialBasis ℝ r m b.identifier = .ok (tab m r qs) ∧
      ∀ ν ∈ mis m r, dualPolynomialBasisFn ℝ ν r b.identifier = .ok (qs ν) ∧
      ∀ (p : Obj ℝ) (c : List Nat → ℝ), Represents p m (val (K := ℝ) b m r c) → DualOk b m r p →
        qs ν p = .ok (c ν) := by
  have key : ∀ ν ∈ mis m r, ∃ q, dualPolynomialBasisFn ℝ ν r b.identifier = .ok q ∧
      ∀ (p : Obj ℝ) (c : List Nat → ℝ), Represents p m (val (K := ℝ) b m r c) → DualOk b m r p → q p = .ok (c ν) := by
    intro ν hν
    obtain ⟨h1, h2⟩ := mem_mis.1 hν
    obtain ⟨μ, rfl⟩ := eq_ofFn h1
    exact dualFn_spec b r m hf μ (mem_S.2 (by rwa [List.sum_ofFn] at h2))
  classical
  refine ⟨fun ν => if h : ν ∈ mis m r then (key ν h).choose else fun _ => .error .value, ?_, ?_⟩
  · unfold dualPolynomialBasis
    rw [basisOf_identifier, Py.bind_ok, MI.generateAll_eq_mis]
    apply mapM_eq_ok
    intro ν hν
    rw [dif_pos hν]
    exact (key ν hν).choose_spec.1
  · intro ν hν
    simp only [dif_pos hν]
    exact (key ν hν).choose_spec

theorem tab_mapM {W X : Type} (m r : Nat) (qs : List Nat → W) (F : W → Py X) (c : List Nat → X)
    (h : ∀ ν ∈ mis m r, F (qs ν) = .ok (c ν)) : (tab m r qs).mapM F = .ok (tab m r c) := by
  unfold tab
  generalize mis m r = l at h ⊢
  induction l with
  | nil => rfl
  | cons a l ih =>
    rw [List.map_cons, List.mapM_cons, h a (by simp), ih (fun ν hν => h ν (by simp [hν]))]; rfl

theorem dualApply_assertion {r m : Nat} (e : List Nat → ℝ) (hf : Fits r m) {p : Obj ℝ} {f : (Fin m → ℝ) → ℝ} (hp : Represents p m f)
    (h : (0 < m ∧ p.r ≠ r) ∨ ¬ Fits (r + p.r) m) : dualBernsteinApply (mkObj .bernstein m r e) m r p = .error .assertion := by
  have hd : Represents (mkObj .bernstein m r e) m (val (K := ℝ) .bernstein m r e) := rep_mk _ _ _ _ hf
  have hdim : Fits (r + p.r) m → getDimension (r + p.r) m ≠ getDimension (2 * r) m := by
    intro hfit
    rcases h with ⟨hm, hr⟩ | h
    · intro hc
      rcases Nat.lt_or_ge p.r r with hlt | hge
      · exact absurd hc (getDimension_strictMono m hm (by omega)).ne
      · exact absurd hc (getDimension_strictMono m hm (by omega)).ne'
    · exact absurd hfit h
  have other : (do
      let dm ← (mkObj .bernstein m r e).toMonomialBasis ℝ
      let pm ← p.toMonomialBasis ℝ
      let c ← dm.mul pm
      Integration.integrateMonomialPolynomialUnit ℝ (2 * r) m c.coeff) = .error .assertion := by
    obtain ⟨dm, a1, a2, a3, a4⟩ := toMonomialBasis_rep hd
    obtain ⟨pm, b1, b2, b3, b4⟩ := toMonomialBasis_rep hp
    have h4 : dm.r + pm.r = r + p.r := by rw [a4, b4]; rfl
    rw [a1, b1, Py.bind_ok, Py.bind_ok]
    by_cases hfit : Fits (r + p.r) m
    · obtain ⟨s, c1, c2, c3, c4⟩ := mul_rep a2 b2 (Or.inr (by rw [a3, b3])) (by rw [h4]; exact hfit)
      obtain ⟨c, hc, _, _⟩ := c2.exists_mk
      have hl : s.coeff.length = getDimension (r + p.r) m := by rw [hc, c4, h4]; exact length_tab _ _ _
      rw [c1, Py.bind_ok]
      unfold Integration.integrateMonomialPolynomialUnit
      rw [hl, decide_eq_false (hdim hfit), pyAssert_false, Py.bind_error]
    · rw [mul_toobig a2 b2 (Or.inr (by rw [a3, b3])) (by rw [h4]; exact hfit), Py.bind_error]
  unfold dualBernsteinApply
  cases hb : p.basis with
  | bernstein =>
    have h4 : (mkObj Basis.bernstein m r e).r + p.r = r + p.r := rfl
    by_cases hfit : Fits (r + p.r) m
    · obtain ⟨s, c1, c2, c3, c4⟩ := mul_rep hd hp (Or.inr (by rw [hb]; rfl)) (by rw [h4]; exact hfit)
      obtain ⟨c, hc, _, _⟩ := c2.exists_mk
      have hl : s.coeff.length = getDimension (r + p.r) m := by rw [hc, c4, h4]; exact length_tab _ _ _
      simp only
      rw [c1, Py.bind_ok]
      unfold Integration.integrateBernsteinUnit
      rw [hl, decide_eq_false (hdim hfit), pyAssert_false, Py.bind_error]
    · simp only
      rw [mul_toobig hd hp (Or.inr (by rw [hb]; rfl)) (by rw [h4]; exact hfit), Py.bind_error]
  | monomial => exact other
  | lagrange => exact other

/-! ## Vector valued bases -/

theorem vectorBasisFn_rep (b : Basis) (ν : List Nat) (r i n m : Nat) (hn : n ≠ 1) (hi : i < n) (hν : ν ∈ mis m r) (hf : Fits r m) :
    ∃ q : Obj (Fin n → ℝ), vectorBasisFn ℝ b ν r i n = .ok (.vector n q) ∧ q.basis = b ∧
      Represents q m (fun (x : Fin m → ℝ) (l : Fin n) => if (l : Nat) = i then basisFn b r (List.ofFn x) ν else 0) := by
  obtain ⟨hl, hs⟩ := mem_mis.1 hν
  set r' := if b = .monomial then MI.norm ν else r with hr'
  have hs' : ν.sum ≤ r' := by rw [hr']; split <;> simp_all [MI.norm]
  have hle : r' ≤ r := by rw [hr']; split <;> simp_all [MI.norm]
  have hf' : Fits r' m := hf.mono hle
  obtain ⟨k, k1, k2⟩ := getIndex_ok hs'
  rw [hl] at k2
  refine ⟨mkObj b m r' (fun μ => if μ = ν then (fun l : Fin n => if (l : Nat) = i then (1 : ℝ) else 0) else 0), ?_, rfl, ?_⟩
  · unfold vectorBasisFn
    rw [if_neg hn, decide_eq_true hi, pyAssert_true, Py.bind_ok]
    simp only [← hr', hl]
    rw [k1, Py.bind_ok, zeros_tab, setE_tab _ _ k2, Py.bind_ok, new_mk _ _ _ _ hf']
    rfl
  · have e : (fun (x : Fin m → ℝ) (l : Fin n) => if (l : Nat) = i then basisFn b r (List.ofFn x) ν else 0) =
        val b m r' (fun μ => if μ = ν then (fun l : Fin n => if (l : Nat) = i then (1 : ℝ) else 0) else 0) := by
      funext x l
      rw [← val_component]
      have h1 : basisFn b r (List.ofFn x) ν = basisFn b r' (List.ofFn x) ν := by
        rw [hr']; cases b <;> simp [basisFn]
      have h2 := val_single (K := ℝ) b m r' ν hl hs' x
      by_cases hli : (l : Nat) = i
      · rw [if_pos hli, h1, ← h2]
        congr 1
        funext μ
        by_cases hμ : μ = ν <;> simp [hμ, hli]
      · rw [if_neg hli]
        have : (fun μ : List Nat => (if μ = ν then (fun l : Fin n => if (l : Nat) = i then (1 : ℝ) else 0) else 0) l) = fun _ => 0 := by
          funext μ
          by_cases hμ : μ = ν <;> simp [hμ, hli]
        rw [this, val_zero]
    rw [e]
    exact rep_mk _ _ _ _ hf'

theorem length_flatMap_const {α β : Type} (l : List α) (f : α → List β) (k : Nat) (h : ∀ a ∈ l, (f a).length = k) :
    (l.flatMap f).length = l.length * k := by
  induction l with
  | nil => simp
  | cons a l ih =>
    rw [List.flatMap_cons, List.length_append, h a (by simp), ih (fun a' h' => h a' (by simp [h'])), List.length_cons, Nat.succ_mul,
      Nat.add_comm]

theorem get_flatMap_const {α β : Type} (l : List α) (f : α → List β) (k : Nat) (h : ∀ a ∈ l, (f a).length = k) (i j : Nat) (a : α)
    (ha : l[i]? = some a) (hj : j < k) : (l.flatMap f)[i * k + j]? = (f a)[j]? := by
  induction l generalizing i with
  | nil => simp at ha
  | cons b l ih =>
    rw [List.flatMap_cons]
    have hb := h b (by simp)
    cases i with
    | zero =>
      simp only [List.getElem?_cons_zero, Option.some.injEq] at ha
      subst ha
      rw [List.getElem?_append_left (by omega)]; simp
    | succ i =>
      rw [List.getElem?_append_right (by rw [hb, Nat.succ_mul]; omega), hb,
        show (i + 1) * k + j - k = i * k + j by rw [Nat.succ_mul]; omega]
      exact ih (fun a' h' => h a' (by simp [h'])) i (by simpa using ha)

theorem length_vectorPairs (r m n : Nat) (ordering : String) : (vectorPairs r m n ordering).length = n * getDimension r m := by
  unfold vectorPairs
  rw [MI.generateAll_eq_mis]
  split
  · rw [length_flatMap_const _ _ n (by simp), length_mis_eq, Nat.mul_comm]
  · rw [length_flatMap_const _ _ (getDimension r m) (by simp [length_mis_eq]), List.length_range]

theorem get_vectorPairs (r m n : Nat) (ordering : String) {k i : Nat} {ν : List Nat} (hk : (mis m r)[k]? = some ν) (hi : i < n) :
    (vectorPairs r m n ordering)[if ordering = "interleaved" then k * n + i else i * getDimension r m + k]? = some (ν, i) := by
  unfold vectorPairs
  rw [MI.generateAll_eq_mis]
  have hk' : k < getDimension r m := by rw [← length_mis_eq]; exact (List.getElem?_eq_some_iff.1 hk).1
  by_cases ho : ordering = "interleaved"
  · rw [if_pos ho, if_pos ho, get_flatMap_const _ _ n (by simp) k i ν hk hi]
    simp [hi]
  · rw [if_neg ho, if_neg ho, get_flatMap_const _ _ (getDimension r m) (by simp [length_mis_eq]) i k i (by simp [hi]) hk']
    simp [hk]

/-! ## Conversion -/

theorem identifier_inj {b b' : Basis} (h : b.identifier = b'.identifier) : b = b' := by
  cases b <;> cases b' <;> first | rfl | exact absurd h (by decide)

theorem range_getE {W X : Type} (m r n : Nat) (hn : n = getDimension r m) (qs : List Nat → W) (F : W → Py X) (c : List Nat → X)
    (h : ∀ ν ∈ mis m r, F (qs ν) = .ok (c ν)) :
    (List.range n).mapM (fun (i : Nat) => do
      let q ← getE (tab m r qs) i
      F q) = .ok (tab m r c) := by
  subst hn
  have := tab_mapM m r (fun ν => (mis m r).idxOf ν) (fun (i : Nat) => do
      let q ← getE (tab m r qs) i
      F q) c (fun ν hν => by
    have h1 : (mis m r)[(mis m r).idxOf ν]? = some ν := by
      rw [List.getElem?_eq_getElem (List.idxOf_lt_length_of_mem hν)]; simp
    rw [getE_tab _ h1, Py.bind_ok, h ν hν])
  rw [← this]
  congr 1
  apply List.ext_getElem
  · simp [length_tab]
  · intro i h1 h2
    simp [tab, (nodup_mis m r).idxOf_getElem]

theorem convertScalar_rep {m : Nat} {p : Obj ℝ} {f : (Fin m → ℝ) → ℝ} (hp : Represents p m f) (b : Basis)
    (hb : b = .bernstein → p.basis ≠ .bernstein → Fits (2 * p.r) m) :
    ∃ q, convertScalar p b.identifier = .ok q ∧ Represents q m f ∧ q.basis = b ∧ q.r = p.r := by
  unfold convertScalar
  by_cases h1 : p.basis = b
  · rw [if_pos (by rw [h1])]
    exact ⟨p, rfl, hp, h1, rfl⟩
  rw [if_neg (fun h => h1 (identifier_inj h))]
  by_cases h2 : b = .monomial
  · subst h2
    rw [if_pos rfl]
    exact toMonomialBasis_rep hp
  rw [if_neg (fun h => h2 (identifier_inj h))]
  have hfits := hp.fits
  obtain ⟨qs, g1, g2⟩ := dualBasis_spec b p.r m (fun _ => hfits)
  obtain ⟨c, hc⟩ := exists_val b hp.isPoly
  obtain ⟨c0, hpc, _, _⟩ := hp.exists_mk
  have hlen : p.coeff.length = getDimension p.r m := by rw [hpc]; exact length_tab _ _ _
  rw [hp.dim, g1, Py.bind_ok, range_getE m p.r _ hlen qs (fun q => q p) c, Py.bind_ok, basisOf_identifier, Py.bind_ok,
    new_mk _ _ _ _ hfits]
  · exact ⟨_, rfl, by rw [hc]; exact rep_mk _ _ _ _ hfits, rfl, rfl⟩
  · intro ν hν
    exact (g2 ν hν).2 p c (by rw [← hc]; exact hp) (fun h => ⟨rfl, hb h (fun h' => h1 (h'.trans h.symm))⟩)

theorem convertVector_rep {m n : Nat} {p : Obj (Fin n → ℝ)} {f : (Fin m → ℝ) → (Fin n → ℝ)} (hp : Represents p m f) (b : Basis)
    (hb : b = .bernstein → p.basis ≠ .bernstein → Fits (2 * p.r) m) :
    ∃ q, convertVector p b.identifier = .ok q ∧ Represents q m f ∧ q.basis = b ∧ q.r = p.r := by
  unfold convertVector
  by_cases h1 : p.basis = b
  · rw [if_pos (by rw [h1])]
    exact ⟨p, rfl, hp, h1, rfl⟩
  rw [if_neg (fun h => h1 (identifier_inj h))]
  by_cases h2 : b = .monomial
  · subst h2
    rw [if_pos rfl]
    exact toMonomialBasis_rep hp
  rw [if_neg (fun h => h2 (identifier_inj h))]
  have hfits := hp.fits
  obtain ⟨qs, g1, g2⟩ := dualBasis_spec b p.r m (fun _ => hfits)
  obtain ⟨c, hc⟩ := exists_val b hp.isPoly
  obtain ⟨c0, hpc, _, _⟩ := hp.exists_mk
  have hlen : p.coeff.length = getDimension p.r m := by rw [hpc]; exact length_tab _ _ _
  have hcomp : ∀ j : Fin n, ∀ ν ∈ mis m p.r, (do
      let pj ← p.component j
      qs ν pj) = .ok (c ν j) := by
    intro j ν hν
    obtain ⟨s, s1, s2, s3, s4⟩ := component_rep hp j
    rw [s1, Py.bind_ok]
    have e2 : (fun x : Fin m → ℝ => f x j) = val b m p.r (fun ν => c ν j) := by
      funext x; rw [hc, val_component]
    rw [e2] at s2
    exact (g2 ν hν).2 s _ s2 (fun h => ⟨s4, hb h (fun h' => h1 (h'.trans h.symm))⟩)
  have hrow : (List.range p.coeff.length).mapM (fun (i : Nat) => do
      let row ← (List.finRange n).mapM (fun (j : Fin n) => do
        let q ← getE (tab m p.r qs) i
        let pj ← p.component j
        q pj)
      return fun j : Fin n => row.getD j 0) = .ok (tab m p.r c) := by
    rw [hlen]
    have := tab_mapM m p.r (fun ν => (mis m p.r).idxOf ν) (fun (i : Nat) => do
      let row ← (List.finRange n).mapM (fun (j : Fin n) => do
        let q ← getE (tab m p.r qs) i
        let pj ← p.component j
        q pj)
      return fun j : Fin n => row.getD j 0) c (fun ν hν => by
        have h1 : (mis m p.r)[(mis m p.r).idxOf ν]? = some ν := by
          rw [List.getElem?_eq_getElem (List.idxOf_lt_length_of_mem hν)]; simp
        rw [mapM_eq_ok (fun j => c ν j) _ (fun j _ => by rw [getE_tab _ h1, Py.bind_ok, hcomp j ν hν]), Py.bind_ok]
        simp [List.getD_eq_getElem?_getD])
    rw [← this]
    congr 1
    apply List.ext_getElem
    · simp [length_tab]
    · intro i h1 h2
      simp [tab, (nodup_mis m p.r).idxOf_getElem]
  rw [hp.dim, g1, Py.bind_ok, hrow, Py.bind_ok, basisOf_identifier, Py.bind_ok, new_mk _ _ _ _ hfits]
  exact ⟨_, rfl, by rw [hc]; exact rep_mk _ _ _ _ hfits, rfl, rfl⟩

theorem convertScalar_error {m : Nat} (hm : 0 < m) {p : Obj ℝ} {f : (Fin m → ℝ) → ℝ} (hp : Represents p m f) (hr : 10 ≤ p.r)
    (hb : p.basis ≠ .bernstein) : convertScalar p "Bernstein" = .error .assertion := by
  have hfits := hp.fits
  unfold convertScalar
  have hid : ¬ p.basis.identifier = "Bernstein" := fun h => hb (identifier_inj (b' := .bernstein) h)
  rw [if_neg hid, if_neg (by decide), hp.dim]
  have hlen : p.coeff.length = getDimension p.r m := by
    obtain ⟨c0, hpc, _, _⟩ := hp.exists_mk
    rw [hpc]; exact length_tab _ _ _
  have key : ∀ ν ∈ mis m p.r, ∃ q, dualPolynomialBasisFn ℝ ν p.r "Bernstein" = .ok q ∧ q p = .error .assertion := by
    intro ν hν
    obtain ⟨h1, h2⟩ := mem_mis.1 hν
    obtain ⟨μ', rfl⟩ := eq_ofFn h1
    have hμ' : μ' ∈ S m p.r := mem_S.2 (by rwa [List.sum_ofFn] at h2)
    obtain ⟨e, d1, _⟩ := dualPolynomial_spec p.r m hfits μ' hμ'
    refine ⟨dualBernsteinApply (mkObj .bernstein m p.r e) m p.r, ?_, ?_⟩
    · show dualBernsteinFn ℝ (List.ofFn μ') p.r = _
      unfold dualBernsteinFn
      rw [d1, List.length_ofFn]; rfl
    · exact dualApply_assertion e hfits hp (Or.inr (by unfold Fits; omega))
  classical
  let qs : List Nat → Obj ℝ → Py ℝ := fun ν => if h : ν ∈ mis m p.r then (key ν h).choose else fun _ => .error .value
  have hqs : ∀ ν ∈ mis m p.r, dualPolynomialBasisFn ℝ ν p.r "Bernstein" = .ok (qs ν) ∧ qs ν p = .error .assertion := by
    intro ν hν
    simp only [qs, dif_pos hν]
    exact (key ν hν).choose_spec
  have hd : dualPolynomialBasis ℝ p.r m "Bernstein" = .ok (tab m p.r qs) := by
    unfold dualPolynomialBasis
    rw [show basisOf "Bernstein" = .ok .bernstein from rfl, Py.bind_ok, MI.generateAll_eq_mis]
    exact mapM_eq_ok _ _ (fun ν hν => (hqs ν hν).1)
  rw [hd, Py.bind_ok, hlen]
  have hpos : 0 < getDimension p.r m := getDimension_pos _ _
  obtain ⟨n, hn⟩ := Nat.exists_eq_succ_of_ne_zero hpos.ne'
  have h0 : (0 : Nat) < (mis m p.r).length := by rw [length_mis_eq]; exact hpos
  rw [hn, Nat.succ_eq_add_one, List.range_succ_eq_map, List.mapM_cons, getE_tab qs (List.getElem?_eq_getElem h0), Py.bind_ok,
    (hqs _ (List.getElem_mem h0)).2]
  rfl

end Verif.Poly
