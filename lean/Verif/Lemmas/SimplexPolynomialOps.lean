import Mathlib.Analysis.Calculus.FDeriv.Mul
import Mathlib.Analysis.Calculus.FDeriv.Pi
import Mathlib.Analysis.Calculus.FDeriv.Add
import Mathlib.Analysis.Calculus.FDeriv.Pow
import Mathlib.Analysis.Calculus.Deriv.Pi
import Mathlib.Analysis.Calculus.Deriv.Prod
import Mathlib.Analysis.Calculus.Deriv.Comp
import Verif.Lemmas.SimplexPolynomial
/-!
# Polynomials on a simplex: products, powers, bases, derivatives
-/

namespace Verif.SPoly
open Verif Verif.Poly Verif.Simplex Verif.Spec

section
variable {K V : Type} [Field K] [DecidableEq K] [AddCommGroup V] [Module K V] {m : Nat}

/-- A representable object lives on a simplex that is not degenerate. -/
theorem repOn_det {p : SObj K V m} {v : Vertices K m m} {f : (Fin m → K) → V} (h : RepresentsOn p v f) : edgeDet v ≠ 0 := by
  intro hd
  have h1 := h.made
  unfold SObj.new at h1
  obtain ⟨e, he⟩ := toUnit_error v hd
  rw [he] at h1
  cases hn : Obj.new p.poly.basis p.poly.coeff (some p.poly.r) m with
  | error e => rw [hn] at h1; cases h1
  | ok q => rw [hn] at h1; cases h1

theorem isPoly_comp {l r : Nat} {g : (Fin m → K) → V} (hg : IsPoly m r g) (phi : Affine K l m) :
    IsPoly l r (fun x => g (createAffineMap phi x)) := by
  obtain ⟨c, hc⟩ := hg
  simp only [hc]
  refine isPoly_finset_sum _ _ (fun ν hν => ?_)
  have h1 : ∀ i : Fin m, IsPoly l 1 (fun x : Fin l → K => createAffineMap phi x i) := by
    intro i
    have h2 : IsPoly l 1 (fun x : Fin l → K => ∑ j, phi.1 i j * x j) :=
      isPoly_finset_sum _ _ (fun j _ => (isPoly_coord j).const_mul _)
    exact h2.add ((isPoly_const l (phi.2 i)).mono (Nat.zero_le 1))
  have h2 := isPoly_finset_prod Finset.univ (fun (i : Fin m) (x : Fin l → K) => createAffineMap phi x i ^ ν i) (fun i => 1 * ν i)
    (fun i _ => (h1 i).pow (ν i))
  simp only [one_mul] at h2
  exact (h2.mono (mem_S.1 hν)).smul_const _

theorem repOn_isPoly [CharZero K] {p : SObj K V m} {v : Vertices K m m} {f : (Fin m → K) → V} (h : RepresentsOn p v f) : IsPoly m p.poly.r f := by
  have hd := repOn_det h
  have h1 := isPoly_comp (Poly.Represents.isPoly ((repOn_iff hd).1 h).2.2) (down v)
  simpa only [up_down v hd] using h1

theorem repOn_fits [CharZero K] {p : SObj K V m} {v : Vertices K m m} {f : (Fin m → K) → V} (h : RepresentsOn p v f) : Fits p.poly.r m :=
  Poly.Represents.fits ((repOn_iff (repOn_det h)).1 h).2.2

theorem fillLoop_map {ι κ : Type} (F : κ → Py V) (h : ι → κ) : ∀ (l : List ι) (j : Nat) (c : List V),
    fillLoop F (l.map h) j c = fillLoop (fun x => F (h x)) l j c
  | [], _, _ => rfl
  | x :: l, j, c => by
    simp only [List.map_cons, fillLoop]
    cases F (h x) with
    | error e => rfl
    | ok w =>
      simp only [Py.bind_ok]
      cases setE c j w with
      | error e => rfl
      | ok c' => exact fillLoop_map F h l (j + 1) c'

/-- Sampling at the Lagrange points of the simplex. -/
theorem sample_repOn [CharZero K] {v : Vertices K m m} (hd : edgeDet v ≠ 0) (r : Nat) (F : (Fin m → K) → Py V) (g : (Fin m → K) → V)
    (hF : ∀ x, F x = .ok (g x)) (hg : IsPoly m r g) :
    ∃ xs c, lagrangePointsSimplex v r = .ok xs ∧ fillLoop F xs 0 (zeros V (getDimension r m)) = .ok c ∧
      (Fits r m → ∃ s, SObj.new .lagrange c v (some r) = .ok s ∧ RepresentsOn s v g ∧ s.poly.basis = .lagrange ∧ s.poly.r = r) ∧
      (¬ Fits r m → SObj.new .lagrange c v (some r) = .error .assertion) := by
  unfold lagrangePointsSimplex
  rw [fromUnit_eq]
  refine ⟨_, tab m r (fun ν => g (createAffineMap (up v) (fun i => ((ν.getD i 0 : Nat) : K) / (r : K)))), rfl, ?_, fun hf => ?_, fun hf => ?_⟩
  · rw [fillLoop_map]
    refine lagrange_sample m r _ (fun u => g (createAffineMap (up v) u)) (fun u => ?_)
    rw [hF]
    congr 3
    funext i
    simp
  · refine ⟨_, snew_ok hd (new_mk _ _ _ _ hf), repOn_mk' hd ?_, rfl, rfl⟩
    have := rep_mk (K := K) .lagrange m r (fun ν => g (createAffineMap (up v) (fun i => ((ν.getD i 0 : Nat) : K) / (r : K)))) hf
    have h2 : (fun u => g (createAffineMap (up v) u)) = val .lagrange m r (fun ν => g (createAffineMap (up v) (fun i => ((ν.getD i 0 : Nat) : K) / (r : K)))) := by
      funext u
      exact (val_sampled (isPoly_comp hg (up v)) u).symm
    rw [h2]; exact this
  · rw [snew_eq _ _ v hd, new_mk_error _ _ _ _ hf]; rfl

theorem mul_repOn [CharZero K] {p q : SObj K K m} {v w : Vertices K m m} {f g : (Fin m → K) → K}
    (hp : RepresentsOn p v f) (hq : RepresentsOn q w g) (hb : p.poly.basis = .lagrange ∨ (p.poly.basis = .bernstein ∧ q.poly.basis = .bernstein ∧ v = w)) :
    (Fits (p.poly.r + q.poly.r) m → ∃ s, p.mul q = .ok s ∧ RepresentsOn s v (fun x => f x * g x) ∧ s.poly.basis = p.poly.basis ∧
      s.poly.r = p.poly.r + q.poly.r) ∧
    (¬ Fits (p.poly.r + q.poly.r) m → p.mul q = .error .assertion) := by
  have hd := repOn_det hp
  obtain ⟨h1, h2, h3⟩ := (repOn_iff hd).1 hp
  rcases hb with hb | ⟨hb, hb', rfl⟩
  · obtain ⟨xs, c, e1, e2, e3, e4⟩ := sample_repOn hd (p.poly.r + q.poly.r) (fun x => do
      let a ← p.call x
      let b ← q.call x
      return a * b) (fun x => f x * g x) (fun x => by simp only [hp.value, hq.value, Py.bind_ok]; rfl) ((repOn_isPoly hp).mul (repOn_isPoly hq))
    unfold SObj.mul
    rw [hb]
    simp only [mulLagrangeSimplex]
    rw [h1, e1]
    simp only [Py.bind_ok]
    rw [e2]
    exact ⟨e3, e4⟩
  · obtain ⟨k1, k2, k3⟩ := (repOn_iff hd).1 hq
    unfold SObj.mul
    rw [hb]
    simp only [mulBernsteinSimplex]
    rw [decide_eq_true ⟨hb.trans hb'.symm, h1.trans k1.symm⟩]
    simp only [pyAssert_true, Py.bind_ok]
    constructor
    · intro hf
      obtain ⟨s, a1, a2, a3, a4⟩ := mul_rep h3 k3 (Or.inr (hb.trans hb'.symm)) hf
      rw [a1, h1]
      simp only [Py.bind_ok]
      exact ⟨_, Represents.snew a2 hd (a3.trans hb) a4, repOn_mk' hd a2, a3.trans hb, a4⟩
    · intro hf
      rw [mul_toobig h3 k3 (Or.inr (hb.trans hb'.symm)) hf]
      rfl

theorem outer_repOn [CharZero K] {n : Nat} {p : SObj K K m} {v : Vertices K m m} {f : (Fin m → K) → K} (hp : RepresentsOn p v f) (c : Fin n → K) :
    ∃ s, p.outer c = .ok s ∧ RepresentsOn s v (fun x => f x • c) ∧ s.poly.basis = p.poly.basis ∧ s.poly.r = p.poly.r := by
  have hd := repOn_det hp
  obtain ⟨h1, h2, h3⟩ := (repOn_iff hd).1 hp
  obtain ⟨s, a1, a2, a3, a4⟩ := scale_rep h3 c
  rw [h3.dim] at a1
  unfold SObj.outer
  rw [h1, snew_ok hd a1]
  exact ⟨_, rfl, repOn_mk' hd a2, a3, a4⟩

theorem divConst_repOn [CharZero K] {p : SObj K V m} {v : Vertices K m m} {f : (Fin m → K) → V} (hp : RepresentsOn p v f) (c : K) :
    ∃ s, p.divConst c = .ok s ∧ RepresentsOn s v (fun x => c⁻¹ • f x) ∧ s.poly.basis = p.poly.basis ∧ s.poly.r = p.poly.r := by
  have hd := repOn_det hp
  obtain ⟨h1, h2, h3⟩ := (repOn_iff hd).1 hp
  obtain ⟨s, a1, a2, a3, a4⟩ := divConst_rep h3 c
  unfold Obj.divConst at a1
  rw [h3.dim] at a1
  unfold SObj.divConst
  rw [h1, snew_ok hd a1]
  exact ⟨_, rfl, repOn_mk' hd a2, a3, a4⟩

theorem component_repOn [CharZero K] {n : Nat} {p : SObj K (Fin n → K) m} {v : Vertices K m m} {f : (Fin m → K) → (Fin n → K)} (hp : RepresentsOn p v f)
    (i : Fin n) : ∃ s, p.component i = .ok s ∧ RepresentsOn s v (fun x => f x i) ∧ s.poly.basis = p.poly.basis ∧ s.poly.r = p.poly.r := by
  have hd := repOn_det hp
  obtain ⟨h1, h2, h3⟩ := (repOn_iff hd).1 hp
  obtain ⟨s, a1, a2, a3, a4⟩ := component_rep h3 i
  unfold Obj.component at a1
  rw [h3.dim] at a1
  unfold SObj.component
  rw [h1, snew_ok hd a1]
  exact ⟨_, rfl, repOn_mk' hd a2, a3, a4⟩

theorem zero_repOn [CharZero K] (b : Basis) {v : Vertices K m m} (hd : edgeDet v ≠ 0) (r : Nat) (hf : Fits r m) :
    ∃ s, zeroPolynomialSimplex b V v r = .ok s ∧ RepresentsOn s v (fun _ => (0 : V)) ∧ s.poly.basis = b ∧ s.poly.r = r := by
  obtain ⟨s, a1, a2, a3, a4⟩ := zero_rep (K := K) b V r m hf
  have h := Represents.new_eq a2
  unfold zeroPolynomialSimplex
  unfold zeroPolynomial at a1
  rw [snew_ok hd a1]
  exact ⟨_, rfl, repOn_mk' hd a2, a3, a4⟩

theorem unit_repOn [CharZero K] {b : Basis} (hb : b ≠ .monomial) {v : Vertices K m m} (hd : edgeDet v ≠ 0) (r : Nat) (hf : Fits r m) :
    ∃ s, unitPolynomialSimplex b v r = .ok s ∧ RepresentsOn s v (fun _ => (1 : K)) ∧ s.poly.basis = b ∧ s.poly.r = r := by
  obtain ⟨s, a1, a2, a3, a4⟩ := unit_rep (K := K) b r m hf
  unfold unitPolynomialSimplex
  have : unitOf b K r m = Obj.new b (List.replicate (getDimension r m) 1) (some r) m := by
    cases b with
    | monomial => exact absurd rfl hb
    | bernstein => rfl
    | lagrange => rfl
  rw [this] at a1
  rw [snew_ok hd a1]
  exact ⟨_, rfl, repOn_mk' hd a2, a3, a4⟩

theorem fits_one (m : Nat) : Fits 1 m := Or.inr (by omega)

/-- The degree of `p**k`: the Lagrange class returns the constant 1 as a polynomial of degree 1. -/
def powDeg (b : Basis) (r k : Nat) : Nat := if b = .lagrange ∧ k = 0 then 1 else r * k

theorem powNatLagrange_repOn [CharZero K] {p : SObj K K m} {v : Vertices K m m} {f : (Fin m → K) → K} (hp : RepresentsOn p v f)
    (hb : p.poly.basis = .lagrange) : ∀ k,
    (Fits (p.poly.r * k) m → ∃ s, powNatLagrange p k = .ok s ∧ RepresentsOn s v (fun x => f x ^ k) ∧ s.poly.basis = .lagrange ∧
      s.poly.r = powDeg .lagrange p.poly.r k) ∧
    (¬ Fits (p.poly.r * k) m → powNatLagrange p k = .error .assertion)
  | 0 => by
    have hd := repOn_det hp
    obtain ⟨h1, h2, h3⟩ := (repOn_iff hd).1 hp
    refine ⟨fun _ => ?_, fun hf => absurd (by simpa using fits_zero m) hf⟩
    obtain ⟨s, a1, a2, a3, a4⟩ := unit_repOn (K := K) (b := .lagrange) (by simp) hd 1 (fits_one m)
    simp only [powNatLagrange]
    rw [h1]
    exact ⟨s, a1, by simpa using a2, a3, by simpa [powDeg] using a4⟩
  | 1 => by
    have hd := repOn_det hp
    obtain ⟨h1, h2, h3⟩ := (repOn_iff hd).1 hp
    refine ⟨fun _ => ?_, fun hf => absurd (by simpa using repOn_fits hp) hf⟩
    simp only [powNatLagrange]
    rw [h1, ← hb]
    exact ⟨_, Represents.snew h3 hd rfl rfl, by simpa using repOn_mk' hd h3, rfl, by simp [powDeg]⟩
  | k + 2 => by
    simp only [powNatLagrange]
    obtain ⟨ih1, ih2⟩ := powNatLagrange_repOn hp hb (k + 1)
    by_cases hf' : Fits (p.poly.r * (k + 1)) m
    · obtain ⟨s, a1, a2, a3, a4⟩ := ih1 hf'
      rw [a1]
      simp only [Py.bind_ok]
      have hs : s.poly.r = p.poly.r * (k + 1) := by rw [a4]; simp [powDeg]
      have hm := mul_repOn hp a2 (Or.inl hb)
      rw [hs, show p.poly.r + p.poly.r * (k + 1) = p.poly.r * (k + 2) by ring] at hm
      refine ⟨fun hf => ?_, hm.2⟩
      obtain ⟨t, b1, b2, b3, b4⟩ := hm.1 hf
      exact ⟨t, b1, by simpa [pow_succ', mul_assoc] using b2, b3.trans hb, by rw [b4]; simp [powDeg]⟩
    · rw [ih2 hf']
      exact ⟨fun hf => absurd (Fits.mono hf (by gcongr; omega)) hf', fun _ => rfl⟩

theorem powNat_repOn [CharZero K] {p : SObj K K m} {v : Vertices K m m} {f : (Fin m → K) → K} (hp : RepresentsOn p v f)
    (hb : p.poly.basis ≠ .monomial) (k : Nat) :
    (Fits (p.poly.r * k) m → ∃ s, p.powNat k = .ok s ∧ RepresentsOn s v (fun x => f x ^ k) ∧ s.poly.basis = p.poly.basis ∧
      s.poly.r = powDeg p.poly.basis p.poly.r k) ∧
    (¬ Fits (p.poly.r * k) m → p.powNat k = .error .assertion) := by
  have hd := repOn_det hp
  obtain ⟨h1, h2, h3⟩ := (repOn_iff hd).1 hp
  unfold SObj.powNat
  cases hb' : p.poly.basis with
  | monomial => exact absurd hb' hb
  | lagrange => exact powNatLagrange_repOn hp hb' k
  | bernstein =>
    refine ⟨fun hf => ?_, fun hf => ?_⟩
    · obtain ⟨s, a1, a2, a3, a4⟩ := powNat_rep h3 k hf
      simp only [a1, h1, Py.bind_ok]
      exact ⟨_, Represents.snew a2 hd (a3.trans hb') a4, repOn_mk' hd a2, a3.trans hb', by simpa [powDeg] using a4⟩
    · simp only [powNat_toobig h3 k hf]
      rfl

omit [Field K] [DecidableEq K] [AddCommGroup V] [Module K V] in
theorem powDegree_eq {p : SObj K V m} (exp : List Nat) : powDegree p exp = p.poly.r * exp.sum := by
  unfold powDegree
  have : ∀ (l : List Nat) (a : Nat), l.foldl (fun r e => r + p.poly.r * e) a = a + p.poly.r * l.sum := by
    intro l
    induction l with
    | nil => intro a; simp
    | cons e l ih => intro a; rw [List.foldl_cons, ih, List.sum_cons]; ring
  rw [this]; simp

theorem powMulti_repOn [CharZero K] {n : Nat} {p : SObj K (Fin n → K) m} {v : Vertices K m m} {f : (Fin m → K) → (Fin n → K)}
    (hp : RepresentsOn p v f) (hb : p.poly.basis ≠ .monomial) (ε : Fin n → ℕ) :
    (Fits (p.poly.r * ∑ i, ε i) m → ∃ s, p.powMulti (List.ofFn ε) = .ok s ∧ RepresentsOn s v (fun x => ∏ i, f x i ^ ε i) ∧
      s.poly.basis = p.poly.basis ∧ s.poly.r = p.poly.r * ∑ i, ε i) ∧
    (¬ Fits (p.poly.r * ∑ i, ε i) m → p.powMulti (List.ofFn ε) = .error .assertion) := by
  have hd := repOn_det hp
  obtain ⟨h1, h2, h3⟩ := (repOn_iff hd).1 hp
  have hm := powMulti_rep h3 ε
  unfold SObj.powMulti
  cases hb' : p.poly.basis with
  | monomial => exact absurd hb' hb
  | bernstein =>
    simp only
    refine ⟨fun hf => ?_, fun hf => ?_⟩
    · obtain ⟨s, a1, a2, a3, a4⟩ := hm.1 hf
      simp only [a1, h1, Py.bind_ok]
      refine ⟨_, Represents.snew a2 hd (a3.trans hb') ?_, repOn_mk' hd a2, a3.trans hb', a4⟩
      rw [a4, powDegree_eq, List.sum_ofFn]
    · simp only [hm.2 hf]
      rfl
  | lagrange =>
    simp only
    rw [decide_eq_true (List.length_ofFn (f := ε))]
    have hpoly : IsPoly m (p.poly.r * ∑ i, ε i) (fun x => ∏ i, f x i ^ ε i) := by
      rw [Finset.mul_sum]
      refine isPoly_finset_prod Finset.univ (fun i x => f x i ^ ε i) (fun i => p.poly.r * ε i) (fun i _ => ?_)
      obtain ⟨s, a1, a2, a3, a4⟩ := component_repOn hp i
      have := (repOn_isPoly a2).pow (ε i)
      rwa [a4] at this
    have hn : MI.norm (List.ofFn ε) = ∑ i, ε i := by simp [MI.norm, List.sum_ofFn]
    obtain ⟨xs, c, e1, e2, e3, e4⟩ := sample_repOn hd (p.poly.r * ∑ i, ε i) (fun x => do
      let v ← p.call x
      MI.power (List.ofFn v) (List.ofFn ε)) (fun x => ∏ i, f x i ^ ε i) (fun x => by
        simp only [hp.value, Py.bind_ok]
        rw [MI.power_eq _ _ (by simp)]
        congr 1
        exact monomial_ofFn (f x) ε) hpoly
    simp only [pyAssert_true, Py.bind_ok]
    rw [hn, h1, e1]
    simp only [Py.bind_ok]
    rw [e2]
    exact ⟨e3, e4⟩

theorem basisFn_repOn [CharZero K] (b : Basis) (v : Vertices K m m) (hd : edgeDet v ≠ 0) (ν : List Nat) (r : Nat) (hl : ν.length = m)
    (hs : ν.sum ≤ r) (hf : Fits r m) :
    ∃ s, basisFnSimplex b ν r v = .ok s ∧ RepresentsOn s v (fun x => basisFn b r (List.ofFn (createAffineMap (down v) x)) ν) ∧ s.poly.basis = b ∧
      s.poly.r = r := by
  obtain ⟨i, e1, e2⟩ := setE_zero_tab (K := K) ν hl hs
  unfold basisFnSimplex
  rw [e1]
  simp only [Py.bind_ok, hl]
  rw [e2]
  simp only [Py.bind_ok]
  rw [snew_ok hd (new_mk _ _ _ _ hf)]
  exact ⟨_, rfl, repOn_mk hd (single_rep b m r ν hl hs hf), rfl, rfl⟩

theorem vectorBasisFn_repOn [CharZero K] {n : Nat} (b : Basis) (v : Vertices K m m) (hd : edgeDet v ≠ 0) (ν : List Nat) (r : Nat) (i : Fin n)
    (hl : ν.length = m) (hs : ν.sum ≤ r) (hf : Fits r m) :
    ∃ s, vectorBasisFnSimplex b ν r i v n = .ok s ∧
      RepresentsOn s v (fun x => basisFn b r (List.ofFn (createAffineMap (down v) x)) ν • (Pi.single i 1 : Fin n → K)) ∧ s.poly.basis = b ∧
      s.poly.r = r := by
  have he : (fun l : Fin n => if (l : Nat) = (i : Nat) then (1 : K) else 0) = Pi.single i 1 := by
    funext l
    simp [Pi.single_apply, Fin.ext_iff]
  obtain ⟨j, e1, e2⟩ := index_tab (W := K) (m := m) hl hs
  have e3 := setE_tab (fun _ => (0 : Fin n → K)) (Pi.single i 1) e2.1
  unfold vectorBasisFnSimplex
  rw [decide_eq_true i.2, e1]
  simp only [pyAssert_true, Py.bind_ok, hl, he]
  rw [zeros_tab, e3]
  simp only [Py.bind_ok]
  rw [snew_ok hd (new_mk _ _ _ _ hf)]
  refine ⟨_, rfl, repOn_mk (g := fun x => basisFn b r (List.ofFn x) ν • (Pi.single i 1 : Fin n → K)) hd ?_, rfl, rfl⟩
  have h := rep_mk (K := K) b m r (fun μ => if μ = ν then (Pi.single i 1 : Fin n → K) else 0) hf
  have h2 : (fun x : Fin m → K => basisFn b r (List.ofFn x) ν • (Pi.single i 1 : Fin n → K)) =
      val b m r (fun μ => if μ = ν then (Pi.single i 1 : Fin n → K) else 0) := by
    funext x
    rw [← val_single b m r ν hl hs x, ← val_smul_const]
    congr 1
    funext μ
    by_cases hμ : μ = ν <;> simp [hμ]
  rw [h2]
  exact h

theorem lagrangePointSimplex_eq (v : Vertices K m m) (r : Nat) (μ : List Nat) (hl : μ.length = m) (hs : μ.sum ≤ r) :
    lagrangePointSimplex v r μ = .ok (createAffineMap (up v) (fun i => ((μ.getD i 0 : Nat) : K) / (r : K))) := by
  unfold lagrangePointSimplex
  rw [fromUnit_eq]
  simp only [Py.bind_ok, lagrangePoint_eq K m r μ hl hs]
  congr 2
  funext i
  have hi : (i : Nat) < μ.length := by rw [hl]; exact i.2
  simp [List.getD_eq_getElem?_getD, hi]

theorem dualLagrange_repOn (v : Vertices K m m) (r : Nat) (μ : List Nat) (hl : μ.length = m) (hs : μ.sum ≤ r) {p : SObj K V m} {w : Vertices K m m}
    {f : (Fin m → K) → V} (hp : RepresentsOn p w f) :
    dualLagrangeFnSimplex μ r v p = .ok (f (createAffineMap (up v) (fun i => ((μ.getD i 0 : Nat) : K) / (r : K)))) := by
  unfold dualLagrangeFnSimplex
  rw [lagrangePointSimplex_eq v r μ hl hs]
  simp only [Py.bind_ok]
  exact hp.value _

omit [DecidableEq K] in
theorem down_lam (v : Vertices K m m) (x : Fin m → K) (i : Fin m) : createAffineMap (down v) x i = lam v x i.succ := by
  simp only [createAffineMap, down, lam, Fin.cons_succ, Matrix.mulVec_sub, Pi.add_apply, Pi.neg_apply, Pi.sub_apply]
  ring

theorem down_bary (v : Vertices K m m) (hd : edgeDet v ≠ 0) {x : Fin m → K} {w : Fin (m + 1) → K} (h : IsBarycentric v x w) :
    createAffineMap (down v) x = fun i => w i.succ := by
  funext i
  rw [down_lam, ← (isBarycentric_iff v hd x w).1 h]

omit [DecidableEq K] in
theorem up_bary (v : Vertices K m m) (u : Fin m → K) : IsBarycentric v (createAffineMap (up v) u) (Fin.cons (1 - ∑ i, u i) u) := by
  constructor
  · simp [Fin.sum_univ_succ]
  · simp only [createAffineMap, up, E_mulVec, Fin.sum_univ_succ, Fin.cons_zero, Fin.cons_succ, smul_sub, Finset.sum_sub_distrib, sub_smul, one_smul,
      Finset.sum_smul]
    abel

end

/-! ## Derivatives -/

section
variable {K V : Type} [NontriviallyNormedField K] [DecidableEq K] [CharZero K] [NormedAddCommGroup V] [NormedSpace K V] {m : Nat}

omit [DecidableEq K] [CharZero K] in
theorem isPoly_differentiable {r : Nat} {g : (Fin m → K) → V} (h : IsPoly m r g) : Differentiable K g := by
  obtain ⟨c, hc⟩ := h
  rw [show g = fun x => ∑ ν ∈ S m r, (∏ i, x i ^ ν i) • c (List.ofFn ν) from funext hc]
  refine Differentiable.fun_sum (fun ν _ => Differentiable.smul_const ?_ _)
  intro x
  have : HasFDerivAt (fun x : Fin m → K => ∏ i, x i ^ ν i) _ x :=
    HasFDerivAt.finsetProd (u := Finset.univ) (g := fun i (x : Fin m → K) => x i ^ ν i)
      (fun i _ => ((ContinuousLinearMap.proj (R := K) (φ := fun _ : Fin m => K) i).differentiableAt.pow (ν i)).hasFDerivAt)
  exact this.differentiableAt

omit [DecidableEq K] [CharZero K] in
/-- The chain rule for an affine change of coordinates. -/
theorem hasDerivAt_comp_affine {g : (Fin m → K) → V} (hg : Differentiable K g) (g' : Fin m → (Fin m → K) → V)
    (h : ∀ k u, HasDerivAt (fun t => g (Function.update u k t)) (g' k u) (u k)) (phi : Affine K m m) (x : Fin m → K) (i : Fin m) :
    HasDerivAt (fun t => g (createAffineMap phi (Function.update x i t))) (∑ k, phi.1 k i • g' k (createAffineMap phi x)) (x i) := by
  have hupd : ∀ (u : Fin m → K) (k : Fin m), HasDerivAt (fun t => Function.update u k t) (Pi.single k 1) (u k) := by
    intro u k
    exact hasDerivAt_update u k (u k)
  have hk : ∀ k u, fderiv K g u (Pi.single k 1) = g' k u := by
    intro k u
    have h1 : HasFDerivAt g (fderiv K g u) (Function.update u k (u k)) := by
      rw [Function.update_eq_self]; exact (hg u).hasFDerivAt
    exact (h1.comp_hasDerivAt (u k) (hupd u k)).unique (h k u)
  have hphi : HasDerivAt (fun t => createAffineMap phi (Function.update x i t)) (fun k => phi.1 k i) (x i) := by
    rw [hasDerivAt_pi]
    intro k
    simp only [createAffineMap, Pi.add_apply, Matrix.mulVec, dotProduct]
    have h1 : HasDerivAt (fun t => ∑ j, phi.1 k j * Function.update x i t j) (∑ j, phi.1 k j * (Pi.single i 1 : Fin m → K) j) (x i) := by
      refine HasDerivAt.fun_sum (fun j _ => ?_)
      exact ((hasDerivAt_pi.1 (hupd x i)) j).const_mul _
    have h2 : ∑ j, phi.1 k j * (Pi.single i 1 : Fin m → K) j = phi.1 k i := by
      simp [Pi.single_apply]
    rw [h2] at h1
    exact h1.add_const _
  have h1 : HasFDerivAt g (fderiv K g (createAffineMap phi x)) (createAffineMap phi (Function.update x i (x i))) := by
    rw [Function.update_eq_self]; exact (hg _).hasFDerivAt
  have h2 := h1.comp_hasDerivAt (x i) hphi
  have h3 : fderiv K g (createAffineMap phi x) (fun k => phi.1 k i) = ∑ k, phi.1 k i • g' k (createAffineMap phi x) := by
    have : (fun k => phi.1 k i) = ∑ k, phi.1 k i • (Pi.single k 1 : Fin m → K) := by
      funext j
      simp [Finset.sum_apply, Pi.single_apply]
    rw [this, map_sum]
    refine Finset.sum_congr rfl (fun k _ => ?_)
    rw [map_smul, hk]
  rw [h3] at h2
  exact h2

theorem derivativeTerm_repOn {p : SObj K V m} {v : Vertices K m m} {f : (Fin m → K) → V} (hp : RepresentsOn p v f) (i k : Fin m)
    {q : Obj V} {g : (Fin m → K) → V} (h1 : p.poly.partialDerivative K k = .ok q) (h2 : Poly.Represents q m g) (h3 : q.basis = p.poly.basis)
    (h4 : q.r = p.poly.r - 1) :
    ∃ s, derivativeTerm p i k = .ok s ∧ RepresentsOn s v (fun x => (down v).1 k i • g (createAffineMap (down v) x)) ∧ s.poly.basis = p.poly.basis ∧
      s.poly.r = p.poly.r - 1 := by
  have hd := repOn_det hp
  obtain ⟨e1, e2, e3⟩ := (repOn_iff hd).1 hp
  unfold derivativeTerm
  rw [h1]
  simp only [Py.bind_ok]
  rw [e1, Represents.snew h2 hd h3 h4]
  simp only [Py.bind_ok]
  obtain ⟨s, a1, a2, a3, a4⟩ := smul_repOn hd (repOn_mk hd h2) (p.phi.1 k i)
  rw [e2] at a1 a2
  rw [e2]
  exact ⟨s, a1, a2, a3.trans h3, a4.trans h4⟩

theorem derivativeLoop_repOn {p : SObj K V m} {v : Vertices K m m} (hd : edgeDet v ≠ 0) (i : Fin m) (G : Fin m → (Fin m → K) → V) (b : Basis) (r : Nat)
    (hG : ∀ k, ∃ s, derivativeTerm p i k = .ok s ∧ RepresentsOn s v (G k) ∧ s.poly.basis = b ∧ s.poly.r = r) :
    ∀ (l : List (Fin m)) (d : SObj K V m) (f : (Fin m → K) → V), RepresentsOn d v f → d.poly.basis = b → d.poly.r = r →
    ∃ s, l.foldlM (fun d k => do
        let t ← derivativeTerm p i k
        d.add t) d = .ok s ∧ RepresentsOn s v (fun x => f x + (l.map (fun k => G k x)).sum) ∧ s.poly.basis = b ∧ s.poly.r = r
  | [], d, f, h, h1, h2 => ⟨d, rfl, by simpa using h, h1, h2⟩
  | k :: l, d, f, h, h1, h2 => by
    obtain ⟨t, a1, a2, a3, a4⟩ := hG k
    obtain ⟨s, b1, b2, b3, b4⟩ := add_repOn hd h a2 (h1.trans a3.symm)
    obtain ⟨s', c1, c2, c3, c4⟩ := derivativeLoop_repOn hd i G b r hG l s _ b2 (b3.trans h1) (by rw [b4, h2, a4, max_self])
    refine ⟨s', ?_, by simpa [add_assoc] using c2, c3, c4⟩
    rw [List.foldlM_cons, a1]
    simp only [Py.bind_ok]
    rw [b1]
    exact c1

theorem partialDerivative_repOn {p : SObj K V m} {v : Vertices K m m} {f : (Fin m → K) → V} (hp : RepresentsOn p v f) (i : Fin m) :
    ∃ s f', p.partialDerivative i = .ok s ∧ RepresentsOn s v f' ∧
      (∀ x, HasDerivAt (fun t => f (Function.update x i t)) (f' x) (x i)) ∧ s.poly.basis = p.poly.basis ∧ s.poly.r = p.poly.r - 1 := by
  have hd := repOn_det hp
  obtain ⟨e1, e2, e3⟩ := (repOn_iff hd).1 hp
  choose q g' hq using fun k : Fin m => partialDerivative_rep e3 k
  have hdiff : Differentiable K (fun u => f (createAffineMap (up v) u)) := isPoly_differentiable (Poly.Represents.isPoly e3)
  have hder : ∀ x, HasDerivAt (fun t => f (Function.update x i t)) (∑ k, (down v).1 k i • g' k (createAffineMap (down v) x)) (x i) := by
    intro x
    have := hasDerivAt_comp_affine hdiff g' (fun k u => (hq k).2.2.1 u) (down v) x i
    simpa only [up_down v hd] using this
  unfold SObj.partialDerivative
  rw [dif_pos i.2]
  by_cases hr : p.poly.r = 0
  · rw [if_pos hr, e1]
    obtain ⟨s, a1, a2, a3, a4⟩ := zero_repOn (K := K) (V := V) p.poly.basis hd 0 (fits_zero m)
    refine ⟨s, _, a1, a2, fun x => ?_, a3, by rw [a4, hr]⟩
    have hc : ∀ y, f y = f 0 := by
      have hpoly := repOn_isPoly hp
      rw [hr] at hpoly
      obtain ⟨c, hc⟩ := hpoly
      intro y
      rw [hc, hc]
      simp [S_zero]
    simp only [fun t => hc (Function.update x i t)]
    exact hasDerivAt_const _ _
  · rw [if_neg hr]
    have hG : ∀ k, ∃ s, derivativeTerm p i k = .ok s ∧ RepresentsOn s v (fun x => (down v).1 k i • g' k (createAffineMap (down v) x)) ∧
        s.poly.basis = p.poly.basis ∧ s.poly.r = p.poly.r - 1 :=
      fun k => derivativeTerm_repOn hp i k (hq k).1 (hq k).2.1 (hq k).2.2.2.1 (hq k).2.2.2.2
    obtain ⟨d, a1, a2, a3, a4⟩ := hG ⟨0, by have := i.2; omega⟩
    obtain ⟨s, b1, b2, b3, b4⟩ := derivativeLoop_repOn hd i _ _ _ hG ((List.finRange m).drop 1) d _ a2 a3 a4
    rw [show (⟨(i : Nat), i.2⟩ : Fin m) = i from rfl, a1]
    simp only [Py.bind_ok]
    refine ⟨s, _, b1, b2, fun x => ?_, b3, b4⟩
    have hx := hder x
    convert hx using 1
    rw [← List.sum_ofFn, List.ofFn_eq_map]
    obtain ⟨m', rfl⟩ : ∃ m', m = m' + 1 := ⟨m - 1, by have := i.2; omega⟩
    rw [List.finRange_succ]
    simp

end

end Verif.SPoly
