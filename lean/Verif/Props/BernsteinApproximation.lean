import Verif.Lemmas.BernsteinMoments
import Verif.Props.PolynomialBernstein
import Verif.Props.PolynomialLagrange
import Verif.Lemmas.PolyUnique
import Verif.Spec.Integration
import Mathlib.Analysis.Real.Sqrt
import Mathlib.Analysis.SpecialFunctions.Trigonometric.Basic
import Mathlib.Analysis.SpecialFunctions.Trigonometric.Bounds
/-!
# C103: what the coefficients of a Bernstein polynomial say about its values

The coefficient for the multi-index `ν` belongs to the lattice point `ν / r`, the point with the same index in `generate_lagrange_points(n, r)`.
-/

namespace Verif.Props
open Verif Verif.Poly Verif.Spec

section Field
variable {K : Type} [Field K] [DecidableEq K] [CharZero K]

theorem bernstein_value {n : Nat} {p : Obj K} {q : (Fin n → K) → K} (hp : Represents p n q) (hb : p.basis = .bernstein) (h : List Nat → K)
    (hc : p.coeff = (MI.generateAll n p.r).map h) (x : Fin n → K) :
    q x = ∑ ν ∈ S n p.r, Spec.bernstein p.r (List.ofFn x) (List.ofFn ν) * h (List.ofFn ν) := by
  obtain ⟨c, hpc, hfc, _⟩ := hp.exists_mk
  have hco : (MI.mis n p.r).map c = (MI.mis n p.r).map h := by
    rw [← MI.generateAll_eq_mis, ← hc, MI.generateAll_eq_mis]
    conv_rhs => rw [hpc]
    rfl
  rw [hfc, hb]
  simp only [val, basisFn, smul_eq_mul]
  refine Finset.sum_congr rfl (fun ν hν => ?_)
  rw [List.map_inj_left.1 hco _ (MI.mem_mis.2 ⟨by simp, by rw [List.sum_ofFn]; exact mem_S.1 hν⟩)]

theorem bernstein_sampled {n : Nat} {p : Obj K} {q : (Fin n → K) → K} (hp : Represents p n q) (hb : p.basis = .bernstein) (g : List K → K)
    (hc : p.coeff = (generateLagrangePoints K n p.r).map g) (x : Fin n → K) :
    q x = ∑ ν ∈ S n p.r, Spec.bernstein p.r (List.ofFn x) (List.ofFn ν) * g (List.ofFn fun i => (ν i : K) / (p.r : K)) := by
  rw [bernstein_value hp hb (fun ν => g (ν.map fun (k : Nat) => (k : K) / (p.r : K))) (by
    rw [hc, lagrangePoints_eq, List.map_map, MI.generateAll_eq_mis]; rfl) x]
  refine Finset.sum_congr rfl (fun ν _ => ?_)
  rw [List.map_ofFn]
  rfl

/-- **C103** Linear precision: if the coefficients are the values of an affine function at the lattice points, the polynomial is that function. -/
theorem C103_affine {n : Nat} {p : Obj K} {q : (Fin n → K) → K} (hp : Represents p n q) (hb : p.basis = .bernstein) (hr : 1 ≤ p.r) (a : K)
    (b : Fin n → K) (hc : p.coeff = (generateLagrangePoints K n p.r).map (fun y => a + ∑ i, b i * y.getD i 0)) (x : Fin n → K) :
    q x = a + ∑ i, b i * x i := by
  have hr0 : (p.r : K) ≠ 0 := Nat.cast_ne_zero.2 (by omega)
  rw [bernstein_sampled hp hb _ hc]
  have e : ∀ ν : Fin n → ℕ, Spec.bernstein p.r (List.ofFn x) (List.ofFn ν) *
      (a + ∑ i, b i * (List.ofFn fun i => (ν i : K) / (p.r : K)).getD i 0) = a * Spec.bernstein p.r (List.ofFn x) (List.ofFn ν) +
        ∑ i, b i / (p.r : K) * (Spec.bernstein p.r (List.ofFn x) (List.ofFn ν) * (ν i : K)) := by
    intro ν
    rw [mul_add, Finset.mul_sum, mul_comm a]
    congr 1
    refine Finset.sum_congr rfl (fun i _ => ?_)
    simp
    ring
  simp only [e]
  rw [Finset.sum_add_distrib, ← Finset.mul_sum, bernstein_total, mul_one, Finset.sum_comm]
  congr 1
  refine Finset.sum_congr rfl (fun i _ => ?_)
  rw [← Finset.mul_sum, bernstein_mean]
  field_simp

/-- **C103** Conversely, the coefficients of an affine function are its values at the lattice points. -/
theorem C103_affine_coefficients {n : Nat} {p : Obj K} {q : (Fin n → K) → K} (hp : Represents p n q) (hb : p.basis = .bernstein) (hr : 1 ≤ p.r) (a : K)
    (b : Fin n → K) (hq : ∀ x, q x = a + ∑ i, b i * x i) : p.coeff = (generateLagrangePoints K n p.r).map (fun y => a + ∑ i, b i * y.getD i 0) := by
  obtain ⟨-, -, -, hf⟩ := hp.exists_mk
  set c : List Nat → K := fun ν => a + ∑ i, b i * (ν.map fun (k : Nat) => (k : K) / (p.r : K)).getD i 0 with hcd
  have h1 := rep_mk (K := K) .bernstein n p.r c hf
  have h2 : (mkObj Basis.bernstein n p.r c).coeff = (generateLagrangePoints K n p.r).map (fun y => a + ∑ i, b i * y.getD i 0) := by
    rw [lagrangePoints_eq, List.map_map]
    rfl
  have h3 := C103_affine h1 rfl hr a b h2
  rw [show val (K := K) .bernstein n p.r c = q from funext fun x => (h3 x).trans (hq x).symm] at h1
  exact (congrArg Obj.coeff (rep_unique hp h1 hb rfl)).trans h2

/-- **C103** The coefficients of a power of a coordinate. -/
theorem C103_power {n : Nat} {p : Obj K} {q : (Fin n → K) → K} (hp : Represents p n q) (hb : p.basis = .bernstein) (j : Fin n) (k : ℕ) (hk : k ≤ p.r)
    (hc : p.coeff = (MI.generateAll n p.r).map (fun ν => ((ν.getD j 0).choose k : K) / (p.r.choose k : K))) (x : Fin n → K) : q x = x j ^ k := by
  have hr0 : (p.r.choose k : K) ≠ 0 := Nat.cast_ne_zero.2 (Nat.choose_pos hk).ne'
  rw [bernstein_value hp hb _ hc]
  have e : ∀ ν : Fin n → ℕ, Spec.bernstein p.r (List.ofFn x) (List.ofFn ν) * ((((List.ofFn ν).getD j 0).choose k : K) / (p.r.choose k : K)) =
      1 / (p.r.choose k : K) * (Spec.bernstein p.r (List.ofFn x) (List.ofFn ν) * ((ν j).choose k : K)) := by
    intro ν
    simp
    ring
  simp only [e]
  rw [← Finset.mul_sum, bernstein_moment]
  field_simp

/-- **C103** The constructor accepts the values of a function at the lattice points (degree at most 19) as coefficients of a Bernstein polynomial. -/
theorem C103_sampled (n r : Nat) (hf : Fits r n) (g : List K → K) :
    ∃ p q, Obj.new .bernstein ((generateLagrangePoints K n r).map g) (some r) n = .ok p ∧ p.basis = .bernstein ∧ p.r = r ∧ Represents (K := K) p n q ∧
      p.coeff = (generateLagrangePoints K n r).map g := by
  set c : List Nat → K := fun ν => g (ν.map (fun (k : Nat) => (k : K) / (r : K))) with hc
  have h1 : (generateLagrangePoints K n r).map g = tab n r c := by
    rw [lagrangePoints_eq, List.map_map]; rfl
  exact ⟨mkObj .bernstein n r c, val .bernstein n r c, by rw [h1]; exact new_mk _ _ _ _ hf, rfl, rfl, rep_mk _ _ _ _ hf, h1.symm⟩

/-- **C103** The value at a vertex of the unit simplex is the coefficient for that vertex: at the origin the one for `(0, …, 0)`, at the unit vector
`eⱼ` the one for `r eⱼ`. -/
theorem C103_vertices {n : Nat} {p : Obj K} {q : (Fin n → K) → K} (hp : Represents p n q) (hb : p.basis = .bernstein) (i : ℕ) (c : K)
    (hc : p.coeff[i]? = some c) :
    ((MI.generateAll n p.r)[i]? = some (List.replicate n 0) → q 0 = c) ∧
    ∀ j : Fin n, (MI.generateAll n p.r)[i]? = some (List.ofFn (Pi.single j p.r)) → q (Pi.single j 1) = c := by
  obtain ⟨f, hpc, hfc, _⟩ := hp.exists_mk
  have hval : ∀ x, q x = ∑ ν ∈ S n p.r, Spec.bernstein p.r (List.ofFn x) (List.ofFn ν) * f (List.ofFn ν) := by
    intro x
    rw [hfc, hb]
    rfl
  have hco : ∀ μ : List ℕ, (MI.generateAll n p.r)[i]? = some μ → f μ = c := by
    intro μ hμ
    rw [hpc] at hc
    rw [show (mkObj p.basis n p.r f).coeff = (MI.mis n p.r).map f from rfl, List.getElem?_map, ← MI.generateAll_eq_mis, hμ] at hc
    exact Option.some.inj hc
  have hone : ∀ (x : Fin n → K) (μ : Fin n → ℕ), μ ∈ S n p.r → (∀ ν ∈ S n p.r, ν ≠ μ → Spec.bernstein p.r (List.ofFn x) (List.ofFn ν) = 0) →
      q x = f (List.ofFn μ) := by
    intro x μ hμ hz
    have ht := bernstein_total n p.r x
    rw [Finset.sum_eq_single μ hz (fun h => absurd hμ h)] at ht
    rw [hval, Finset.sum_eq_single μ (fun ν hν h => by rw [hz ν hν h, zero_mul]) (fun h => absurd hμ h), ht, one_mul]
  refine ⟨fun h => ?_, fun j h => ?_⟩
  · have h0 : List.replicate n 0 = List.ofFn (0 : Fin n → ℕ) := (List.ofFn_const n 0).symm
    rw [← hco _ h, h0]
    refine hone _ _ (mem_S.2 (by simp)) (fun ν _ hν => ?_)
    rw [bernstein_ofFn]
    obtain ⟨k, hk⟩ := Function.ne_iff.1 hν
    rw [Finset.prod_eq_zero (Finset.mem_univ k) (zero_pow hk)]
    simp
  · rw [← hco _ h]
    refine hone _ _ (mem_S.2 (by rw [Finset.sum_pi_single' j p.r, if_pos (Finset.mem_univ j)])) (fun ν hν0 hν => ?_)
    rw [bernstein_ofFn]
    by_cases hk : ∃ k, k ≠ j ∧ ν k ≠ 0
    · obtain ⟨k, hk, hk0⟩ := hk
      rw [Finset.prod_eq_zero (Finset.mem_univ k) (by rw [Pi.single_eq_of_ne hk]; exact zero_pow hk0)]
      simp
    · push Not at hk
      have hs : ∑ i, ν i = ν j := Finset.sum_eq_single j (fun k _ hkj => hk k hkj) (by simp)
      have hlt : ν j < p.r := by
        refine lt_of_le_of_ne (hs ▸ mem_S.1 hν0) (fun he => hν ?_)
        funext k
        by_cases hkj : k = j
        · rw [hkj, Pi.single_eq_same, he]
        · rw [Pi.single_eq_of_ne hkj, hk k hkj]
      rw [hs, Finset.sum_pi_single' j (1 : K), if_pos (Finset.mem_univ j), sub_self, zero_pow (by omega)]
      simp

end Field

section Ordered
variable {K : Type} [Field K] [LinearOrder K] [IsStrictOrderedRing K]

/-- **C103** Degree elevation keeps the coefficients of a Bernstein polynomial within the bounds of the given coefficients: the bounds of the values
that the coefficients give (C25) do not get worse. -/
theorem C103_elevation_range {n : Nat} {p e : Obj K} {q : (Fin n → K) → K} (hp : Represents p n q) (hb : p.basis = .bernstein) (s : Nat)
    (hs : p.r ≤ s) (hf : Fits s n) (he : p.degreeElevate K s = .ok e) (lo hi : K) (hc : ∀ c ∈ p.coeff, lo ≤ c ∧ c ≤ hi) :
    ∀ c ∈ e.coeff, lo ≤ c ∧ c ≤ hi := by
  obtain ⟨f, hpc, -, -⟩ := hp.exists_mk
  rw [hb] at hpc
  have hfc : ∀ ν ∈ S n p.r, lo ≤ f (List.ofFn ν) ∧ f (List.ofFn ν) ≤ hi := by
    intro ν hν
    refine hc _ ?_
    rw [hpc]
    exact List.mem_map_of_mem (MI.mem_mis.2 ⟨by simp, by rw [List.sum_ofFn]; exact mem_S.1 hν⟩)
  rcases hs.eq_or_lt with h | h
  · have hcoeff : p.coeff = tab n p.r f := congrArg Obj.coeff hpc
    have hm : p.m = n := hp.dim
    rw [show p.degreeElevate K s = degreeElevateBernstein K p s by unfold Obj.degreeElevate; rw [hb], ← h, degreeElevateBernstein_same K p, hcoeff, hm,
      new_mk _ _ _ _ (h ▸ hf)] at he
    intro c hcm
    refine hc c ?_
    rw [← Except.ok.inj he] at hcm
    rw [hcoeff]
    exact hcm
  · have h1 := degreeElevateBernstein_tab (K := K) (mkObj .bernstein n p.r f) f s rfl h
    rw [show p.degreeElevate K s = degreeElevateBernstein K p s by unfold Obj.degreeElevate; rw [hb], hpc, h1] at he
    have h2 := he.symm.trans (new_mk _ _ _ _ hf)
    rw [Except.ok.inj h2]
    have hone : ∀ τ ∈ MI.mis n s, convCoeff n p.r (s - p.r) (fun ν μ => ((Spec.multinomial p.r ν : K) * (Spec.multinomial (s - p.r) μ : K) *
        (1 / (Spec.multinomial s τ : K))) • (1 : K)) τ = 1 := by
      have := tab_unique (K := K) .bernstein n s _ (fun _ => 1) (fun x =>
        (elevate_bernstein_val n p.r s hs (fun _ => (1 : K)) x).trans ((val_bernstein_one n p.r x).trans (val_bernstein_one n s x).symm))
      exact List.map_inj_left.1 this
    intro c hcm
    obtain ⟨τ, hτ, rfl⟩ := List.mem_map.1 hcm
    have ho := hone τ hτ
    have key : ∀ a b : List ℕ → K, (∀ ν ∈ S n p.r, a (List.ofFn ν) ≤ b (List.ofFn ν)) →
        convCoeff n p.r (s - p.r) (fun ν μ => ((Spec.multinomial p.r ν : K) * (Spec.multinomial (s - p.r) μ : K) * (1 / (Spec.multinomial s τ : K))) • a ν) τ ≤
        convCoeff n p.r (s - p.r) (fun ν μ => ((Spec.multinomial p.r ν : K) * (Spec.multinomial (s - p.r) μ : K) * (1 / (Spec.multinomial s τ : K))) • b ν) τ := by
      intro a b hab
      unfold convCoeff
      refine Finset.sum_le_sum fun ν hν => Finset.sum_le_sum fun μ _ => ?_
      split_ifs
      · exact mul_le_mul_of_nonneg_left (hab ν hν) (by positivity)
      · exact le_rfl
    have hconst : ∀ a : K, convCoeff n p.r (s - p.r) (fun ν μ => ((Spec.multinomial p.r ν : K) * (Spec.multinomial (s - p.r) μ : K) *
        (1 / (Spec.multinomial s τ : K))) • a) τ = a := by
      intro a
      conv_rhs => rw [← one_mul a, ← ho]
      unfold convCoeff
      rw [Finset.sum_mul]
      refine Finset.sum_congr rfl fun ν _ => ?_
      rw [Finset.sum_mul]
      refine Finset.sum_congr rfl fun μ _ => ?_
      split_ifs
      · simp only [smul_eq_mul, mul_one]
      · rw [zero_mul]
    exact ⟨(hconst lo).symm.le.trans (key (fun _ => lo) f fun ν hν => (hfc ν hν).1), (key f (fun _ => hi) fun ν hν => (hfc ν hν).2).trans (hconst hi).le⟩

end Ordered

/-! ## Approximation -/

theorem lattice_mem {n r : Nat} (hr : 1 ≤ r) {ν : Fin n → ℕ} (hν : ν ∈ S n r) : (fun i => (ν i : ℝ) / (r : ℝ)) ∈ Spec.unitSimplex n := by
  have hr0 : (0 : ℝ) < r := by exact_mod_cast hr
  refine ⟨fun i => by positivity, ?_⟩
  rw [← Finset.sum_div, div_le_one hr0]
  exact_mod_cast mem_S.1 hν

theorem variance_total {n r : Nat} (hr : 1 ≤ r) (x : Fin n → ℝ) :
    ∑ ν ∈ S n r, Spec.bernstein r (List.ofFn x) (List.ofFn ν) * ∑ i, ((ν i : ℝ) / (r : ℝ) - x i) ^ 2 = (∑ i, x i * (1 - x i)) / r := by
  simp only [Finset.mul_sum]
  rw [Finset.sum_comm, Finset.sum_div]
  exact Finset.sum_congr rfl (fun i _ => bernstein_variance n r (by omega) x i)

theorem spread_le {n : Nat} {x : Fin n → ℝ} (hx : x ∈ Spec.unitSimplex n) : ∑ i, x i * (1 - x i) ≤ 1 := by
  refine le_trans (Finset.sum_le_sum fun i _ => ?_) hx.2
  nlinarith [hx.1 i]

/-- **C103** The Bernstein polynomial of degree `r` with the values of a function at the lattice points as coefficients approximates the function: if
the function differs near `x` from an affine function by at most `M` times the squared distance, the error at `x` is at most `M / r`. -/
theorem C103_second_order {n : Nat} {p : Obj ℝ} {q : (Fin n → ℝ) → ℝ} (hp : Represents p n q) (hb : p.basis = .bernstein) (hr : 1 ≤ p.r)
    (g : List ℝ → ℝ) (hc : p.coeff = (generateLagrangePoints ℝ n p.r).map g) (x : Fin n → ℝ) (hx : x ∈ Spec.unitSimplex n)
    (l : (Fin n → ℝ) →ₗ[ℝ] ℝ) (M : ℝ) (hM : 0 ≤ M)
    (hg : ∀ y ∈ Spec.unitSimplex n, |g (List.ofFn y) - g (List.ofFn x) - l (y - x)| ≤ M * ∑ i, (y i - x i) ^ 2) :
    |q x - g (List.ofFn x)| ≤ M / p.r := by
  have hr0 : (0 : ℝ) < p.r := by exact_mod_cast hr
  have hlin : ∑ ν ∈ S n p.r, Spec.bernstein p.r (List.ofFn x) (List.ofFn ν) * l ((fun i => (ν i : ℝ) / (p.r : ℝ)) - x) = 0 := by
    have e : ∀ ν : Fin n → ℕ, Spec.bernstein p.r (List.ofFn x) (List.ofFn ν) * l ((fun i => (ν i : ℝ) / (p.r : ℝ)) - x) =
        l (Spec.bernstein p.r (List.ofFn x) (List.ofFn ν) • ((fun i => (ν i : ℝ) / (p.r : ℝ)) - x)) := fun ν => by rw [map_smul, smul_eq_mul]
    simp only [e]
    rw [← map_sum, show (∑ ν ∈ S n p.r, Spec.bernstein p.r (List.ofFn x) (List.ofFn ν) • ((fun i => (ν i : ℝ) / (p.r : ℝ)) - x)) = 0 from ?_, map_zero]
    funext i
    rw [Finset.sum_apply]
    simp only [Pi.smul_apply, Pi.sub_apply, smul_eq_mul, mul_sub, Pi.zero_apply]
    rw [Finset.sum_sub_distrib, ← Finset.sum_mul, bernstein_total, one_mul]
    simp only [← mul_div_assoc]
    rw [← Finset.sum_div, bernstein_mean]
    field_simp
    ring
  have hdiff : q x - g (List.ofFn x) = ∑ ν ∈ S n p.r, Spec.bernstein p.r (List.ofFn x) (List.ofFn ν) *
      (g (List.ofFn fun i => (ν i : ℝ) / (p.r : ℝ)) - g (List.ofFn x) - l ((fun i => (ν i : ℝ) / (p.r : ℝ)) - x)) := by
    simp only [mul_sub (Spec.bernstein _ _ _)]
    rw [Finset.sum_sub_distrib, Finset.sum_sub_distrib, hlin, sub_zero, ← Finset.sum_mul, bernstein_total, one_mul, bernstein_sampled hp hb g hc]
  rw [hdiff]
  calc _ ≤ ∑ ν ∈ S n p.r, Spec.bernstein p.r (List.ofFn x) (List.ofFn ν) * (M * ∑ i, ((ν i : ℝ) / (p.r : ℝ) - x i) ^ 2) := by
        refine (Finset.abs_sum_le_sum_abs _ _).trans (Finset.sum_le_sum fun ν hν => ?_)
        have h0 := bernstein_nonneg p.r x ν hx.1 hx.2
        rw [abs_mul, abs_of_nonneg h0]
        exact mul_le_mul_of_nonneg_left (hg _ (lattice_mem hr hν)) h0
    _ = M * ((∑ i, x i * (1 - x i)) / p.r) := by
        rw [← variance_total hr x, Finset.mul_sum]
        exact Finset.sum_congr rfl (fun ν _ => by ring)
    _ ≤ M * (1 / p.r) := mul_le_mul_of_nonneg_left (div_le_div_of_nonneg_right (spread_le hx) hr0.le) hM
    _ = M / p.r := by ring

/-- **C103** The same for functions with a Lipschitz constant `L`: the error is at most `L / √r`. -/
theorem C103_lipschitz {n : Nat} {p : Obj ℝ} {q : (Fin n → ℝ) → ℝ} (hp : Represents p n q) (hb : p.basis = .bernstein) (hr : 1 ≤ p.r)
    (g : List ℝ → ℝ) (hc : p.coeff = (generateLagrangePoints ℝ n p.r).map g) (x : Fin n → ℝ) (hx : x ∈ Spec.unitSimplex n) (L : ℝ) (hL : 0 ≤ L)
    (hg : ∀ y ∈ Spec.unitSimplex n, |g (List.ofFn y) - g (List.ofFn x)| ≤ L * √(∑ i, (y i - x i) ^ 2)) :
    |q x - g (List.ofFn x)| ≤ L / √p.r := by
  have hr0 : (0 : ℝ) < p.r := by exact_mod_cast hr
  have hs : 0 < √(p.r : ℝ) := Real.sqrt_pos.2 hr0
  have hss : √(p.r : ℝ) * √(p.r : ℝ) = p.r := Real.mul_self_sqrt hr0.le
  have hdiff : q x - g (List.ofFn x) = ∑ ν ∈ S n p.r, Spec.bernstein p.r (List.ofFn x) (List.ofFn ν) *
      (g (List.ofFn fun i => (ν i : ℝ) / (p.r : ℝ)) - g (List.ofFn x)) := by
    simp only [mul_sub (Spec.bernstein _ _ _)]
    rw [Finset.sum_sub_distrib, ← Finset.sum_mul, bernstein_total, one_mul, bernstein_sampled hp hb g hc]
  have amgm : ∀ d : ℝ, 0 ≤ d → √d ≤ (√(p.r : ℝ) * d + 1 / √(p.r : ℝ)) / 2 := by
    intro d hd
    have h1 : √d * √d = d := Real.mul_self_sqrt hd
    rw [le_div_iff₀ (by norm_num), ← sub_nonneg]
    have : √(p.r : ℝ) * d + 1 / √(p.r : ℝ) - √d * 2 = (√(p.r : ℝ) * √d - 1) ^ 2 / √(p.r : ℝ) := by
      rw [eq_div_iff hs.ne']
      field_simp
      nlinarith
    rw [this]
    positivity
  rw [hdiff]
  calc _ ≤ ∑ ν ∈ S n p.r, Spec.bernstein p.r (List.ofFn x) (List.ofFn ν) *
          (L * ((√(p.r : ℝ) * ∑ i, ((ν i : ℝ) / (p.r : ℝ) - x i) ^ 2 + 1 / √(p.r : ℝ)) / 2)) := by
        refine (Finset.abs_sum_le_sum_abs _ _).trans (Finset.sum_le_sum fun ν hν => ?_)
        have h0 := bernstein_nonneg p.r x ν hx.1 hx.2
        rw [abs_mul, abs_of_nonneg h0]
        refine mul_le_mul_of_nonneg_left ((hg _ (lattice_mem hr hν)).trans (mul_le_mul_of_nonneg_left ?_ hL)) h0
        exact amgm _ (Finset.sum_nonneg fun i _ => sq_nonneg _)
    _ = L * ((√(p.r : ℝ) * ((∑ i, x i * (1 - x i)) / p.r) + 1 / √(p.r : ℝ)) / 2) := by
        rw [← variance_total hr x]
        have e : ∀ ν : Fin n → ℕ, Spec.bernstein p.r (List.ofFn x) (List.ofFn ν) *
            (L * ((√(p.r : ℝ) * ∑ i, ((ν i : ℝ) / (p.r : ℝ) - x i) ^ 2 + 1 / √(p.r : ℝ)) / 2)) =
            L * √(p.r : ℝ) / 2 * (Spec.bernstein p.r (List.ofFn x) (List.ofFn ν) * ∑ i, ((ν i : ℝ) / (p.r : ℝ) - x i) ^ 2) +
              L / 2 * (1 / √(p.r : ℝ)) * Spec.bernstein p.r (List.ofFn x) (List.ofFn ν) := fun ν => by ring
        simp only [e]
        rw [Finset.sum_add_distrib, ← Finset.mul_sum, ← Finset.mul_sum, bernstein_total]
        ring
    _ ≤ L * ((√(p.r : ℝ) * (1 / p.r) + 1 / √(p.r : ℝ)) / 2) := by
        refine mul_le_mul_of_nonneg_left ?_ hL
        have := mul_le_mul_of_nonneg_left (div_le_div_of_nonneg_right (spread_le hx) hr0.le) hs.le
        linarith
    _ = L / √p.r := by
        have : √(p.r : ℝ) * (1 / p.r) = 1 / √(p.r : ℝ) := by
          rw [mul_one_div, div_eq_div_iff hr0.ne' hs.ne', hss, one_mul]
        rw [this]
        ring

/-! ## Examples -/

/-- The cosine of the first coordinate: the Bernstein polynomial of degree 10 with its values as coefficients is within `1 / 10` of it. -/
example : ∃ p q, Obj.new .bernstein ((generateLagrangePoints ℝ 2 10).map fun y => Real.cos (y.getD 0 0)) (some 10) 2 = .ok p ∧ Represents p 2 q ∧
    ∀ x ∈ Spec.unitSimplex 2, |q x - Real.cos (x 0)| ≤ 1 / √10 := by
  obtain ⟨p, q, h1, h2, h3, h4, h5⟩ := C103_sampled (K := ℝ) 2 10 (Or.inr (by norm_num)) (fun y => Real.cos (y.getD 0 0))
  refine ⟨p, q, h1, h4, fun x hx => ?_⟩
  have := C103_lipschitz h4 h2 (by omega) (fun y => Real.cos (y.getD 0 0)) (by rw [h3]; exact h5) x hx 1 zero_le_one (fun y _ => by
    rw [one_mul]
    have a1 : |Real.cos (y 0) - Real.cos (x 0)| ≤ |y 0 - x 0| := Real.abs_cos_sub_cos_le _ _
    refine le_trans (by simpa using a1) (Real.abs_le_sqrt ?_)
    rw [Fin.sum_univ_two]
    nlinarith [sq_nonneg (y 1 - x 1)])
  rw [h3] at this
  simpa using this

/-- The function `x₀² + x₁²`: of second order at every point. -/
example : ∃ p q, Obj.new .bernstein ((generateLagrangePoints ℝ 2 4).map fun y => y.getD 0 0 ^ 2 + y.getD 1 0 ^ 2) (some 4) 2 = .ok p ∧ Represents p 2 q ∧
    ∀ x ∈ Spec.unitSimplex 2, |q x - (x 0 ^ 2 + x 1 ^ 2)| ≤ 1 / 4 := by
  obtain ⟨p, q, h1, h2, h3, h4, h5⟩ := C103_sampled (K := ℝ) 2 4 (Or.inr (by norm_num)) (fun y => y.getD 0 0 ^ 2 + y.getD 1 0 ^ 2)
  refine ⟨p, q, h1, h4, fun x hx => ?_⟩
  have := C103_second_order h4 h2 (by omega) (fun y => y.getD 0 0 ^ 2 + y.getD 1 0 ^ 2) (by rw [h3]; exact h5) x hx
    ((2 * x 0) • LinearMap.proj 0 + (2 * x 1) • LinearMap.proj 1) 1 zero_le_one (fun y _ => by
      rw [Fin.sum_univ_two, abs_le]
      simp
      constructor <;> nlinarith [sq_nonneg (y 0 - x 0), sq_nonneg (y 1 - x 1)])
  rw [h3] at this
  simpa using this

/-- A polynomial of degree 2 in two variables: coefficients of its elevation to degree 5. -/
example : Fits 5 2 ∧ ∃ p : Obj ℚ, Represents (K := ℚ) p 2 (val .bernstein 2 2 fun ν => (ν.sum : ℚ)) ∧ p.basis = .bernstein ∧ p.r ≤ 5 :=
  ⟨Or.inr (by norm_num), _, rep_mk .bernstein 2 2 _ (Or.inr (by norm_num)), rfl, by show 2 ≤ 5; norm_num⟩

end Verif.Props
