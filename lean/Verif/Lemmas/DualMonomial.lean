import Verif.Lemmas.PolyDeriv
import Verif.Lemmas.PolyUnique
import Verif.Model.DualBases
/-!
# Higher derivatives and the dual monomial basis
-/

namespace Verif.Poly
open Verif Verif.MI Verif.Spec

variable {K V : Type} [NontriviallyNormedField K] [DecidableEq K] [CharZero K] [NormedAddCommGroup V] [NormedSpace K V]

/-- `∏ νᵢ!`. -/
def factF {m : Nat} (ν : Fin m → ℕ) : ℕ := ∏ i, (ν i).factorial

theorem factF_add_single {m : Nat} (ν : Fin m → ℕ) (i : Fin m) : factF (ν + Pi.single i 1) = (ν i + 1) * factF ν := by
  unfold factF
  rw [← Finset.mul_prod_erase Finset.univ _ (Finset.mem_univ i),
    ← Finset.mul_prod_erase Finset.univ (fun j => (ν j).factorial) (Finset.mem_univ i), ← mul_assoc]
  congr 1
  · simp [Nat.factorial_succ]
  · refine Finset.prod_congr rfl (fun j hj => ?_)
    simp [Pi.single_apply, (Finset.mem_erase.1 hj).1]

theorem factorial_ofFn {m : Nat} (ν : Fin m → ℕ) : MI.factorial (List.ofFn ν) = factF ν := by
  have key : ∀ (l : List Nat) (a : Nat), l.foldl (fun f k => f * k.factorial) a = a * (l.map Nat.factorial).prod := by
    intro l
    induction l with
    | nil => intro a; simp
    | cons b l ih => intro a; simp only [List.foldl_cons, ih, List.map_cons, List.prod_cons]; ring
  rw [MI.factorial, key, one_mul, map_factorial_ofFn]; rfl

/-- `Σ c_ν x^ν` over all `ν` of norm at most `R`. -/
def mono {m : Nat} (R : Nat) (c : (Fin m → ℕ) → V) (x : Fin m → K) : V := ∑ ν ∈ S m R, (∏ j, x j ^ ν j) • c ν

/-- `c_ν = 0` for all `ν` of norm above `R`. -/
def Supp {m : Nat} (R : Nat) (c : (Fin m → ℕ) → V) : Prop := ∀ ν, R < ∑ i, ν i → c ν = 0

/-- The coefficients of the `i`:th partial derivative. -/
def dcoef {m : Nat} (i : Fin m) (c : (Fin m → ℕ) → V) (ν : Fin m → ℕ) : V := (ν i + 1) • c (ν + Pi.single i 1)

omit [DecidableEq K] [CharZero K] in
theorem supp_dcoef {m : Nat} (R : Nat) (c : (Fin m → ℕ) → V) (h : Supp R c) (i : Fin m) : Supp R (dcoef i c) := by
  intro ν hν
  unfold dcoef
  rw [h, smul_zero]
  simp [Finset.sum_add_distrib]; omega

omit [DecidableEq K] [CharZero K] in
theorem hasDerivAt_mono {m : Nat} (R : Nat) (c : (Fin m → ℕ) → V) (h : Supp R c) (x : Fin m → K) (i : Fin m) :
    HasDerivAt (fun t => mono R c (Function.update x i t)) (mono R (dcoef i c) x) (x i) := by
  have h1 : HasDerivAt (fun t => mono R c (Function.update x i t))
      (∑ ν ∈ S m R, (if ν i = 0 then 0 else (ν i : K) * ∏ j, x j ^ (ν - Pi.single i 1 : Fin m → ℕ) j) • c ν) (x i) := by
    unfold mono
    exact HasDerivAt.fun_sum (fun ν _ => (hasDerivAt_monomial x i ν).smul_const _)
  convert h1 using 1
  unfold mono
  by_cases hR : R = 0
  · subst hR
    refine (Finset.sum_eq_zero fun ν hν => ?_).trans (Finset.sum_eq_zero fun ν hν => ?_).symm
    · rw [dcoef, h _ (by simp [Finset.sum_add_distrib]), smul_zero, smul_zero]
    · have : ν i = 0 := by
        have := mem_S.1 hν
        have h2 := Finset.single_le_sum (f := ν) (fun _ _ => Nat.zero_le _) (Finset.mem_univ i)
        omega
      rw [if_pos this, zero_smul]
  · have e1 : ∀ ν ∈ S m R, (if ν i = 0 then 0 else (ν i : K) * ∏ j, x j ^ (ν - Pi.single i 1 : Fin m → ℕ) j) • c ν =
        if ν i = 0 then 0 else ((ν i : K) * ∏ j, x j ^ (ν - Pi.single i 1 : Fin m → ℕ) j) • c ν := by
      intro ν _; split <;> simp
    rw [Finset.sum_congr rfl e1, sum_shift m R hR i]
    rw [← Finset.sum_subset (S_subset (show R - 1 ≤ R by omega))]
    · refine Finset.sum_congr rfl (fun τ _ => ?_)
      have e2 : (τ + Pi.single i 1 - Pi.single i 1 : Fin m → ℕ) = τ := by funext j; simp
      rw [e2, dcoef]
      simp only [Pi.add_apply, Pi.single_eq_same, Nat.cast_add, Nat.cast_one]
      rw [← Nat.cast_smul_eq_nsmul K, smul_smul, mul_comm]; push_cast; rfl
    · intro ν hν hn
      have h3 := mem_S.1 hν
      have h4 := mt mem_S.2 hn
      rw [dcoef, h _ (by simp [Finset.sum_add_distrib]; omega), smul_zero, smul_zero]

/-- The coefficients `d` are those of the derivative `α` of the polynomial with coefficients `c`. -/
def IsD {m : Nat} (α : Fin m → ℕ) (c d : (Fin m → ℕ) → V) : Prop := ∀ ν, factF ν • d ν = factF (ν + α) • c (ν + α)

theorem isD_zero {m : Nat} {V : Type} [NormedAddCommGroup V] (c : (Fin m → ℕ) → V) : IsD 0 c c := fun ν => by simp

theorem isD_succ {m : Nat} {V : Type} [NormedAddCommGroup V] {α : Fin m → ℕ} {c d : (Fin m → ℕ) → V} (h : IsD α c d) (i : Fin m) : IsD (α + Pi.single i 1) c (dcoef i d) := by
  intro ν
  rw [dcoef, smul_smul, mul_comm, ← factF_add_single, h, show ν + (α + Pi.single i 1) = ν + Pi.single i 1 + α by
    rw [add_assoc, add_comm (Pi.single i 1)]]

/-- One partial derivative of an object that represents `mono R d`. -/
theorem partialDerivative_mono {p : Obj V} {m R : Nat} {d : (Fin m → ℕ) → V} (hp : Represents p m (mono (K := K) R d))
    (hs : Supp R d) (i : Fin m) :
    ∃ s, p.partialDerivative K i = .ok s ∧ Represents s m (mono (K := K) R (dcoef i d)) ∧ s.basis = p.basis ∧ s.r = p.r - 1 := by
  obtain ⟨s, f', h1, h2, h3, h4, h5⟩ := partialDerivative_rep hp i
  have : f' = mono R (dcoef i d) := funext fun x => (h3 x).unique (hasDerivAt_mono R d hs x i)
  exact ⟨s, h1, this ▸ h2, h4, h5⟩

theorem repeatDerivative_mono {m R : Nat} {c : (Fin m → ℕ) → V} (i : Fin m) : ∀ (k : Nat) {p : Obj V} {α : Fin m → ℕ} {d : (Fin m → ℕ) → V},
    Represents p m (mono (K := K) R d) → Supp R d → IsD α c d →
    ∃ s d', repeatDerivative K i k p = .ok s ∧ Represents s m (mono (K := K) R d') ∧ Supp R d' ∧ IsD (α + Pi.single i k) c d' ∧
      s.basis = p.basis ∧ s.r = p.r - k
  | 0, p, α, d, hp, hs, hd => ⟨p, d, rfl, hp, hs, by simpa using hd, rfl, rfl⟩
  | k + 1, p, α, d, hp, hs, hd => by
    obtain ⟨s, h1, h2, h3, h4⟩ := partialDerivative_mono hp hs i
    obtain ⟨s', d', g1, g2, g3, g4, g5, g6⟩ := repeatDerivative_mono i k h2 (supp_dcoef R d hs i) (isD_succ hd i)
    refine ⟨s', d', ?_, g2, g3, ?_, g5.trans h3, by omega⟩
    · simp only [repeatDerivative, h1, Py.bind_ok]; exact g1
    · have : α + Pi.single i (k + 1) = α + Pi.single i 1 + Pi.single i k := by
        rw [add_assoc, ← Pi.single_add, add_comm 1 k]
      rw [this]; exact g4

theorem derivLoop {m R : Nat} {c : (Fin m → ℕ) → V} (α : Fin m → ℕ) : ∀ (l : List (Fin m)) {p : Obj V} {β : Fin m → ℕ} {d : (Fin m → ℕ) → V},
    Represents p m (mono (K := K) R d) → Supp R d → IsD β c d →
    ∃ s d', (l.map (fun i => (α i, (i : Nat)))).foldlM (fun dp (e : Nat × Nat) => repeatDerivative K e.2 e.1 dp) p = .ok s ∧
      Represents s m (mono (K := K) R d') ∧ Supp R d' ∧ IsD (β + (l.map (fun i => Pi.single i (α i))).sum) c d' ∧
      s.basis = p.basis ∧ s.r = p.r - (l.map α).sum
  | [], p, β, d, hp, hs, hd => ⟨p, d, rfl, hp, hs, by simpa using hd, rfl, by simp⟩
  | i :: l, p, β, d, hp, hs, hd => by
    obtain ⟨s, d1, h1, h2, h3, h4, h5, h6⟩ := repeatDerivative_mono i (α i) hp hs hd
    obtain ⟨s', d', g1, g2, g3, g4, g5, g6⟩ := derivLoop α l h2 h3 h4
    refine ⟨s', d', ?_, g2, g3, ?_, g5.trans h5, ?_⟩
    · simp only [List.map_cons, List.foldlM_cons, h1]; exact g1
    · rw [List.map_cons, List.sum_cons, ← add_assoc]; exact g4
    · simp only [List.map_cons, List.sum_cons]; omega

theorem zipIdx_ofFn {m : Nat} (α : Fin m → ℕ) : (List.ofFn α).zipIdx = (List.finRange m).map (fun i => (α i, (i : Nat))) := by
  apply List.ext_getElem
  · simp
  · intro i h1 h2; simp

theorem sum_single {m : Nat} (α : Fin m → ℕ) : ((List.finRange m).map (fun i => (Pi.single i (α i) : Fin m → ℕ))).sum = α := by
  rw [← List.ofFn_eq_map, List.sum_ofFn]
  exact Finset.univ_sum_single α

/-- `derivative(p, alpha)` of an object that represents `mono R c`. -/
theorem derivative_mono {p : Obj V} {m R : Nat} {c : (Fin m → ℕ) → V} (hp : Represents p m (mono (K := K) R c)) (hs : Supp R c)
    (α : Fin m → ℕ) :
    ∃ s d, derivative K p (List.ofFn α) = .ok s ∧ Represents s m (mono (K := K) R d) ∧ IsD α c d ∧ s.basis = p.basis ∧
      s.r = p.r - ∑ i, α i := by
  obtain ⟨s, d, h1, h2, _, h4, h5, h6⟩ := derivLoop α (List.finRange m) hp hs (isD_zero c)
  refine ⟨s, d, ?_, h2, ?_, h5, ?_⟩
  · unfold derivative
    rw [List.length_ofFn, hp.dim, decide_eq_true rfl, pyAssert_true, Py.bind_ok, zipIdx_ofFn]
    exact h1
  · rw [sum_single, zero_add] at h4; exact h4
  · rw [h6, ← List.ofFn_eq_map, List.sum_ofFn]

omit [DecidableEq K] [CharZero K] in
theorem mono_zero {m R : Nat} (c : (Fin m → ℕ) → V) : mono R c (fun _ => (0 : K)) = c 0 := by
  unfold mono
  rw [Finset.sum_eq_single 0]
  · simp
  · intro ν _ hν
    obtain ⟨i, hi⟩ := Function.ne_iff.1 hν
    rw [Finset.prod_eq_zero (Finset.mem_univ i) (zero_pow hi), zero_smul]
  · intro h; exact absurd (mem_S.2 (by simp)) h

theorem dualMonomial_mono {p : Obj V} {m R : Nat} {c : (Fin m → ℕ) → V} (hp : Represents p m (mono (K := K) R c)) (hs : Supp R c)
    (α : Fin m → ℕ) : dualMonomialFn K (List.ofFn α) p = .ok (c α) := by
  obtain ⟨s, d, h1, h2, h3, _, _⟩ := derivative_mono hp hs α
  have hv := h2.value (fun _ => 0)
  have e0 : List.replicate m (0 : K) = List.ofFn (fun _ : Fin m => (0 : K)) := by
    rw [List.ofFn_const]
  unfold dualMonomialFn
  rw [h1, Py.bind_ok, List.length_ofFn, e0, hv, Py.bind_ok, mono_zero]
  have h4 := h3 0
  rw [zero_add, show factF (0 : Fin m → ℕ) = 1 by simp [factF], one_smul] at h4
  have hne : ((factF α : ℕ) : K) ≠ 0 := by
    rw [Nat.cast_ne_zero]; exact Finset.prod_ne_zero_iff.2 (fun i _ => Nat.factorial_ne_zero _)
  rw [factorial_ofFn, h4, ← Nat.cast_smul_eq_nsmul K, smul_smul, inv_mul_cancel₀ hne, one_smul]
  rfl

end Verif.Poly
