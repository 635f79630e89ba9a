import Verif.Lemmas.DualMonomial
import Verif.Lemmas.SimplexPolynomialOps
import Verif.Model.Calculus
import Verif.Spec.Calculus
/-!
# Derivatives of any order
-/

namespace Verif.Calculus
open Verif Verif.MI Verif.Spec Verif.Poly

variable {K V : Type} [NontriviallyNormedField K] [CharZero K] [NormedAddCommGroup V] [NormedSpace K V] {m : ℕ}

/-! ## Iterated derivatives of polynomials -/

/-- The coefficients after taking the derivatives of a list of directions. -/
def dlist : List (Fin m) → ((Fin m → ℕ) → V) → ((Fin m → ℕ) → V)
  | [], c => c
  | i :: l, c => dlist l (dcoef i c)

omit [CharZero K] in
theorem dlist_partial (R : Nat) : ∀ (l : List (Fin m)) (c : (Fin m → ℕ) → V), Supp R c →
    IsIteratedPartial l (mono (K := K) R c) (mono (K := K) R (dlist l c))
  | [], _, _ => rfl
  | i :: l, c, h => ⟨_, fun x => hasDerivAt_mono R c h x i, dlist_partial R l _ (supp_dcoef R c h i)⟩

theorem isD_dlist {V : Type} [NormedAddCommGroup V] {α : Fin m → ℕ} {c : (Fin m → ℕ) → V} : ∀ (l : List (Fin m)) (d : (Fin m → ℕ) → V), IsD α c d →
    IsD (fun i => α i + l.count i) c (dlist l d)
  | [], d, h => by simpa [dlist] using h
  | i :: l, d, h => by
    have h1 := isD_dlist l _ (isD_succ h i)
    have : (fun j => (α + Pi.single i 1 : Fin m → ℕ) j + l.count j) = fun j => α j + (i :: l).count j := by
      funext j
      rw [List.count_cons, Pi.add_apply, Pi.single_apply]
      by_cases hj : j = i
      · subst hj; simp; omega
      · rw [if_neg hj]
        have : ¬ (i == j) = true := by simpa using fun h => hj h.symm
        rw [if_neg this]; omega
    rw [this] at h1
    exact h1

include K in
theorem isD_unique {α : Fin m → ℕ} {c d d' : (Fin m → ℕ) → V} (h : IsD α c d) (h' : IsD α c d') : d = d' := by
  funext ν
  have e := (h ν).trans (h' ν).symm
  have hne : ((factF ν : ℕ) : K) ≠ 0 := by
    rw [Nat.cast_ne_zero]; exact Finset.prod_ne_zero_iff.2 (fun i _ => Nat.factorial_ne_zero _)
  rw [← Nat.cast_smul_eq_nsmul K, ← Nat.cast_smul_eq_nsmul K] at e
  exact smul_right_injective V hne e

theorem isDerivative_mono {R : Nat} {α : Fin m → ℕ} {c d : (Fin m → ℕ) → V} (hs : Supp R c) (h : IsD α c d) :
    IsDerivative α (mono (K := K) R c) (mono (K := K) R d) := by
  intro l hl
  have h1 := isD_dlist l c (isD_zero c)
  have e : (fun i => (0 : Fin m → ℕ) i + l.count i) = α := funext fun i => by rw [Pi.zero_apply, zero_add, hl i]
  rw [e] at h1
  rw [isD_unique (K := K) h h1]
  exact dlist_partial R l c hs

omit [CharZero K] in
theorem exists_mono {R : Nat} {f : (Fin m → K) → V} (h : IsPoly m R f) : ∃ c, Supp R c ∧ f = mono R c := by
  obtain ⟨c, hc⟩ := h
  refine ⟨fun ν => if ν ∈ S m R then c (List.ofFn ν) else 0, fun ν hν => if_neg (fun h => absurd (mem_S.1 h) (by omega)), ?_⟩
  funext x
  rw [hc]
  unfold mono
  exact Finset.sum_congr rfl (fun ν hν => by simp only [if_pos hν])

/-! ## Objects with partial derivatives -/

/-- What is used of the objects: `Rep p f` means that `p` stands for `f`. -/
structure Good {O B : Type} (pd : O → Nat → Py O) (Rep : O → ((Fin m → K) → V) → Prop) (bas : O → B) (deg : O → Nat) : Prop where
  poly : ∀ p f, Rep p f → IsPoly m (deg p) f
  pd : ∀ p f, Rep p f → ∀ i : Fin m, ∃ s f', pd p i = .ok s ∧ Rep s f' ∧ IsPartial i f f' ∧ bas s = bas p ∧ deg s = deg p - 1

section
variable {O B : Type} {pd : O → Nat → Py O} {Rep : O → ((Fin m → K) → V) → Prop} {bas : O → B} {deg : O → Nat}

omit [CharZero K] in
theorem pd_mono (G : Good pd Rep bas deg) {p : O} {R : Nat} {d : (Fin m → ℕ) → V} (hp : Rep p (mono (K := K) R d)) (hs : Supp R d) (i : Fin m) :
    ∃ s, pd p i = .ok s ∧ Rep s (mono (K := K) R (dcoef i d)) ∧ bas s = bas p ∧ deg s = deg p - 1 := by
  obtain ⟨s, f', h1, h2, h3, h4, h5⟩ := G.pd p _ hp i
  have : f' = mono R (dcoef i d) := funext fun x => (h3 x).unique (hasDerivAt_mono R d hs x i)
  exact ⟨s, h1, this ▸ h2, h4, h5⟩

omit [CharZero K] in
theorem repeat_mono (G : Good pd Rep bas deg) {R : Nat} {c : (Fin m → ℕ) → V} (i : Fin m) : ∀ (k : Nat) {p : O} {α : Fin m → ℕ} {d : (Fin m → ℕ) → V},
    Rep p (mono (K := K) R d) → Supp R d → IsD α c d →
    ∃ s d', repeatPd pd i k p = .ok s ∧ Rep s (mono (K := K) R d') ∧ Supp R d' ∧ IsD (α + Pi.single i k) c d' ∧ bas s = bas p ∧ deg s = deg p - k
  | 0, p, α, d, hp, hs, hd => ⟨p, d, rfl, hp, hs, by simpa using hd, rfl, rfl⟩
  | k + 1, p, α, d, hp, hs, hd => by
    obtain ⟨s, h1, h2, h3, h4⟩ := pd_mono G hp hs i
    obtain ⟨s', d', g1, g2, g3, g4, g5, g6⟩ := repeat_mono G i k h2 (supp_dcoef R d hs i) (isD_succ hd i)
    refine ⟨s', d', ?_, g2, g3, ?_, g5.trans h3, by omega⟩
    · simp only [repeatPd, h1, Py.bind_ok]; exact g1
    · have : α + Pi.single i (k + 1) = α + Pi.single i 1 + Pi.single i k := by
        rw [add_assoc, ← Pi.single_add, add_comm 1 k]
      rw [this]; exact g4

omit [CharZero K] in
theorem loop_mono (G : Good pd Rep bas deg) {R : Nat} {c : (Fin m → ℕ) → V} (α : Fin m → ℕ) : ∀ (l : List (Fin m)) {p : O} {β : Fin m → ℕ}
    {d : (Fin m → ℕ) → V}, Rep p (mono (K := K) R d) → Supp R d → IsD β c d →
    ∃ s d', (l.map (fun (i : Fin m) => (i : Nat))).foldlM (fun dp (i : Nat) => do
        let k ← getE (List.ofFn α) i
        repeatPd pd i k dp) p = .ok s ∧
      Rep s (mono (K := K) R d') ∧ Supp R d' ∧ IsD (β + (l.map (fun i => Pi.single i (α i))).sum) c d' ∧
      bas s = bas p ∧ deg s = deg p - (l.map α).sum
  | [], p, β, d, hp, hs, hd => ⟨p, d, rfl, hp, hs, by simpa using hd, rfl, by simp⟩
  | i :: l, p, β, d, hp, hs, hd => by
    obtain ⟨s, d1, h1, h2, h3, h4, h5, h6⟩ := repeat_mono G i (α i) hp hs hd
    obtain ⟨s', d', g1, g2, g3, g4, g5, g6⟩ := loop_mono G α l h2 h3 h4
    refine ⟨s', d', ?_, g2, g3, ?_, g5.trans h5, ?_⟩
    · have hg : getE (List.ofFn α) (i : Nat) = .ok (α i) := by rw [getE_ok (by simp)]; simp
      simp only [List.map_cons, List.foldlM_cons, hg, Py.bind_ok, h1]; exact g1
    · rw [List.map_cons, List.sum_cons, ← add_assoc]; exact g4
    · simp only [List.map_cons, List.sum_cons]; omega

theorem derivative_mono' (G : Good pd Rep bas deg) {p : O} {R : Nat} {c : (Fin m → ℕ) → V} (hp : Rep p (mono (K := K) R c)) (hs : Supp R c)
    (α : Fin m → ℕ) :
    ∃ s d, derivative pd m p (List.ofFn α) = .ok s ∧ Rep s (mono (K := K) R d) ∧ IsD α c d ∧ bas s = bas p ∧ deg s = deg p - ∑ i, α i := by
  obtain ⟨s, d, h1, h2, _, h4, h5, h6⟩ := loop_mono G α (List.finRange m) hp hs (isD_zero c)
  refine ⟨s, d, ?_, h2, ?_, h5, ?_⟩
  · unfold derivative
    rw [List.length_ofFn, decide_eq_true rfl, pyAssert_true, Py.bind_ok]
    rw [show List.range m = (List.finRange m).map (fun (i : Fin m) => (i : Nat)) by simp]
    exact h1
  · rw [sum_single, zero_add] at h4; exact h4
  · rw [h6, ← List.ofFn_eq_map, List.sum_ofFn]

theorem derivative_spec (G : Good pd Rep bas deg) {p : O} {f : (Fin m → K) → V} (hp : Rep p f) (α : Fin m → ℕ) :
    ∃ s g, derivative pd m p (List.ofFn α) = .ok s ∧ Rep s g ∧ IsDerivative α f g ∧ bas s = bas p ∧ deg s = deg p - ∑ i, α i := by
  obtain ⟨c, hs, rfl⟩ := exists_mono (G.poly p f hp)
  obtain ⟨s, d, h1, h2, h3, h4, h5⟩ := derivative_mono' G hp hs α
  exact ⟨s, _, h1, h2, isDerivative_mono hs h3, h4, h5⟩

omit [CharZero K] in
theorem gradient_spec (G : Good pd Rep bas deg) {p : O} {f : (Fin m → K) → V} (hp : Rep p f) :
    ∃ (q : Fin m → O) (f' : Fin m → (Fin m → K) → V), gradient pd m p = .ok (List.ofFn q) ∧
      ∀ i, Rep (q i) (f' i) ∧ IsPartial i f (f' i) ∧ bas (q i) = bas p ∧ deg (q i) = deg p - 1 := by
  choose q f' h using fun i => G.pd p f hp i
  refine ⟨q, f', ?_, fun i => (h i).2⟩
  unfold gradient
  rw [show List.range m = (List.finRange m).map (fun (i : Fin m) => (i : Nat)) by simp, List.mapM_map, List.ofFn_eq_map]
  exact mapM_eq_ok _ _ (fun i _ => (h i).1)

end

end Verif.Calculus
