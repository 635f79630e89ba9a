import Verif.Model.FloatPower
import Verif.Props.FloatMonomial
/-!
# C99, C100: powers and quotients of polynomials in floating point arithmetic
-/

namespace Verif.Props
open Verif Verif.Poly Verif.FloatPoly Verif.Spec Verif.MI Verif.FloatIntegration

namespace FloatPowerAux

theorem near_abs {ε : ℝ} {k : Nat} {v M c : ℝ} (h : Near ε k v M c) : |c| ≤ (1 + ε) ^ k * M := by
  have h1 : |c| ≤ |c - v| + |v| := by simpa using abs_add_le (c - v) v
  have := h.1
  have := h.2
  linarith

theorem size_near {ε : ℝ} {k m r : Nat} {b : Basis} {c v M : List Nat → ℝ} (h : ∀ τ ∈ mis m r, Near ε k (v τ) (M τ) (c τ)) {x : Fin m → ℝ}
    (hx : ∀ ν : Fin m → ℕ, 0 ≤ basisFn b r (List.ofFn x) (List.ofFn ν)) :
    val b m r (fun τ => |c τ|) x ≤ (1 + ε) ^ k * val b m r M x := by
  unfold val
  rw [Finset.mul_sum]
  refine Finset.sum_le_sum fun ν hν => ?_
  have := near_abs (h (List.ofFn ν) (mem_mis.2 ⟨by simp, by rw [List.sum_ofFn]; exact mem_S.1 hν⟩))
  simp only [smul_eq_mul]
  have := mul_le_mul_of_nonneg_left this (hx ν)
  linarith

/-- What is known about the possible results of a power. -/
def Good (p : Obj ℝ) (n : Nat) (s : Obj ℝ) : Prop := s.Valid ∧ s.basis = p.basis ∧ s.r = n * p.r ∧ s.m = p.m

/-- The rounding errors of a power: `V` and `S` are the values and the sizes of polynomials at the points of a set. -/
theorem pow_near {ε : ℝ} (hε : 0 ≤ ε) {X : Type} (V S : X → Obj ℝ → ℝ) (k : Nat) (p : Obj ℝ) (hp : p.Valid) (hS : ∀ x, |V x p| ≤ S x p)
    (h0 : ∃ u, unitOf p.basis ℝ 0 p.m = .ok u ∧ Good p 0 u ∧ ∀ x, V x u = 1 ∧ S x u = 1) (N : Nat)
    (hmul : ∀ n, n + 1 ≤ N → ∀ q, Good p n q → (outcomes (mulBasis ε p q)).Nonempty ∧ ∀ y ∈ outcomes (mulBasis ε p q), ∃ s, y = .ok s ∧ Good p (n + 1) s ∧
      ∀ x, |V x s - V x p * V x q| ≤ ((1 + ε) ^ k - 1) * (S x p * S x q) ∧ S x s ≤ (1 + ε) ^ k * (S x p * S x q)) :
    ∀ n ≤ N, (powNat ε p n).Nonempty ∧ ∀ y ∈ powNat ε p n, ∃ s, y = .ok s ∧ Good p n s ∧
      ∀ x, |V x s - V x p ^ n| ≤ ((1 + ε) ^ ((n - 1) * k) - 1) * S x p ^ n ∧ S x s ≤ (1 + ε) ^ ((n - 1) * k) * S x p ^ n := by
  intro n
  induction n with
  | zero =>
    intro _
    obtain ⟨u, h1, h2, h3⟩ := h0
    refine ⟨⟨_, rfl⟩, fun y hy => ⟨u, ?_, h2, fun x => ?_⟩⟩
    · rw [← h1]; exact hy
    · simp [(h3 x).1, (h3 x).2]
  | succ n ih =>
    intro hn
    rcases n with _ | n
    · refine ⟨⟨_, rfl⟩, fun y hy => ⟨p, ?_, ⟨hp, rfl, by simp, rfl⟩, fun x => by simp⟩⟩
      have hy : y = Obj.new p.basis p.coeff (some p.r) p.m := hy
      rw [hy]; exact hp
    · obtain ⟨⟨z, hz⟩, h1⟩ := ih (by omega)
      refine ⟨?_, ?_⟩
      · obtain ⟨s, rfl, hs, -⟩ := h1 z hz
        obtain ⟨⟨y, hy⟩, -⟩ := hmul (n + 1) hn s hs
        exact ⟨y, _, hz, hy⟩
      · rintro y ⟨z, hz, hy⟩
        obtain ⟨q, rfl, hq, h2⟩ := h1 z hz
        obtain ⟨-, h3⟩ := hmul (n + 1) hn q hq
        obtain ⟨s, rfl, hs, h4⟩ := h3 y hy
        refine ⟨s, rfl, hs, fun x => ?_⟩
        obtain ⟨e1, e2⟩ := h2 x
        obtain ⟨e3, e4⟩ := h4 x
        have hSp : 0 ≤ S x p := (abs_nonneg _).trans (hS x)
        have hE : (1 : ℝ) ≤ (1 + ε) ^ k := one_le_pow₀ (by linarith)
        rw [show n + 1 + 1 - 1 = n + 1 by omega, show n + 1 - 1 = n by omega] at *
        have hF : (1 : ℝ) ≤ (1 + ε) ^ (n * k) := one_le_pow₀ (by linarith)
        rw [show (n + 1) * k = k + n * k by ring, pow_add (1 + ε), pow_succ (V x p) (n + 1), pow_succ (S x p) (n + 1)]
        generalize (1 + ε) ^ k = E at *
        generalize (1 + ε) ^ (n * k) = F at *
        generalize hA : S x p ^ (n + 1) = A at *
        have hA0 : 0 ≤ A := hA ▸ pow_nonneg hSp _
        have m1 : S x p * S x q ≤ S x p * (F * A) := mul_le_mul_of_nonneg_left e2 hSp
        constructor
        · have t1 : |V x s - V x p ^ (n + 1) * V x p| ≤ |V x s - V x p * V x q| + |V x p| * |V x q - V x p ^ (n + 1)| := by
            rw [← abs_mul]
            refine le_trans (le_of_eq ?_) (abs_add_le _ _)
            congr 1; ring
          have t2 : |V x p| * |V x q - V x p ^ (n + 1)| ≤ S x p * ((F - 1) * A) :=
            mul_le_mul (hS x) e1 (abs_nonneg _) hSp
          have t3 : (E - 1) * (S x p * S x q) ≤ (E - 1) * (S x p * (F * A)) := mul_le_mul_of_nonneg_left m1 (by linarith)
          calc _ ≤ (E - 1) * (S x p * (F * A)) + S x p * ((F - 1) * A) := by linarith
            _ = _ := by ring
        · calc S x s ≤ E * (S x p * S x q) := e4
            _ ≤ E * (S x p * (F * A)) := mul_le_mul_of_nonneg_left m1 (by linarith)
            _ = _ := by ring

theorem unit_ok (b : Basis) (m : Nat) : unitOf b ℝ 0 m = .ok ⟨b, tab m 0 (fun _ => (1 : ℝ)), 0, m⟩ := by
  have hd : getDimension 0 m = 1 := by simp [getDimension]
  have ht : tab m 0 (fun _ => (1 : ℝ)) = [1] := by rw [tab, List.map_const', length_mis_eq, hd]; rfl
  have hf : Fits 0 m := Or.inr (by omega)
  have hn : Obj.new b [(1 : ℝ)] (some 0) m = .ok ⟨b, [1], 0, m⟩ := new_ok b [(1 : ℝ)] 0 m (by simp [hd]) hf
  rw [ht]
  cases b <;> simp only [unitOf, unitPolynomialMonomial, unitPolynomialOnes, hd]
  · exact hn
  · exact hn
  · exact hn

theorem abs_val_le {m r : Nat} {b : Basis} (c : List Nat → ℝ) (x y : Fin m → ℝ)
    (h : ∀ ν : Fin m → ℕ, |basisFn b r (List.ofFn x) (List.ofFn ν)| ≤ basisFn b r (List.ofFn y) (List.ofFn ν)) :
    |val b m r c x| ≤ val b m r (fun τ => |c τ|) y := by
  unfold val
  refine (Finset.abs_sum_le_sum_abs _ _).trans (Finset.sum_le_sum fun ν _ => ?_)
  simp only [smul_eq_mul, abs_mul]
  exact mul_le_mul_of_nonneg_right (h ν) (abs_nonneg _)

theorem outcomes_ok {b : Basis} {m r : Nat} {Y : List Nat → Set ℝ} {op : Py (Obj (Set ℝ))} (hop : op = Obj.new b (tab m r Y) (some r) m) (hf : Fits r m)
    (hY : ∀ τ ∈ mis m r, (Y τ).Nonempty) : (outcomes op).Nonempty ∧
      ∀ y ∈ outcomes op, ∃ d : List Nat → ℝ, y = .ok ⟨b, tab m r d, r, m⟩ ∧ ∀ τ ∈ mis m r, d τ ∈ Y τ := by
  rw [hop, C99aux.new_sets b m r Y hf]
  obtain ⟨c, hc⟩ := C99aux.exists_possible hY
  refine ⟨⟨_, c, hc, rfl⟩, ?_⟩
  rintro y ⟨c, hc, rfl⟩
  obtain ⟨d, rfl, hd⟩ := C99aux.possible_tab hc
  exact ⟨d, rfl, hd⟩

theorem basis_nonneg {m : Nat} (r : Nat) (x : Fin m → ℝ) (ν : Fin m → ℕ) : 0 ≤ basisFn .monomial r (List.ofFn (fun i => |x i|)) (List.ofFn ν) := by
  simp only [basisFn, monomial_ofFn]
  exact Finset.prod_nonneg fun i _ => by positivity

end FloatPowerAux
open FloatPowerAux

/-- **C99** Powers of Bernstein polynomials: for every sequence of rounding errors the computed power is near to the power at every point of the unit
simplex. -/
theorem C99_pow (ε : ℝ) (hε : 0 ≤ ε) (hε' : ε ≤ 1 / 2) {m : ℕ} (p : Obj ℝ) (hp : p.Valid) (hb : p.basis = .bernstein) (hpm : p.m = m) (n : ℕ)
    (hf : Fits (n * p.r) m) :
    (powNat ε p n).Nonempty ∧ ∀ y ∈ powNat ε p n, ∃ s, y = .ok s ∧ s.Valid ∧ s.basis = .bernstein ∧ s.r = n * p.r ∧ s.m = m ∧
      ∀ x ∈ unitSimplex m, |bernsteinValue (n * p.r) s.coeff x - bernsteinValue p.r p.coeff x ^ n| ≤
        ((1 + ε) ^ ((n - 1) * (getDimension p.r m + 8)) - 1) * bernsteinSize p.r p.coeff x ^ n := by
  subst hpm
  obtain ⟨f, hpf⟩ := hp.exists_tab
  have hbn : ∀ (x : unitSimplex p.m) (r : Nat) (ν : Fin p.m → ℕ), 0 ≤ basisFn .bernstein r (List.ofFn x.1) (List.ofFn ν) := fun x r ν =>
    Verif.Props.bernstein_nonneg r x.1 ν x.2.1 x.2.2
  have key := pow_near hε (X := unitSimplex p.m) (fun x q => bernsteinValue q.r q.coeff x.1) (fun x q => bernsteinSize q.r q.coeff x.1)
    (getDimension p.r p.m + 8) p hp (fun x => by
      rw [hpf, C99aux.value_tab, C99aux.size_tab]
      exact abs_val_le f x.1 x.1 fun ν => (abs_of_nonneg (hbn x _ ν)).le)
    ⟨_, FloatPowerAux.unit_ok _ _, ⟨new_ok_valid (length_tab _ _ _) (Or.inr (by omega)), rfl, by simp, rfl⟩, fun x => by
      simp only [C99aux.value_tab, C99aux.size_tab, abs_one, val_bernstein_one, and_self]⟩ n (by
    rintro j hj q ⟨hq, hqb, hqr, hqm⟩
    obtain ⟨g, hqg⟩ := hq.exists_tab
    have hfit : Fits (p.r + q.r) p.m := hf.mono (by rw [hqr]; calc p.r + j * p.r = (j + 1) * p.r := by ring
                                                    _ ≤ n * p.r := Nat.mul_le_mul_right _ hj)
    obtain ⟨Y, h1, h2⟩ := mulBernstein_near hε hε' p q f g (hqb.trans hb) hqm.symm hpf hqg
    rw [show FloatPoly.mulBernstein ε p q = mulBasis ε p q by unfold mulBasis; rw [hb]] at h1
    obtain ⟨a1, a2⟩ := outcomes_ok h1 hfit (fun τ hτ => (h2 τ hτ).1)
    refine ⟨a1, fun y hy => ?_⟩
    obtain ⟨d, rfl, hd⟩ := a2 y hy
    refine ⟨_, rfl, ⟨new_ok_valid (length_tab _ _ _) hfit, hb.symm, by simp only [hqr]; ring, rfl⟩, fun x => ?_⟩
    have hn := fun τ hτ => (h2 τ hτ).2 _ (hd τ hτ)
    have e1 := value_near hn x.2
    have e2 := size_near hn (hbn x _)
    rw [mul_bernstein_val p.m p.r q.r (fun ν => |f ν|) (fun ν => |g ν|)] at e1 e2
    rw [mul_bernstein_val] at e1
    rw [hpf, hqg, hqm, C99aux.value_tab, C99aux.value_tab, C99aux.value_tab, C99aux.size_tab, C99aux.size_tab, C99aux.size_tab]
    exact ⟨e1, e2⟩) n le_rfl
  refine ⟨key.1, fun y hy => ?_⟩
  obtain ⟨s, rfl, ⟨h1, h2, h3, h4⟩, h5⟩ := key.2 y hy
  refine ⟨s, rfl, h1, h2.trans hb, h3, h4, fun x hx => ?_⟩
  have := (h5 ⟨x, hx⟩).1
  simp only [h3] at this
  exact this

/-- **C100** Powers of polynomials in the monomial basis. -/
theorem C100_pow (ε : ℝ) (hε : 0 ≤ ε) {m : ℕ} (p : Obj ℝ) (hp : p.Valid) (hb : p.basis = .monomial) (hpm : p.m = m) (n : ℕ) (hf : Fits (n * p.r) m) :
    (powNat ε p n).Nonempty ∧ ∀ y ∈ powNat ε p n, ∃ s, y = .ok s ∧ s.Valid ∧ s.basis = .monomial ∧ s.r = n * p.r ∧ s.m = m ∧
      ∀ x : Fin m → ℝ, |monomialValue (n * p.r) s.coeff x - monomialValue p.r p.coeff x ^ n| ≤
        ((1 + ε) ^ ((n - 1) * (getDimension p.r m + 1)) - 1) * monomialSize p.r p.coeff x ^ n := by
  subst hpm
  obtain ⟨f, hpf⟩ := hp.exists_tab
  have hone : ∀ x : Fin p.m → ℝ, val .monomial p.m 0 (fun _ => (1 : ℝ)) x = 1 := by
    intro x
    have h0 : S p.m 0 = {0} := by
      ext ν
      rw [mem_S, Finset.mem_singleton]
      refine ⟨fun h => ?_, fun h => by subst h; simp⟩
      funext j
      have := Finset.single_le_sum (f := ν) (fun k _ => Nat.zero_le _) (Finset.mem_univ j)
      simp only [Pi.zero_apply]; omega
    simp only [val, basisFn, monomial_ofFn, h0, Finset.sum_singleton]
    simp
  have key := pow_near hε (X := Fin p.m → ℝ) (fun x q => monomialValue q.r q.coeff x) (fun x q => monomialSize q.r q.coeff x)
    (getDimension p.r p.m + 1) p hp (fun x => by
      rw [hpf, C100aux.value_tab, C100aux.size_tab]
      refine abs_val_le f x _ fun ν => ?_
      simp only [basisFn, monomial_ofFn, Finset.abs_prod, abs_pow, le_refl])
    ⟨_, FloatPowerAux.unit_ok _ _, ⟨new_ok_valid (length_tab _ _ _) (Or.inr (by omega)), rfl, by simp, rfl⟩, fun x => by
      simp only [C100aux.value_tab, C100aux.size_tab, abs_one, hone, and_self]⟩ n (by
    rintro j hj q ⟨hq, hqb, hqr, hqm⟩
    obtain ⟨g, hqg⟩ := hq.exists_tab
    have hfit : Fits (p.r + q.r) p.m := hf.mono (by rw [hqr]; calc p.r + j * p.r = (j + 1) * p.r := by ring
                                                    _ ≤ n * p.r := Nat.mul_le_mul_right _ hj)
    obtain ⟨Y, h1, h2⟩ := mulMonomial_near hε p q f g (hqb.trans hb) hqm.symm hpf hqg
    rw [show FloatPoly.mulMonomial ε p q = mulBasis ε p q by unfold mulBasis; rw [hb]] at h1
    obtain ⟨a1, a2⟩ := outcomes_ok h1 hfit (fun τ _ => (h2 τ).1)
    refine ⟨a1, fun y hy => ?_⟩
    obtain ⟨d, rfl, hd⟩ := a2 y hy
    refine ⟨_, rfl, ⟨new_ok_valid (length_tab _ _ _) hfit, hb.symm, by simp only [hqr]; ring, rfl⟩, fun x => ?_⟩
    have hn := fun τ hτ => (h2 τ).2 _ (hd τ hτ)
    have e1 := value_near_monomial hn x
    have e2 := size_near hn (basis_nonneg _ x)
    have v1 := mul_monomial_val p.m p.r q.r f g x
    have v2 := mul_monomial_val p.m p.r q.r (fun ν => |f ν|) (fun ν => |g ν|) (fun i => |x i|)
    rw [hpf, hqg, hqm, C100aux.value_tab, C100aux.value_tab, C100aux.value_tab, C100aux.size_tab, C100aux.size_tab, C100aux.size_tab, ← v1, ← v2]
    exact ⟨e1, e2⟩) n le_rfl
  refine ⟨key.1, fun y hy => ?_⟩
  obtain ⟨s, rfl, ⟨h1, h2, h3, h4⟩, h5⟩ := key.2 y hy
  refine ⟨s, rfl, h1, h2.trans hb, h3, h4, fun x => ?_⟩
  have := (h5 x).1
  simp only [h3] at this
  exact this

theorem allNear_div {ε : ℝ} (hε : 0 ≤ ε) (a s : ℝ) : AllNear ε 1 (a * s⁻¹) |a * s⁻¹| (FloatPoly.div ε {a} {s}) := by
  refine ⟨⟨a / s, a, rfl, s, rfl, PyExpr.rounded_self hε⟩, ?_⟩
  rintro t ⟨b, rfl, c, rfl, ht⟩
  rw [← div_eq_mul_inv]
  exact near_of_rounded ht

/-- **C99** Division by a number that is not zero. -/
theorem C99_divide (ε : ℝ) (hε : 0 ≤ ε) {m : ℕ} (p : Obj ℝ) (hp : p.Valid) (hb : p.basis = .bernstein) (hpm : p.m = m) (a : ℝ) (ha : a ≠ 0) :
    ∃ s, divide ε a p = .ok s ∧ s.basis = .bernstein ∧ s.r = p.r ∧ s.m = m ∧ (∃ c, Possible s.coeff c) ∧
      ∀ c, Possible s.coeff c → ∀ x ∈ unitSimplex m,
        |bernsteinValue p.r c x - bernsteinValue p.r p.coeff x / a| ≤ ε * (bernsteinSize p.r p.coeff x / |a|) := by
  have _ := ha
  obtain ⟨f, hpf⟩ := hp.exists_tab
  have hfp : Fits p.r m := hpm ▸ hp.fits
  rw [hpm] at hpf
  have hc : divide ε a p = Obj.new .bernstein (tab m p.r (fun τ => FloatPoly.div ε {f τ} {a})) (some p.r) m := by
    unfold divide
    rw [hb, hpf, hpm]
    simp [tab, Function.comp_def]
  obtain ⟨s, a1, a2, a3, a4, a5, a6⟩ := C99aux.result hc hfp (fun τ _ => allNear_div hε (f τ) a)
  refine ⟨s, a1, a2, a3, a4, a5, fun c hc x hx => ?_⟩
  have := a6 c hc x hx
  have e : ∀ (h : List Nat → ℝ) (b : ℝ), val .bernstein m p.r (fun τ => h τ * b) x = val .bernstein m p.r h x * b := by
    intro h b
    simp only [val, smul_eq_mul, Finset.sum_mul]
    exact Finset.sum_congr rfl fun ν _ => by ring
  simp only [abs_mul] at this
  rw [e, e, ← C99aux.value_tab p.r f, ← C99aux.size_tab p.r f, ← hpf, pow_one, add_sub_cancel_left, abs_inv] at this
  simpa only [div_eq_mul_inv] using this

/-- **C100** Division by a number that is not zero. -/
theorem C100_divide (ε : ℝ) (hε : 0 ≤ ε) {m : ℕ} (p : Obj ℝ) (hp : p.Valid) (hb : p.basis = .monomial) (hpm : p.m = m) (a : ℝ) (ha : a ≠ 0) :
    ∃ s, divide ε a p = .ok s ∧ s.basis = .monomial ∧ s.r = p.r ∧ s.m = m ∧ (∃ c, Possible s.coeff c) ∧
      ∀ c, Possible s.coeff c → ∀ x : Fin m → ℝ,
        |monomialValue p.r c x - monomialValue p.r p.coeff x / a| ≤ ε * (monomialSize p.r p.coeff x / |a|) := by
  have _ := ha
  obtain ⟨f, hpf⟩ := hp.exists_tab
  have hfp : Fits p.r m := hpm ▸ hp.fits
  rw [hpm] at hpf
  have hc : divide ε a p = Obj.new .monomial (tab m p.r (fun τ => FloatPoly.div ε {f τ} {a})) (some p.r) m := by
    unfold divide
    rw [hb, hpf, hpm]
    simp [tab, Function.comp_def]
  obtain ⟨s, a1, a2, a3, a4, a5, a6⟩ := C100aux.result hc hfp (fun τ => allNear_div hε (f τ) a)
  refine ⟨s, a1, a2, a3, a4, a5, fun c hc x => ?_⟩
  have := a6 c hc x
  have e : ∀ (h : List Nat → ℝ) (b : ℝ) (y : Fin m → ℝ), val .monomial m p.r (fun τ => h τ * b) y = val .monomial m p.r h y * b := by
    intro h b y
    simp only [val, smul_eq_mul, Finset.sum_mul]
    exact Finset.sum_congr rfl fun ν _ => by ring
  simp only [abs_mul] at this
  rw [e, e, ← C100aux.value_tab p.r f, ← C100aux.size_tab p.r f, ← hpf, pow_one, add_sub_cancel_left, abs_inv] at this
  simpa only [div_eq_mul_inv] using this

/-- Powers of linear polynomials in two variables meet the hypotheses, with double precision. -/
example : (powNat (2 ^ (-53 : ℤ)) ⟨.bernstein, [1, -2, 3], 1, 2⟩ 5).Nonempty ∧ ∀ y ∈ powNat (2 ^ (-53 : ℤ)) ⟨.bernstein, [1, -2, 3], 1, 2⟩ 5, ∃ s, y = .ok s ∧ s.r = 5 := by
  obtain ⟨h1, h2⟩ := C99_pow (m := 2) (2 ^ (-53 : ℤ)) (by positivity) (by norm_num) ⟨.bernstein, [1, -2, 3], 1, 2⟩
    (new_ok_valid rfl (Or.inr (by norm_num))) rfl rfl 5 (Or.inr (by norm_num))
  exact ⟨h1, fun y hy => by obtain ⟨s, e1, -, -, e2, -⟩ := h2 y hy; exact ⟨s, e1, e2⟩⟩

example : (powNat (2 ^ (-53 : ℤ)) ⟨.monomial, [1, 0, 3], 1, 2⟩ 5).Nonempty ∧ ∀ y ∈ powNat (2 ^ (-53 : ℤ)) ⟨.monomial, [1, 0, 3], 1, 2⟩ 5, ∃ s, y = .ok s ∧ s.r = 5 := by
  obtain ⟨h1, h2⟩ := C100_pow (m := 2) (2 ^ (-53 : ℤ)) (by positivity) ⟨.monomial, [1, 0, 3], 1, 2⟩
    (new_ok_valid rfl (Or.inr (by norm_num))) rfl rfl 5 (Or.inr (by norm_num))
  exact ⟨h1, fun y hy => by obtain ⟨s, e1, -, -, e2, -⟩ := h2 y hy; exact ⟨s, e1, e2⟩⟩

example : ∃ s, divide (2 ^ (-53 : ℤ)) 3 ⟨.monomial, [1, 0, 3], 1, 2⟩ = .ok s ∧ s.r = 1 := by
  obtain ⟨s, h1, -, h2, -⟩ := C100_divide (m := 2) (2 ^ (-53 : ℤ)) (by positivity) ⟨.monomial, [1, 0, 3], 1, 2⟩
    (new_ok_valid rfl (Or.inr (by norm_num))) rfl rfl 3 (by norm_num)
  exact ⟨s, h1, h2⟩

end Verif.Props
