import Verif.Lemmas.Latex2
import Verif.Lemmas.PolyRepPow
/-!
# LaTeX texts of Lagrange polynomials, vectors and names of basis functions
-/

namespace Verif.Latex
open Verif Verif.Str Verif.PyExpr Verif.CodeGen Verif.Poly Verif.MI

section Lagrange
variable {n i : Nat} {K : Type} [Field K] [LinearOrder K] [IsStrictOrderedRing K] {env : Env K}

/-- The step of the loop in `lagrange_basis_fn_latex`. -/
def lagStep (frac : K → Str) (f : List Nat → K) (s : Str) (μ : List Nat) : Str := lagrangeTerm frac s (f μ) (monomialBasisFnLatex μ)

omit [IsStrictOrderedRing K] in
theorem lagrangeLoop_eq (frac : K → Str) (m r : Nat) (f : List Nat → K) : ∀ (l : List (List Nat)) (k : Nat) (s : Str), (mis m r).drop k = l →
    lagrangeLoop frac m r k (l.map f) s = .ok ((l.filter (fun μ => f μ ≠ 0)).foldl (lagStep frac f) s) := by
  intro l
  induction l with
  | nil => intro k s _; rfl
  | cons μ l ih =>
    intro k s h
    have hk : (mis m r)[k]? = some μ := by
      have := List.getElem?_drop (xs := mis m r) (i := k) (j := 0)
      rw [h] at this
      simpa using this.symm
    have hd : (mis m r).drop (k + 1) = l := by
      rw [← List.drop_drop, h]; rfl
    rw [List.map_cons]
    unfold lagrangeLoop
    by_cases h0 : f μ = 0
    · rw [if_neg (by simpa using h0), ih _ _ hd, List.filter_cons_of_neg (by simpa using h0)]
    · rw [if_pos h0, generate_eq m r k μ hk, Py.bind_ok, ih _ _ hd, List.filter_cons_of_pos (by simpa using h0)]
      rfl

omit [LinearOrder K] [IsStrictOrderedRing K] in
theorem Txt.add {s t : Str} {u v : K} (ha : Txt' env n i .sum s u) {b d : Bool} (hb : Txt env n i .term b d t v) : Txt' env n i .sum (s ++ " + ".toList ++ t) (u + v) := by
  obtain ⟨ta, ha1, ha2⟩ := ha
  obtain ⟨tb, hb1, hb2⟩ := hb
  refine ⟨_, ((ha1.append lx_plus (Or.inr rfl)).append hb1 (Or.inl rfl)).weaken, ?_⟩
  rw [List.append_assoc, List.cons_append, List.nil_append, times_op .plus rfl rfl (ne_nil_of_times ha2) (ne_nil_of_times hb2)]
  exact .add ha2 hb2

omit [LinearOrder K] [IsStrictOrderedRing K] in
theorem Txt.sub {s t : Str} {u v : K} (ha : Txt' env n i .sum s u) {b d : Bool} (hb : Txt env n i .term b d t v) : Txt' env n i .sum (s ++ " - ".toList ++ t) (u - v) := by
  obtain ⟨ta, ha1, ha2⟩ := ha
  obtain ⟨tb, hb1, hb2⟩ := hb
  refine ⟨_, ((ha1.append lx_minus (Or.inr rfl)).append hb1 (Or.inl rfl)).weaken, ?_⟩
  rw [List.append_assoc, List.cons_append, List.nil_append, times_op .minus rfl rfl (ne_nil_of_times ha2) (ne_nil_of_times hb2)]
  exact .sub ha2 hb2

/-- What the loop needs to know about a coefficient `c` of the monomial `μ`. -/
structure Coeff (frac : K → Str) (m : Nat) (c : K) (μ : List Nat) : Prop where
  len : μ.length = m
  small : ∀ k ∈ μ, k ≤ 9
  const : μ.sum = 0 → c = 1
  pos : PrintsExactly (frac c) c
  neg : PrintsExactly (frac (-c)) (-c)

/-- The first term. -/
theorem lagStep_first {frac : K → Str} {f : List Nat → K} {x : List K} (hx : Variables env x) (hm : x.length ≤ 9) {μ : List Nat}
    (h : Coeff frac x.length (f μ) μ) : Txt' env n i .term (lagStep frac f [] μ) (f μ * Spec.monomial x μ) := by
  unfold lagStep lagrangeTerm
  rw [if_pos rfl]
  have hr := rhs_monomial (n := n) (i := i) hx hm h.len h.small
  by_cases h1 : f μ = 1
  · rw [if_pos h1, h1, one_mul]
    exact hr.txt
  rw [if_neg h1]
  by_cases h2 : f μ = -1
  · rw [if_pos h2, h2, neg_one_mul]
    exact hr.txt.neg_term.weaken
  rw [if_neg h2]
  rcases monomial_cases (n := n) (i := i) hx hm h.len h.small with ⟨h3, _, _⟩ | ⟨_, h3⟩
  · exact absurd (h.const h3) h1
  · exact (h.pos.txt.juxt h3).weaken

/-- A further term. -/
theorem lagStep_next {frac : K → Str} {f : List Nat → K} {x : List K} (hx : Variables env x) (hm : x.length ≤ 9) {μ : List Nat}
    (h : Coeff frac x.length (f μ) μ) {s : Str} {u : K} (hs : Txt' env n i .sum s u) :
    Txt' env n i .sum (lagStep frac f s μ) (u + f μ * Spec.monomial x μ) := by
  unfold lagStep lagrangeTerm
  rw [if_neg hs.ne_nil]
  have hr := rhs_monomial (n := n) (i := i) hx hm h.len h.small
  by_cases h1 : f μ = 1
  · rw [if_pos h1, h1, one_mul, ← List.append_assoc]
    exact hs.add hr.txt
  rw [if_neg h1]
  by_cases h2 : f μ = -1
  · rw [if_pos h2, h2, neg_one_mul, ← List.append_assoc, ← sub_eq_add_neg]
    exact hs.sub hr.txt
  rw [if_neg h2]
  rcases monomial_cases (n := n) (i := i) hx hm h.len h.small with ⟨h3, _, _⟩ | ⟨_, h3⟩
  · exact absurd (h.const h3) h1
  by_cases h4 : f μ < 0
  · rw [if_pos h4]
    have := hs.sub (h.neg.txt.juxt h3)
    rw [neg_mul, sub_neg_eq_add] at this
    simpa using this
  · rw [if_neg h4]
    have := hs.add (h.pos.txt.juxt h3)
    simpa using this

theorem lagFold_next {frac : K → Str} {f : List Nat → K} {x : List K} (hx : Variables env x) (hm : x.length ≤ 9) : ∀ (l : List (List Nat)),
    (∀ μ ∈ l, Coeff frac x.length (f μ) μ) → ∀ (s : Str) (u : K), Txt' env n i .sum s u →
    Txt' env n i .sum (l.foldl (lagStep frac f) s) (u + (l.map (fun μ => f μ * Spec.monomial x μ)).sum) := by
  intro l
  induction l with
  | nil => intro _ s u hs; simpa using hs
  | cons μ l ih =>
    intro h s u hs
    rw [List.foldl_cons, List.map_cons, List.sum_cons, ← add_assoc]
    exact ih (fun μ' h' => h μ' (List.mem_cons_of_mem _ h')) _ _ (lagStep_next hx hm (h μ List.mem_cons_self) hs)

omit [Field K] [IsStrictOrderedRing K] [LinearOrder K] in
theorem monomialBasisFnLatex_pos (μ : List Nat) : 1 ≤ (monomialBasisFnLatex μ).length := by
  have key : ∀ (vs : List Str) (μ : List Nat), (∀ v ∈ vs, 1 ≤ v.length) → ∀ p ∈ powerParts vs μ, 1 ≤ p.length := by
    intro vs
    induction vs with
    | nil => intro μ _ p hp; simp [powerParts] at hp
    | cons v vs ih =>
      intro μ hv p hp
      cases μ with
      | nil => simp [powerParts] at hp
      | cons k μ =>
        have h1 := ih μ (fun v' h' => hv v' (List.mem_cons_of_mem _ h'))
        have h2 := hv v List.mem_cons_self
        unfold powerParts at hp
        split at hp
        · exact h1 p hp
        · split at hp
          · rcases List.mem_cons.1 hp with rfl | hp
            · exact h2
            · exact h1 p hp
          · rcases List.mem_cons.1 hp with rfl | hp
            · simp; omega
            · exact h1 p hp
  unfold monomialBasisFnLatex
  simp only
  split
  · decide
  · rename_i h
    have := key (variableNames μ.length) μ (by
      intro v hv
      unfold variableNames at hv
      split at hv
      · rw [List.mem_singleton.1 hv]; decide
      · obtain ⟨j, _, rfl⟩ := List.mem_map.1 hv
        simp)
    revert h this
    generalize powerParts (variableNames μ.length) μ = ps
    intro h this
    cases ps with
    | nil => exact absurd rfl h
    | cons p ps =>
      have h1 := this p List.mem_cons_self
      cases ps with
      | nil => exact h1
      | cons q ps =>
        rw [show join " ".toList (p :: q :: ps) = p ++ " ".toList ++ join " ".toList (q :: ps) from rfl]
        simp; omega

omit [IsStrictOrderedRing K] in
theorem lagStep_length (frac : K → Str) (f : List Nat → K) (s : Str) (μ : List Nat) (hs : s ≠ []) : s.length + 4 ≤ (lagStep frac f s μ).length := by
  have := monomialBasisFnLatex_pos μ
  unfold lagStep lagrangeTerm
  rw [if_neg hs]
  split
  · simp; omega
  · split
    · simp; omega
    · split <;> (simp; omega)

omit [IsStrictOrderedRing K] in
theorem lagFold_length (frac : K → Str) (f : List Nat → K) : ∀ (l : List (List Nat)) (s : Str), s ≠ [] → s.length ≤ (l.foldl (lagStep frac f) s).length := by
  intro l
  induction l with
  | nil => intro s _; exact le_refl _
  | cons μ l ih =>
    intro s hs
    have h1 := lagStep_length frac f s μ hs
    have h2 := ih (lagStep frac f s μ) (by intro h; rw [h] at h1; simp at h1)
    rw [List.foldl_cons]
    omega

omit [LinearOrder K] [IsStrictOrderedRing K] in
theorem lagrange_sum {m r : Nat} {ν : List Nat} (hl : ν.length = m) (hs : ν.sum ≤ r) (x : Fin m → K) :
    Spec.lagrange r (List.ofFn x) ν = ((mis m r).map (fun μ => lagCoeff K m r ν μ * Spec.monomial (List.ofFn x) μ)).sum := by
  rw [sum_mis m r (fun μ => lagCoeff K m r ν μ * Spec.monomial (List.ofFn x) μ), lagCoeff_spec hl hs x]
  refine Finset.sum_congr rfl (fun μ _ => ?_)
  rw [monomial_ofFn, smul_eq_mul, mul_comm]

omit [LinearOrder K] [IsStrictOrderedRing K] in
theorem sum_filter_ne (f g : List Nat → K) (l : List (List Nat)) [DecidablePred fun μ => f μ ≠ 0] :
    ((l.filter (fun μ => f μ ≠ 0)).map (fun μ => f μ * g μ)).sum = (l.map (fun μ => f μ * g μ)).sum := by
  induction l with
  | nil => rfl
  | cons μ l ih =>
    by_cases h : f μ = 0
    · rw [List.filter_cons_of_neg (by simpa using h), ih, List.map_cons, List.sum_cons, h, zero_mul, zero_add]
    · rw [List.filter_cons_of_pos (by simpa using h), List.map_cons, List.sum_cons, ih, List.map_cons, List.sum_cons]

/-- The constant coefficient is the value at the origin, zero or one. -/
theorem lagCoeff_const {m r : Nat} {ν : List Nat} (hl : ν.length = m) (hs : ν.sum ≤ r) {μ : List Nat} (hμ : μ ∈ mis m r) (h0 : μ.sum = 0)
    (hne : lagCoeff K m r ν μ ≠ 0) : lagCoeff K m r ν μ = 1 := by
  obtain ⟨ν', rfl⟩ := eq_ofFn hl
  obtain ⟨μ', rfl⟩ := eq_ofFn (mem_mis.1 hμ).1
  have hμ0 : μ' = 0 := by
    rw [List.sum_ofFn] at h0
    funext j
    exact Finset.sum_eq_zero_iff.1 h0 j (Finset.mem_univ j)
  subst hμ0
  have h1 := lagrange_delta (K := K) r ν' 0 (mem_S.2 (by rwa [List.sum_ofFn] at hs)) (mem_S.2 (by simp))
  have h2 := lagCoeff_spec (K := K) hl hs (lpt K r (0 : Fin m → ℕ))
  rw [h1] at h2
  have h3 : lpt K r (0 : Fin m → ℕ) = 0 := by funext j; simp [lpt]
  rw [h3, Finset.sum_eq_single (0 : Fin m → ℕ)] at h2
  · simp only [Pi.zero_apply, pow_zero, Finset.prod_const_one, one_smul] at h2
    split at h2
    · exact h2.symm
    · exact absurd h2.symm hne
  · intro b _ hb
    obtain ⟨j, hj⟩ := Function.ne_iff.1 hb
    rw [Finset.prod_eq_zero (Finset.mem_univ j), zero_smul]
    rw [Pi.zero_apply, zero_pow hj]
  · intro h
    exact absurd (mem_S.2 (by simp)) h

/-- Not all coefficients are zero. -/
theorem lagCoeff_ne {m r : Nat} {ν : List Nat} (hl : ν.length = m) (hs : ν.sum ≤ r) : (mis m r).filter (fun μ => lagCoeff K m r ν μ ≠ 0) ≠ [] := by
  intro h
  obtain ⟨ν', rfl⟩ := eq_ofFn hl
  have hS : ν' ∈ S m r := mem_S.2 (by rwa [List.sum_ofFn] at hs)
  have h1 := lagrange_delta (K := K) r ν' ν' hS hS
  rw [if_pos rfl, lagrange_sum hl hs, ← sum_filter_ne, h] at h1
  exact absurd h1 (by simp)

theorem lagrangeBasisFnLatex_eq (frac : K → Str) {m r : Nat} {ν : List Nat} (hl : ν.length = m) (hs : ν.sum ≤ r) (hf : Fits r m) {s : Str}
    (h : ((mis m r).filter (fun μ => lagCoeff K m r ν μ ≠ 0)).foldl (lagStep frac (lagCoeff K m r ν)) [] = s) (hne : s ≠ []) :
    lagrangeBasisFnLatex frac ν r = .ok s := by
  unfold lagrangeBasisFnLatex
  rw [lagrangeBasisFnMonomial_eq ν r m hl hs hf, Py.bind_ok]
  simp only [mkObj, tab]
  rw [lagrangeLoop_eq frac m r (lagCoeff K m r ν) (mis m r) 0 [] rfl, Py.bind_ok, h, if_neg hne]
  rfl

/-- The coefficient of the only monomial in dimension one. -/
theorem lagCoeff_single {r : Nat} {ν : List Nat} (hl : ν.length = 1) (hs : ν.sum ≤ r) (hr : 1 ≤ r) {μ : List Nat}
    (h : (mis 1 r).filter (fun μ => lagCoeff K 1 r ν μ ≠ 0) = [μ]) : lagCoeff K 1 r ν μ = 1 := by
  have hμ : μ ∈ (mis 1 r).filter (fun μ => lagCoeff K 1 r ν μ ≠ 0) := by rw [h]; exact List.mem_singleton_self _
  obtain ⟨h1, h2⟩ := List.mem_filter.1 hμ
  obtain ⟨ν', rfl⟩ := eq_ofFn hl
  obtain ⟨μ', rfl⟩ := eq_ofFn (mem_mis.1 h1).1
  have h3 := lagrange_delta (K := K) r ν' (fun _ => r) (mem_S.2 (by rwa [List.sum_ofFn] at hs)) (mem_S.2 (by simp))
  rw [lagrange_sum hl hs, ← sum_filter_ne, h] at h3
  have hrK : (r : K) ≠ 0 := by exact_mod_cast (by omega : r ≠ 0)
  have h4 : lpt K r (fun _ : Fin 1 => r) = fun _ => 1 := by funext j; simp [lpt, hrK]
  rw [h4] at h3
  simp only [List.map_cons, List.map_nil, List.sum_singleton, monomial_ofFn, one_pow, Finset.prod_const_one, mul_one] at h3
  simp only [decide_eq_true_eq] at h2
  split at h3
  · exact h3
  · exact absurd h3 h2

/-- Variables with a subscript have at least three characters. -/
theorem monomialBasisFnLatex_long {μ : List Nat} (hm : μ.length ≠ 1) (h0 : μ.sum ≠ 0) : 3 ≤ (monomialBasisFnLatex μ).length := by
  have key : ∀ (vs : List Str) (μ : List Nat), (∀ v ∈ vs, 3 ≤ v.length) → ∀ p ∈ powerParts vs μ, 3 ≤ p.length := by
    intro vs
    induction vs with
    | nil => intro μ _ p hp; simp [powerParts] at hp
    | cons v vs ih =>
      intro μ hv p hp
      cases μ with
      | nil => simp [powerParts] at hp
      | cons k μ =>
        have h1 := ih μ (fun v' h' => hv v' (List.mem_cons_of_mem _ h'))
        have h2 := hv v List.mem_cons_self
        unfold powerParts at hp
        split at hp
        · exact h1 p hp
        · split at hp
          · rcases List.mem_cons.1 hp with rfl | hp
            · exact h2
            · exact h1 p hp
          · rcases List.mem_cons.1 hp with rfl | hp
            · simp; omega
            · exact h1 p hp
  unfold monomialBasisFnLatex
  simp only
  split
  · rename_i h
    rw [List.length_eq_zero_iff, powerParts_nil (length_variableNames _)] at h
    exact absurd h h0
  · rename_i h
    have := key (variableNames μ.length) μ (by
      intro v hv
      unfold variableNames at hv
      rw [if_neg hm] at hv
      obtain ⟨j, _, rfl⟩ := List.mem_map.1 hv
      have := List.length_pos_iff.2 (natStr_ne_nil j)
      simp
      omega)
    revert h this
    generalize powerParts (variableNames μ.length) μ = ps
    intro h this
    cases ps with
    | nil => exact absurd rfl h
    | cons p ps =>
      have h1 := this p List.mem_cons_self
      cases ps with
      | nil => exact h1
      | cons q ps =>
        rw [show join " ".toList (p :: q :: ps) = p ++ " ".toList ++ join " ".toList (q :: ps) from rfl]
        simp; omega

/-- The text of a Lagrange basis polynomial, and its use as a factor. -/
theorem lagrange_spec {frac : K → Str} {m r : Nat} {ν : List Nat} (hν : ν ∈ mis m r) (hm : m ≤ 9) (hr : r ≤ 9)
    (hfrac : ∀ c, getLagrangeBasisFnCoefficients K ν r = .ok c → ∀ v ∈ c, PrintsExactly (frac v) v ∧ PrintsExactly (frac (-v)) (-v)) :
    ∃ s, lagrangeBasisFnLatex frac ν r = .ok s ∧ ∀ (env : Env K) (x : Fin m → K), Variables env (List.ofFn x) →
      ∀ n i, Txt' env n i .sum s (Spec.lagrange r (List.ofFn x) ν) ∧ (s.length ≤ 3 → Rhs env n i s (Spec.lagrange r (List.ofFn x) ν)) := by
  obtain ⟨hl, hs⟩ := mem_mis.1 hν
  have hf : Fits r m := Or.inr (by omega)
  have hc := getLagrangeBasisFnCoefficients_eq (K := K) ν r hs
  rw [hl] at hc
  have hcoeff : ∀ μ ∈ (mis m r).filter (fun μ => lagCoeff K m r ν μ ≠ 0), Coeff frac m (lagCoeff K m r ν μ) μ := by
    intro μ hμ
    obtain ⟨h1, h2⟩ := List.mem_filter.1 hμ
    obtain ⟨h3, h4⟩ := hfrac _ hc _ (List.mem_map_of_mem (f := lagCoeff K m r ν) h1)
    exact ⟨(mem_mis.1 h1).1, fun k hk => (le_of_mem_mis h1 hk).trans hr, fun h0 => lagCoeff_const hl hs h1 h0 (by simpa using h2), h3, h4⟩
  have hne := lagCoeff_ne (K := K) hl hs
  obtain ⟨μ, l, hml⟩ := List.exists_cons_of_ne_nil hne
  have hval : ∀ x : Fin m → K, Spec.lagrange r (List.ofFn x) ν = lagCoeff K m r ν μ * Spec.monomial (List.ofFn x) μ +
      (l.map (fun μ => lagCoeff K m r ν μ * Spec.monomial (List.ofFn x) μ)).sum := by
    intro x
    rw [lagrange_sum hl hs, ← sum_filter_ne, hml, List.map_cons, List.sum_cons]
  have h1 : ((mis m r).filter (fun μ => lagCoeff K m r ν μ ≠ 0)).foldl (lagStep frac (lagCoeff K m r ν)) [] =
      l.foldl (lagStep frac (lagCoeff K m r ν)) (lagStep frac (lagCoeff K m r ν) [] μ) := by rw [hml, List.foldl_cons]
  rw [hml] at hcoeff
  have key : ∀ (env : Env K) (x : Fin m → K), Variables env (List.ofFn x) → ∀ n i,
      Txt' env n i .sum (l.foldl (lagStep frac (lagCoeff K m r ν)) (lagStep frac (lagCoeff K m r ν) [] μ)) (Spec.lagrange r (List.ofFn x) ν) := by
    intro env x hx n i
    rw [hval]
    have hm' : (List.ofFn x).length ≤ 9 := by simpa using hm
    refine lagFold_next hx hm' l ?_ _ _ (lagStep_first hx hm' ?_).sum
    · intro μ' h'
      rw [List.length_ofFn]
      exact hcoeff μ' (List.mem_cons_of_mem _ h')
    · rw [List.length_ofFn]
      exact hcoeff μ List.mem_cons_self
  have hpos : lagStep frac (lagCoeff K m r ν) [] μ ≠ [] := by
    have := monomialBasisFnLatex_pos μ
    intro h
    have h' := congrArg List.length h
    unfold lagStep lagrangeTerm at h'
    rw [if_pos rfl] at h'
    split at h'
    · simp only [List.nil_append, List.length_nil] at h'; omega
    · split at h' <;> simp at h'
  refine ⟨_, lagrangeBasisFnLatex_eq frac hl hs hf h1 ?_, fun env x hx n i => ⟨key env x hx n i, fun hlen => ?_⟩⟩
  · intro h
    have := lagFold_length frac (lagCoeff K m r ν) l _ hpos
    rw [h] at this
    exact hpos (List.length_eq_zero_iff.1 (by simpa using this))
  · have hl0 : l = [] := by
      cases l with
      | nil => rfl
      | cons μ2 l =>
        exfalso
        rw [List.foldl_cons] at hlen
        have h2 := lagStep_length frac (lagCoeff K m r ν) _ μ2 hpos
        have h3 := lagFold_length frac (lagCoeff K m r ν) l (lagStep frac (lagCoeff K m r ν) (lagStep frac (lagCoeff K m r ν) [] μ) μ2)
          (by intro h; rw [h] at h2; simp at h2)
        omega
    subst hl0
    rw [hval]
    simp only [List.foldl_nil, List.map_nil, List.sum_nil, add_zero] at hlen ⊢
    have hcμ := hcoeff μ List.mem_cons_self
    have hlenx : (List.ofFn x).length = m := List.length_ofFn
    have hrm := rhs_monomial (n := n) (i := i) hx (by rw [hlenx]; exact hm) (by rw [hlenx]; exact hcμ.len) hcμ.small
    unfold lagStep lagrangeTerm at hlen ⊢
    rw [if_pos rfl] at hlen ⊢
    by_cases h2 : lagCoeff K m r ν μ = 1
    · rw [if_pos h2, h2, one_mul]
      exact hrm
    rw [if_neg h2] at hlen ⊢
    by_cases h3 : lagCoeff K m r ν μ = -1
    · rw [if_pos h3, h3, neg_one_mul]
      exact hrm.neg
    rw [if_neg h3] at hlen ⊢
    exfalso
    have h0 : μ.sum ≠ 0 := fun h0 => h2 (hcμ.const h0)
    have hr1 : 1 ≤ r := by
      have hμ : μ ∈ (mis m r).filter (fun μ => lagCoeff K m r ν μ ≠ 0) := by rw [hml]; exact List.mem_cons_self
      have := (mem_mis.1 (List.mem_filter.1 hμ).1).2
      omega
    by_cases h4 : m = 1
    · subst h4
      exact h2 (lagCoeff_single hl hs hr1 hml)
    · have h5 := monomialBasisFnLatex_long (μ := μ) (by rw [hcμ.len]; exact h4) h0
      have h6 := List.length_pos_iff.2 (hcμ.pos.txt (env := env) (n := n) (i := i)).ne_nil
      simp at hlen
      omega

end Lagrange

end Verif.Latex
