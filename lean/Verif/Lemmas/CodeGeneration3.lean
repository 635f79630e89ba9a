import Verif.Lemmas.CodeGeneration2
import Verif.Lemmas.PolyRep
/-!
# Code generated for polynomial objects
-/

namespace Verif.PyExpr
open Verif Verif.Str Verif.CodeGen Verif.Poly Verif.MI Verif.Spec

variable {K : Type} [Field K] {env : Env K}

theorem forall₂_num {num : K → Str} {a : List K} (h : ∀ v ∈ a, PrintsExactly (num v) v) (env : Env K) :
    List.Forall₂ (Txt env .term) (a.map num) a := by
  have := forall₂_map_mem (R := Txt env .term) (f := num) (g := id) a (fun v hv => txt_of_denotesTerm (h v hv env))
  rwa [List.map_id] at this

theorem scope_x (v : Val K) : scope v "x".toList = some v := if_pos rfl

theorem scopeGeneral_x (a : List K) (v : Val K) : scopeGeneral a v "x".toList = some v := by
  unfold scopeGeneral
  rw [if_neg (by decide), if_pos rfl]

theorem scopeGeneral_a (a : List K) (v : Val K) : scopeGeneral a v "a".toList = some (.list a) := if_pos rfl

/-- The expression for numbers `a` as coefficients of the monomials. -/
theorem monomialEval_num {m r : Nat} {num : K → Str} {a : List K} (h : ∀ v ∈ a, PrintsExactly (num v) v) (hlen : a.length = getDimension r m) :
    ∃ s, monomialEval m r (a.map num) = .ok s ∧ ∀ (env : Env K) (x : Fin m → K), env "x".toList = some (pointArg (List.ofFn x)) →
      Txt env .sum s (linComb (monomial (List.ofFn x)) (mis m r) a) := by
  have key : ∀ (env : Env K) (x : Fin m → K), env "x".toList = some (pointArg (List.ofFn x)) → ∃ s, monomialEval m r (a.map num) = .ok s ∧
      Txt env .sum s (linComb (monomial (List.ofFn x)) (mis m r) a) := by
    intro env x hx
    have := txt_monomialEval hx (r := r) (forall₂_num h env) (by simpa using hlen)
    simp only [List.length_ofFn] at this
    exact this
  obtain ⟨s, hs, -⟩ := key (scope (pointArg (List.ofFn fun _ => 0))) (fun _ => 0) (scope_x _)
  refine ⟨s, hs, fun env x hx => ?_⟩
  obtain ⟨s', hs', ht⟩ := key env x hx
  rw [Except.ok.inj (hs.symm.trans hs')]
  exact ht

theorem barycentricEval_num {m r : Nat} {num : K → Str} {a : List K} (h : ∀ v ∈ a, PrintsExactly (num v) v) (hlen : a.length = getDimension r m) :
    ∃ s, barycentricEval m r (a.map num) = .ok s ∧ ∀ (env : Env K) (x : Fin m → K), env "x".toList = some (pointArg (List.ofFn x)) →
      Txt env .sum s (linComb (fun ν => monomial (List.ofFn x) ν * (1 - (List.ofFn x).sum) ^ (r - ν.sum)) (mis m r) a) := by
  have key : ∀ (env : Env K) (x : Fin m → K), env "x".toList = some (pointArg (List.ofFn x)) → ∃ s, barycentricEval m r (a.map num) = .ok s ∧
      Txt env .sum s (linComb (fun ν => monomial (List.ofFn x) ν * (1 - (List.ofFn x).sum) ^ (r - ν.sum)) (mis m r) a) := by
    intro env x hx
    have := txt_barycentricEval hx (r := r) (forall₂_num h env) (by simpa using hlen)
    simp only [List.length_ofFn] at this
    exact this
  obtain ⟨s, hs, -⟩ := key (scope (pointArg (List.ofFn fun _ => 0))) (fun _ => 0) (scope_x _)
  refine ⟨s, hs, fun env x hx => ?_⟩
  obtain ⟨s', hs', ht⟩ := key env x hx
  rw [Except.ok.inj (hs.symm.trans hs')]
  exact ht

variable [DecidableEq K]

/-- The monomial coefficients of a combination of Lagrange polynomials. -/
noncomputable def lagMono (m r : Nat) (c : List Nat → K) : List Nat → K := fun μ => ∑ ν ∈ S m r, lagCoeff K m r (List.ofFn ν) μ • c (List.ofFn ν)

omit [DecidableEq K] in
theorem linComb_lagMono [CharZero K] (m r : Nat) (c : List Nat → K) (x : Fin m → K) :
    linComb (monomial (List.ofFn x)) (mis m r) (tab m r (lagMono m r c)) = linComb (lagrange r (List.ofFn x)) (mis m r) (tab m r c) := by
  rw [linComb_tab, linComb_tab]
  simp only [lagMono, monomial_ofFn, smul_eq_mul, Finset.mul_sum]
  rw [Finset.sum_comm]
  refine Finset.sum_congr rfl fun ν hν => ?_
  rw [lagCoeff_spec (List.length_ofFn) (by rw [List.sum_ofFn]; exact mem_S.1 hν) x, Finset.sum_mul]
  refine Finset.sum_congr rfl fun μ _ => ?_
  rw [smul_eq_mul]
  ring

theorem lagrange_coeffs [CharZero K] (m r : Nat) (c : List Nat → K) : (do
    let cols ← getLagrangeBaseColumns K r m
    return dotColumns (K := K) (getDimension r m) cols (tab m r c) : Py (List K)) = .ok (tab m r (lagMono m r c)) := by
  rw [getLagrangeBaseColumns_eq, Py.bind_ok, dotColumns_tab]
  rfl

theorem lagrangeEval_eq [CharZero K] (num : K → Str) (m r : Nat) (c : List Nat → K) :
    lagrangeEval num m r (tab m r c) = monomialEval m r ((tab m r (lagMono m r c)).map num) := by
  unfold lagrangeEval
  rw [getLagrangeBaseColumns_eq, Py.bind_ok, dotColumns_tab]
  rfl

omit [DecidableEq K] in
theorem basisFn_bernstein_sum [CharZero K] (m r : Nat) (c : List Nat → K) (x : Fin m → K) :
    linComb (fun ν => monomial (List.ofFn x) ν * (1 - (List.ofFn x).sum) ^ (r - ν.sum)) (mis m r)
      (tab m r (fun ν => (multinomial r ν : K) • c ν)) = linComb (bernstein r (List.ofFn x)) (mis m r) (tab m r c) := by
  rw [linComb_tab, linComb_tab]
  refine Finset.sum_congr rfl fun ν _ => ?_
  rw [bernstein]
  simp only [smul_eq_mul]
  ring

theorem evalText_spec [CharZero K] {p : Obj K} {m : Nat} {f : (Fin m → K) → K} (h : Represents p m f) {num : K → Str}
    (hnum : ∀ a, genCoeffs (K := K) p = .ok a → ∀ v ∈ a, PrintsExactly (num v) v) :
    ∃ s, evalText num p = .ok s ∧ ∀ (env : Env K) (x : Fin m → K), env "x".toList = some (pointArg (List.ofFn x)) → Txt env .sum s (f x) := by
  obtain ⟨c, hp, hf, -⟩ := h.exists_mk
  generalize p.r = r at hp hf
  generalize p.basis = b at hp hf
  subst hp hf
  have hval : ∀ x : Fin m → K, val b m r c x = linComb (basisFn b r (List.ofFn x)) (mis m r) (tab m r c) := fun x => by rw [linComb_tab]; rfl
  cases b with
  | monomial =>
    obtain ⟨s, h1, h2⟩ := monomialEval_num (m := m) (r := r) (hnum _ rfl) (length_tab _ _ _)
    exact ⟨s, h1, fun env x hx => by rw [hval]; exact h2 env x hx⟩
  | bernstein =>
    have hA := bernsteinA_tab (K := K) (mkObj .bernstein m r c) c rfl
    obtain ⟨s, h1, h2⟩ := barycentricEval_num (m := m) (r := r) (hnum _ hA) (length_tab _ _ _)
    refine ⟨s, ?_, fun env x hx => ?_⟩
    · simp only [evalText, mkObj]
      simp only [mkObj] at hA
      rw [hA, Py.bind_ok]
      exact h1
    · rw [hval]
      have := h2 env x hx
      exact (basisFn_bernstein_sum m r c x) ▸ this
  | lagrange =>
    have hA : genCoeffs (K := K) (mkObj .lagrange m r c) = .ok (tab m r (lagMono m r c)) := lagrange_coeffs m r c
    obtain ⟨s, h1, h2⟩ := monomialEval_num (m := m) (r := r) (hnum _ hA) (length_tab _ _ _)
    refine ⟨s, ?_, fun env x hx => ?_⟩
    · simp only [evalText, mkObj]
      rw [lagrangeEval_eq]
      exact h1
    · rw [hval, show basisFn Basis.lagrange r (List.ofFn x) = lagrange r (List.ofFn x) from rfl, ← linComb_lagMono]
      exact h2 env x hx

omit [DecidableEq K] in
theorem tokens_of_txt {l : Level} {s : Str} {v : K} (h : Txt env l s v) : ∃ ts, tokens s = some ts := ⟨_, h.choose_spec.1.tokens⟩

theorem objCode_spec [CharZero K] {p : Obj K} {m : Nat} {f : (Fin m → K) → K} (h : Represents p m f) {num : K → Str} (hash : Int)
    (hnum : ∀ a, genCoeffs (K := K) p = .ok a → ∀ v ∈ a, PrintsExactly (num v) v) :
    ∃ code e, objCode num hash p = .ok (code, fnName (kindOf p.basis) m p.r hash) ∧ DefinesFunction code (fnName (kindOf p.basis) m p.r hash) e ∧
      ∀ (env : Env K) (x : Fin m → K), env "x".toList = some (pointArg (List.ofFn x)) → Denotes env e (f x) := by
  obtain ⟨s, h1, h2⟩ := evalText_spec h hnum
  obtain ⟨e0, h3, h4⟩ := txt_scalarBody (K := K) s
  obtain ⟨ts, h5⟩ := tokens_of_txt (h4 _ _ (h2 (scope (pointArg (List.ofFn fun _ => 0))) (fun _ => 0) (scope_x _)))
  obtain ⟨code, e, h6, h7, h8⟩ := functionSpecific_spec p.basis p.m p.r hash h5
  have hm : p.m = m := h.1
  refine ⟨code, e, ?_, by rw [← hm]; exact h7, fun env x hx => ?_⟩
  · unfold objCode
    rw [h1, Py.bind_ok, h3, Py.bind_ok, h6, hm]
  · obtain ⟨ts', h9, h10⟩ := h4 _ _ (h2 env x hx)
    exact ⟨ts', by rw [h8]; exact h9.tokens, h10⟩

/-! ## Vector valued polynomials -/

omit [DecidableEq K] [Field K] in
theorem vectorEval_ok {n : Nat} {scalar : List K → Py Str} {a : List (Fin (n + 1) → K)} {g : Fin (n + 1) → Str}
    (h : ∀ i, scalar (a.map (fun v => v i)) = .ok (g i)) :
    vectorEval scalar a = .ok ("np.array([".toList ++ joinWith ", ".toList (List.ofFn g) ++ "])".toList) := by
  unfold vectorEval
  rw [mapM_eq_ok g _ (fun i _ => h i), Py.bind_ok, ← List.ofFn_eq_map, List.ofFn_succ]
  simp only [Py.pure_eq]
  rw [List.append_assoc "np.array([".toList, vectorText_join]

omit [DecidableEq K] [Field K] in
theorem vectorEval_congr {n : Nat} {scalar scalar' : List K → Py Str} {a : List (Fin n → K)} {a' : List (Fin n → K)}
    (h : ∀ i, scalar (a.map (fun v => v i)) = scalar' (a'.map (fun v => v i))) : vectorEval scalar a = vectorEval scalar' a' := by
  unfold vectorEval
  rw [show (fun i => scalar (a.map (fun v => v i))) = (fun i => scalar' (a'.map (fun v => v i))) from funext h]

theorem map_tab {V W : Type} (m r : Nat) (c : List Nat → V) (g : V → W) : (tab m r c).map g = tab m r (fun ν => g (c ν)) := by
  unfold tab
  rw [List.map_map]
  rfl

omit [DecidableEq K] in
theorem val_comp [CharZero K] {n : Nat} (b : Basis) (m r : Nat) (c : List Nat → Fin n → K) (x : Fin m → K) (i : Fin n) :
    val b m r c x i = val b m r (fun ν => c ν i) x := by
  unfold val
  rw [Finset.sum_apply]
  rfl

/-- The numbers printed for a component. -/
theorem genCoeffs_component [CharZero K] {n : Nat} (b : Basis) (m r : Nat) (c : List Nat → Fin n → K) :
    ∃ a, genCoeffs (K := K) (mkObj b m r c) = .ok a ∧ ∀ i, genCoeffs (K := K) (mkObj b m r (fun ν => c ν i)) = .ok (a.map (fun v => v i)) := by
  cases b with
  | monomial => exact ⟨tab m r c, rfl, fun i => by rw [map_tab]; rfl⟩
  | bernstein =>
    refine ⟨_, bernsteinA_tab (K := K) (mkObj .bernstein m r c) c rfl, fun i => ?_⟩
    rw [show genCoeffs (K := K) (mkObj .bernstein m r (fun ν => c ν i)) = _ from
      bernsteinA_tab (K := K) (mkObj .bernstein m r (fun ν => c ν i)) (fun ν => c ν i) rfl]
    rw [map_tab]
    rfl
  | lagrange =>
    refine ⟨tab m r (fun μ => ∑ ν ∈ S m r, lagCoeff K m r (List.ofFn ν) μ • c (List.ofFn ν)), ?_, fun i => ?_⟩
    · show (do
        let cols ← getLagrangeBaseColumns K r m
        return dotColumns (K := K) (getDimension r m) cols (tab m r c) : Py (List (Fin n → K))) = _
      rw [getLagrangeBaseColumns_eq, Py.bind_ok, dotColumns_tab]
      rfl
    · rw [show genCoeffs (K := K) (mkObj .lagrange m r (fun ν => c ν i)) = _ from lagrange_coeffs m r _, map_tab]
      congr 2
      funext μ
      simp [lagMono, Finset.sum_apply]

theorem evalTextVector_eq [CharZero K] {n : Nat} (num : K → Str) (b : Basis) (m r : Nat) (c : List Nat → Fin n → K) (g : Fin n → Str)
    (h : ∀ i, evalText num (mkObj b m r (fun ν => c ν i)) = .ok (g i)) :
    ∃ (scalar : List K → Py Str) (a : List (Fin n → K)), evalTextVector num (mkObj b m r c) = vectorEval scalar a ∧
      ∀ i, scalar (a.map (fun v => v i)) = .ok (g i) := by
  cases b with
  | monomial =>
    refine ⟨fun (a : List K) => monomialEval m r (a.map num), tab m r c, rfl, fun i => ?_⟩
    rw [← h i]
    show monomialEval m r (((tab m r c).map (fun v => v i)).map num) = _
    rw [map_tab m r c]
    rfl
  | bernstein =>
    refine ⟨fun (a : List K) => barycentricEval m r (a.map num), tab m r (fun ν => (multinomial r ν : K) • c ν), ?_, fun i => ?_⟩
    · have hA := bernsteinA_tab (K := K) (mkObj .bernstein m r c) c rfl
      simp only [evalTextVector, mkObj]
      simp only [mkObj] at hA
      rw [hA, Py.bind_ok]
    · rw [← h i]
      have hA := bernsteinA_tab (K := K) (mkObj .bernstein m r (fun ν => c ν i)) (fun ν => c ν i) rfl
      simp only [evalText, mkObj]
      simp only [mkObj] at hA
      rw [hA, Py.bind_ok]
      rw [map_tab m r]
      rfl
  | lagrange =>
    refine ⟨lagrangeEval num m r, tab m r c, rfl, fun i => ?_⟩
    rw [← h i, map_tab]
    rfl

theorem objCodeVector_spec [CharZero K] {n : Nat} {p : Obj (Fin (n + 1) → K)} {m : Nat} {f : (Fin m → K) → Fin (n + 1) → K} (h : Represents p m f)
    {num : K → Str} (hash : Int) (hnum : ∀ a, genCoeffs (K := K) p = .ok a → ∀ v ∈ a, ∀ i, PrintsExactly (num (v i)) (v i)) :
    ∃ code e, objCodeVector num hash p = .ok (code, fnName (kindOf p.basis) m p.r hash) ∧ DefinesFunction code (fnName (kindOf p.basis) m p.r hash) e ∧
      ∀ (env : Env K) (x : Fin m → K), env "x".toList = some (pointArg (List.ofFn x)) → DenotesArray env e (List.ofFn (f x)) := by
  obtain ⟨c, hp, hf, hfit⟩ := h.exists_mk
  obtain ⟨a, ha1, ha2⟩ := genCoeffs_component (K := K) p.basis m p.r c
  have key : ∀ i, ∃ s, evalText num (mkObj p.basis m p.r (fun ν => c ν i)) = .ok s ∧
      ∀ (env : Env K) (x : Fin m → K), env "x".toList = some (pointArg (List.ofFn x)) → Txt env .sum s (f x i) := by
    intro i
    obtain ⟨s, h1, h2⟩ := evalText_spec (rep_mk (K := K) p.basis m p.r (fun ν => c ν i) hfit) (num := num) (by
      intro a' ha' v hv
      rw [ha2 i] at ha'
      rw [← Except.ok.inj ha', List.mem_map] at hv
      obtain ⟨w, hw, rfl⟩ := hv
      exact hnum a (by rw [hp]; exact ha1) w hw i)
    refine ⟨s, h1, fun env x hx => ?_⟩
    rw [hf, val_comp]
    exact h2 env x hx
  choose g hg1 hg2 using key
  obtain ⟨scalar, a', h1, h2⟩ := evalTextVector_eq num p.basis m p.r c g hg1
  rw [← hp] at h1
  obtain ⟨e0, h3, h4⟩ := vectorBody_spec (K := K) (parts := List.ofFn g) (by rw [List.ofFn_succ]; simp)
  have hF : ∀ (env : Env K) (x : Fin m → K), env "x".toList = some (pointArg (List.ofFn x)) →
      List.Forall₂ (Txt env .sum) (List.ofFn g) (List.ofFn (f x)) := by
    intro env x hx
    rw [List.forall₂_iff_get]
    refine ⟨by simp, fun i hi _ => ?_⟩
    rw [List.get_ofFn, List.get_ofFn]
    exact hg2 _ env x hx
  obtain ⟨ts, h5, -⟩ := h4 _ _ (hF (scope (pointArg (List.ofFn fun _ => 0))) (fun _ => 0) (scope_x _))
  obtain ⟨code, e, h6, h7, h8⟩ := functionSpecific_spec p.basis p.m p.r hash h5
  have hm : p.m = m := h.1
  refine ⟨code, e, ?_, by rw [← hm]; exact h7, fun env x hx => ?_⟩
  · unfold objCodeVector
    rw [h1, vectorEval_ok h2, Py.bind_ok, h3, Py.bind_ok, h6, hm]
  · obtain ⟨ts', h9, h10⟩ := h4 _ _ (hF env x hx)
    exact ⟨ts', by rw [h8]; exact h9, h10⟩

/-! ## Functions of the coefficients and the point -/

/-- Text for the Lagrange basis. -/
theorem lagrangeBasisFnText_spec [CharZero K] {num : K → Str} {m r : Nat} {ν : List Nat} (hν : ν ∈ mis m r)
    (hnum : ∀ c, getLagrangeBasisFnCoefficients K ν r = .ok c → ∀ v ∈ c, PrintsExactly (num v) v) :
    ∃ s, lagrangeBasisFnText num ν r = .ok s ∧ ∀ (env : Env K) (x : Fin m → K), env "x".toList = some (pointArg (List.ofFn x)) →
      Txt env .sum s (lagrange r (List.ofFn x) ν) := by
  obtain ⟨hl, hs⟩ := mem_mis.1 hν
  subst hl
  have hc := getLagrangeBasisFnCoefficients_eq (K := K) ν r hs
  have key : ∀ (env : Env K) (x : Fin ν.length → K), env "x".toList = some (pointArg (List.ofFn x)) → ∃ s, lagrangeBasisFnText num ν r = .ok s ∧
      Txt env .sum s (lagrange r (List.ofFn x) ν) := by
    intro env x hx
    unfold lagrangeBasisFnText
    rw [hc, Py.bind_ok]
    have hb := forall₂_monomialBasis hx r
    rw [List.length_ofFn] at hb
    obtain ⟨s, h1, h2⟩ := txt_strDotProduct (forall₂_num (hnum _ hc) env) hb (by rw [List.length_map, length_tab, hb.length_eq, List.length_map, length_mis_eq])
    refine ⟨s, h1, ?_⟩
    rw [← linComb_comm, linComb_tab] at h2
    rw [lagCoeff_spec rfl hs]
    simpa only [monomial_ofFn] using h2
  obtain ⟨s, hs, -⟩ := key (scope (pointArg (List.ofFn fun _ => 0))) (fun _ => 0) (scope_x _)
  refine ⟨s, hs, fun env x hx => ?_⟩
  obtain ⟨s', hs', ht⟩ := key env x hx
  rw [Except.ok.inj (hs.symm.trans hs')]
  exact ht

theorem lagrangeBasisText_spec [CharZero K] {num : K → Str} {m r : Nat}
    (hnum : ∀ ν ∈ mis m r, ∀ c, getLagrangeBasisFnCoefficients K ν r = .ok c → ∀ v ∈ c, PrintsExactly (num v) v) :
    ∃ texts, lagrangeBasisText num m r = .ok texts ∧ ∀ (env : Env K) (x : Fin m → K), env "x".toList = some (pointArg (List.ofFn x)) →
      List.Forall₂ (Txt env .sum) texts ((mis m r).map (lagrange r (List.ofFn x))) := by
  have key : ∀ ν : List Nat, ∃ s, ν ∈ mis m r → lagrangeBasisFnText num ν r = .ok s ∧ ∀ (env : Env K) (x : Fin m → K),
      env "x".toList = some (pointArg (List.ofFn x)) → Txt env .sum s (lagrange r (List.ofFn x) ν) := by
    intro ν
    by_cases hν : ν ∈ mis m r
    · obtain ⟨s, h⟩ := lagrangeBasisFnText_spec hν (hnum ν hν)
      exact ⟨s, fun _ => h⟩
    · exact ⟨[], fun h => absurd h hν⟩
  choose g hg using key
  refine ⟨(mis m r).map g, ?_, fun env x hx => forall₂_map_mem _ fun ν hν => (hg ν hν).2 env x hx⟩
  unfold lagrangeBasisText
  rw [generateAll_eq_mis]
  exact mapM_eq_ok g _ fun ν hν => (hg ν hν).1

theorem lagrangeEvalGeneral_spec [CharZero K] {num : K → Str} {m r : Nat}
    (hnum : ∀ ν ∈ mis m r, ∀ c, getLagrangeBasisFnCoefficients K ν r = .ok c → ∀ v ∈ c, PrintsExactly (num v) v) :
    ∃ s, lagrangeEvalGeneral num m r = .ok s ∧ ∀ (a : List K) (x : Fin m → K), a.length = getDimension r m →
      Txt (scopeGeneral a (pointArg (List.ofFn x))) .sum s (linComb (lagrange r (List.ofFn x)) (mis m r) a) := by
  obtain ⟨texts, h1, h2⟩ := lagrangeBasisText_spec hnum
  have key : ∀ (a : List K) (x : Fin m → K), a.length = getDimension r m → ∃ s, lagrangeEvalGeneral num m r = .ok s ∧
      Txt (scopeGeneral a (pointArg (List.ofFn x))) .sum s (linComb (lagrange r (List.ofFn x)) (mis m r) a) := by
    intro a x ha
    unfold lagrangeEvalGeneral
    rw [h1, Py.bind_ok]
    have hb := h2 (scopeGeneral a (pointArg (List.ofFn x))) x (scopeGeneral_x _ _)
    have hb' : List.Forall₂ (Txt (scopeGeneral a (pointArg (List.ofFn x))) .term) (texts.map parenthesise) ((mis m r).map (lagrange r (List.ofFn x))) := by
      rw [List.forall₂_map_left_iff]
      exact hb.imp fun _ _ h => txt_parenthesise h
    have hs := forall₂_sequence (env := scopeGeneral a (pointArg (List.ofFn x))) 'a' (by decide) (by decide) (scopeGeneral_a a _)
    rw [ha] at hs
    rw [linComb_comm]
    exact txt_strDotProduct (hs.imp fun _ _ h => h.term) hb' (by
      rw [List.length_map, hb.length_eq, List.length_map, length_mis_eq]
      simp [strSequence])
  obtain ⟨s, hs, -⟩ := key (List.replicate (getDimension r m) 0) (fun _ => 0) (by simp)
  refine ⟨s, hs, fun a x ha => ?_⟩
  obtain ⟨s', hs', ht⟩ := key a x ha
  rw [Except.ok.inj (hs.symm.trans hs')]
  exact ht

omit [DecidableEq K] in
theorem monomialEvalGeneral_spec (m r : Nat) :
    ∃ s, monomialEval m r (strSequence "a".toList (getDimension r m)) = .ok s ∧ ∀ (a : List K) (x : Fin m → K), a.length = getDimension r m →
      Txt (scopeGeneral a (pointArg (List.ofFn x))) .sum s (linComb (monomial (List.ofFn x)) (mis m r) a) := by
  have key : ∀ (a : List K) (x : Fin m → K), a.length = getDimension r m →
      ∃ s, monomialEval m r (strSequence "a".toList (getDimension r m)) = .ok s ∧
      Txt (scopeGeneral a (pointArg (List.ofFn x))) .sum s (linComb (monomial (List.ofFn x)) (mis m r) a) := by
    intro a x ha
    have hs := forall₂_sequence (env := scopeGeneral a (pointArg (List.ofFn x))) 'a' (by decide) (by decide) (scopeGeneral_a a _)
    rw [ha] at hs
    have := txt_monomialEval (env := scopeGeneral a (pointArg (List.ofFn x))) (scopeGeneral_x a (pointArg (List.ofFn x))) (r := r)
      (hs.imp fun _ _ h => h.term) (by simp [strSequence])
    simp only [List.length_ofFn] at this
    exact this
  obtain ⟨s, hs, -⟩ := key (List.replicate (getDimension r m) 0) (fun _ => 0) (by simp)
  refine ⟨s, hs, fun a x ha => ?_⟩
  obtain ⟨s', hs', ht⟩ := key a x ha
  rw [Except.ok.inj (hs.symm.trans hs')]
  exact ht

omit [DecidableEq K] in
theorem barycentricEvalGeneral_spec (m r : Nat) :
    ∃ s, barycentricEval m r (strSequence "a".toList (getDimension r m)) = .ok s ∧ ∀ (a : List K) (x : Fin m → K), a.length = getDimension r m →
      Txt (scopeGeneral a (pointArg (List.ofFn x))) .sum s
        (linComb (fun ν => monomial (List.ofFn x) ν * (1 - (List.ofFn x).sum) ^ (r - ν.sum)) (mis m r) a) := by
  have key : ∀ (a : List K) (x : Fin m → K), a.length = getDimension r m →
      ∃ s, barycentricEval m r (strSequence "a".toList (getDimension r m)) = .ok s ∧
      Txt (scopeGeneral a (pointArg (List.ofFn x))) .sum s
        (linComb (fun ν => monomial (List.ofFn x) ν * (1 - (List.ofFn x).sum) ^ (r - ν.sum)) (mis m r) a) := by
    intro a x ha
    have hs := forall₂_sequence (env := scopeGeneral a (pointArg (List.ofFn x))) 'a' (by decide) (by decide) (scopeGeneral_a a _)
    rw [ha] at hs
    have := txt_barycentricEval (env := scopeGeneral a (pointArg (List.ofFn x))) (scopeGeneral_x a (pointArg (List.ofFn x))) (r := r)
      (hs.imp fun _ _ h => h.term) (by simp [strSequence])
    simp only [List.length_ofFn] at this
    exact this
  obtain ⟨s, hs, -⟩ := key (List.replicate (getDimension r m) 0) (fun _ => 0) (by simp)
  refine ⟨s, hs, fun a x ha => ?_⟩
  obtain ⟨s', hs', ht⟩ := key a x ha
  rw [Except.ok.inj (hs.symm.trans hs')]
  exact ht

/-- The name of the general function. -/
def generalName (kind : Str) (m r : Nat) : Str := kind ++ "_polynomial_".toList ++ natStr m ++ natStr r

omit [Field K] [DecidableEq K] in
theorem functionGeneral_lines (kind : Str) (m r : Nat) (doc : Str) (hdoc : doc ≠ []) {e0 : Str} {ts : List Tok} (h : tokens e0 = some ts) :
    ∃ lines e, functionGeneral kind m r doc ("return ".toList ++ e0) = .ok ("def ".toList ++ generalName kind m r ++ "(a, x):\n".toList ++
        (lines.map (fun l => lineIndent l ++ ['\n'])).flatten ++ "    return ".toList ++ e ++ "\n".toList) ∧
      (joinWith ['\n'] lines = doc ∨ joinWith ['\n'] lines ++ ['\n'] = doc) ∧ tokens e = tokens e0 ∧ lines ≠ [] ∧ ∀ l ∈ lines, '\n' ∉ l := by
  unfold functionGeneral
  simp only
  rw [wl_eq]
  set name := kind ++ "_polynomial_".toList ++ natStr m ++ natStr r with hname
  set w : Writer := Writer.incIndent _ with hw
  have hi : w.indent = "    ".toList := rfl
  have hd : w.depth = 1 := rfl
  have hcode : w.code = "def ".toList ++ name ++ "(a, x):\n".toList := by
    rw [hw]
    simp only [Writer.incIndent]
    unfold lineText
    rw [if_neg (by simp)]
    simp [hname]
  have hline : ∀ s : Str, lineText w s = lineIndent s ++ ['\n'] := by
    intro s
    unfold lineText lineIndent
    rw [hi, hd]
    by_cases hs : s = []
    · rw [if_pos ⟨hs, by decide⟩, if_pos hs]; rfl
    · rw [if_neg (fun h => hs h.1), if_neg hs]; rfl
  obtain ⟨lines, g1, g2, h3, -, h5⟩ := (C32_write_code w doc).2 hdoc
  rw [h5, Py.bind_ok]
  obtain ⟨e, h1, h2⟩ := wc_return { w with code := w.code ++ (lines.map (lineText w)).flatten } hi hd h
  rw [h1, Py.bind_ok]
  refine ⟨lines, e, ?_, h3, by unfold tokens; rw [h2], g2, g1⟩
  rw [Py.pure_eq]
  congr 1
  change w.code ++ (lines.map (lineText w)).flatten ++ ("    return ".toList ++ e ++ "\n".toList) = _
  rw [hcode, show generalName kind m r = name from rfl, show lineText w = fun l => lineIndent l ++ ['\n'] from funext hline]
  generalize name = nm
  simp only [List.append_assoc]

omit [Field K] [DecidableEq K] in
theorem functionGeneral_spec (kind : Str) (m r : Nat) (doc : Str) (hdoc : doc ≠ []) {e0 : Str} {ts : List Tok} (h : tokens e0 = some ts) :
    ∃ lines e, functionGeneral kind m r doc ("return ".toList ++ e0) = .ok ("def ".toList ++ generalName kind m r ++ "(a, x):\n".toList ++
        (lines.map (fun l => lineIndent l ++ ['\n'])).flatten ++ "    return ".toList ++ e ++ "\n".toList) ∧
      (joinWith ['\n'] lines = doc ∨ joinWith ['\n'] lines ++ ['\n'] = doc) ∧ tokens e = tokens e0 := by
  obtain ⟨lines, e, h1, h2, h3, -, -⟩ := functionGeneral_lines kind m r doc hdoc h
  exact ⟨lines, e, h1, h2, h3⟩

end Verif.PyExpr
