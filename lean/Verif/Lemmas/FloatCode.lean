import Verif.Lemmas.FloatExpr
import Verif.Spec.FloatPoly
import Verif.Lemmas.PyExprUnique
/-!
# Rounding errors of generated code
-/

namespace Verif.PyExpr
open Verif Verif.Str Verif.CodeGen Verif.Poly Verif.MI Verif.Spec

variable {ε : ℝ} {env : Env ℝ}

/-! ## Basis functions -/

theorem ftxt_x {v : ℝ} (h : env "x".toList = some (.num v)) : FTxt ε env .atom "x".toList v |v| 0 :=
  ⟨_, _, lx_letter 'x' (by decide) (by decide), .name _, .name h le_rfl⟩

theorem fforall₂_sequence (c : Char) (hd : c.isDigit = false) (ha : c.isAlpha = true) {l : List ℝ} (h : env [c] = some (.list l)) :
    List.Forall₂ (fun s v => FTxt ε env .atom s v |v| 0) (strSequence [c] l.length) l := by
  rw [List.forall₂_iff_get]
  refine ⟨by simp [strSequence], fun i h1 h2 => ?_⟩
  simp only [strSequence, List.get_eq_getElem, List.getElem_map, List.getElem_range]
  exact ⟨_, _, lx_subscript c hd ha i, .index _ i, .index h (List.getElem?_eq_getElem h2) le_rfl⟩

theorem fforall₂_powers {vs : List Str} {l : List ℝ} (h : List.Forall₂ (fun s v => FTxt ε env .atom s v |v| 0) vs l) (ν : List Nat) :
    List.Forall₂ (fun s (v : VM) => FTxt ε env .term s v.1 v.2 1) (List.zipWith (fun v (k : Nat) => strExponent v (natStr k)) vs ν)
      (List.zipWith (fun v (k : Nat) => ((v ^ k, |v| ^ k) : VM)) l ν) := by
  induction h generalizing ν with
  | nil => exact List.Forall₂.nil
  | cons h1 _ ih =>
    cases ν with
    | nil => exact List.Forall₂.nil
    | cons k ν => exact List.Forall₂.cons ((ftxt_strExponent h1 k).mono le_rfl (by omega)) (ih ν)

theorem powers_fst (l : List ℝ) (ν : List Nat) : (List.zipWith (fun v (k : Nat) => ((v ^ k, |v| ^ k) : VM)) l ν).map Prod.fst =
    List.zipWith (· ^ ·) l ν := by
  rw [List.map_zipWith]

theorem powers_snd (l : List ℝ) (ν : List Nat) : (List.zipWith (fun v (k : Nat) => ((v ^ k, |v| ^ k) : VM)) l ν).map Prod.snd =
    List.zipWith (· ^ ·) (l.map abs) ν := by
  rw [List.map_zipWith, List.zipWith_map_left]

theorem ftxt_powers {x : List ℝ} (hx : env "x".toList = some (.list x)) {ν : List Nat} (h : ν.length = x.length) :
    FTxt ε env .term (strMultiProduct (List.zipWith (fun v (k : Nat) => strExponent v (natStr k)) (strSequence "x".toList x.length) ν) "*".toList)
      (monomial x ν) (monomial (x.map abs) ν) (2 * x.length + 1) := by
  have := ftxt_strMultiProduct (fforall₂_powers (ε := ε) (fforall₂_sequence 'x' (by decide) (by decide) hx) ν)
  rw [powers_fst, powers_snd] at this
  unfold monomial
  refine this.mono le_rfl ?_
  simp [strSequence]
  omega

theorem ftxt_monomialBasisFn {x : List ℝ} (hx : env "x".toList = some (pointArg x)) {ν : List Nat} (h : ν.length = x.length) :
    FTxt ε env .term (monomialBasisFnText ν) (monomial x ν) (monomial (x.map abs) ν) (2 * x.length + 1) := by
  by_cases h1 : ν.length = 1
  · obtain ⟨k, rfl⟩ := List.length_eq_one_iff.1 h1
    obtain ⟨v, rfl⟩ := List.length_eq_one_iff.1 (h ▸ h1)
    rw [monomialBasisFnText_one, show monomial [v] [k] = v ^ k by simp [monomial], show monomial ([v].map abs) [k] = |v| ^ k by simp [monomial]]
    exact (ftxt_strExponent (ftxt_x hx) k).mono le_rfl (by omega)
  · rw [monomialBasisFnText_general ν h1]
    rw [pointArg_ne (by omega)] at hx
    unfold monomialGeneral
    rw [h]
    exact ftxt_powers hx h

theorem fforall₂_monomialBasis {x : List ℝ} (hx : env "x".toList = some (pointArg x)) (r : Nat) :
    List.Forall₂ (fun s (v : VM) => FTxt ε env .term s v.1 v.2 (2 * x.length + 1)) (monomialBasisText x.length r)
      ((mis x.length r).map (fun ν => ((monomial x ν, monomial (x.map abs) ν) : VM))) := by
  unfold monomialBasisText
  rw [generateAll_eq_mis]
  exact forall₂_map_mem _ (fun ν hν => ftxt_monomialBasisFn hx (mem_mis.1 hν).1)

/-- The magnitude of a barycentric basis polynomial. -/
noncomputable def baryMag (r : Nat) (x : List ℝ) (ν : List Nat) : ℝ := monomial (x.map abs) ν * (1 + (x.map abs).sum) ^ (r - ν.sum)

theorem ftxt_barycentricBasisFn {x : List ℝ} (hx : env "x".toList = some (pointArg x)) {ν : List Nat} (h : ν.length = x.length) {r : Nat} (hr : ν.sum ≤ r) :
    FTxt ε env .term (barycentricBasisFnText ν r) (monomial x ν * (1 - x.sum) ^ (r - ν.sum)) (baryMag r x ν)
      ((x.length + 2) * r + 2 * x.length + 3) := by
  have hsub : (x.length + 2) * (r - ν.sum) ≤ (x.length + 2) * r := Nat.mul_le_mul_left _ (Nat.sub_le _ _)
  unfold baryMag
  by_cases h1 : ν.length = 1
  · obtain ⟨k, rfl⟩ := List.length_eq_one_iff.1 h1
    obtain ⟨v, rfl⟩ := List.length_eq_one_iff.1 (h ▸ h1)
    rw [show monomial [v] [k] = v ^ k by simp [monomial], show monomial ([v].map abs) [k] = |v| ^ k by simp [monomial]]
    simp only [List.sum_singleton, List.map_cons, List.map_nil, List.length_singleton] at hr hsub ⊢
    unfold barycentricBasisFnText
    simp only
    rw [← Nat.cast_sub hr, intStr_ofNat]
    have hs : FTxt ε env .sum "1 - x".toList (1 - v) (1 + |v|) 2 := by
      have := ftxt_strSum (ftxt_one (ε := ε) (env := env)).term.sum ((ftxt_x hx).neg.mono le_rfl (by omega))
      rwa [← sub_eq_add_neg] at this
    refine (ftxt_strProduct (ftxt_strExponent (ftxt_x hx) k) (ftxt_strExponent hs.paren _)).mono le_rfl ?_
    have : 2 * (r - k) ≤ (1 + 2) * (r - k) := Nat.mul_le_mul_right _ (by omega)
    omega
  · rw [pointArg_ne (by omega)] at hx
    unfold barycentricBasisFnText
    split
    · exact absurd rfl h1
    · simp only
      rw [show (MI.norm ν : Int) = ((ν.sum : Nat) : Int) from rfl, ← Nat.cast_sub hr, intStr_ofNat, h]
      have hseq := fforall₂_sequence (ε := ε) 'x' (by decide) (by decide) hx
      have hs : FTxt ε env .sum (strMultiSum ("1".toList :: (strSequence "x".toList x.length).map (fun v => '-' :: v)))
          ((((1, 1) : VM) :: x.map (fun v => ((-v, |v|) : VM))).map Prod.fst).sum
          ((((1, 1) : VM) :: x.map (fun v => ((-v, |v|) : VM))).map Prod.snd).sum (1 + (x.length + 1)) := by
        have := ftxt_strMultiSum (ε := ε) (env := env) (D := 1) le_rfl (l := "1".toList :: (strSequence "x".toList x.length).map (fun v => '-' :: v))
          (vs := ((1, 1) : VM) :: x.map (fun v => ((-v, |v|) : VM))) (List.Forall₂.cons ftxt_one.term (by
            rw [List.forall₂_map_left_iff, List.forall₂_map_right_iff]
            exact hseq.imp (fun _ _ hv => hv.neg.mono le_rfl (by omega))))
        refine this.mono le_rfl ?_
        simp [strSequence]
      have hsum : ((((1, 1) : VM) :: x.map (fun v => ((-v, |v|) : VM))).map Prod.fst).sum = 1 - x.sum := by
        rw [List.map_cons, List.sum_cons, sub_eq_add_neg, List.map_map]
        congr 1
        clear hx h hseq hs hsub
        induction x with
        | nil => simp
        | cons a x ih => rw [List.map_cons, List.sum_cons, List.sum_cons, ih]; simp; ring
      have hsum' : ((((1, 1) : VM) :: x.map (fun v => ((-v, |v|) : VM))).map Prod.snd).sum = 1 + (x.map abs).sum := by
        rw [List.map_cons, List.sum_cons, List.map_map]
        rfl
      rw [hsum, hsum'] at hs
      refine (ftxt_strProduct (ftxt_powers hx h) (ftxt_strExponent hs.paren _)).mono le_rfl ?_
      rw [show 1 + (x.length + 1) = x.length + 2 by omega]
      omega

theorem fforall₂_barycentricBasis {x : List ℝ} (hx : env "x".toList = some (pointArg x)) (r : Nat) :
    List.Forall₂ (fun s (v : VM) => FTxt ε env .term s v.1 v.2 ((x.length + 2) * r + 2 * x.length + 3)) (barycentricBasisText x.length r)
      ((mis x.length r).map (fun ν => ((monomial x ν * (1 - x.sum) ^ (r - ν.sum), baryMag r x ν) : VM))) := by
  unfold barycentricBasisText
  rw [generateAll_eq_mis]
  exact forall₂_map_mem _ (fun ν hν => ftxt_barycentricBasisFn hx (mem_mis.1 hν).1 (mem_mis.1 hν).2)

/-! ## Horner's rule -/

theorem ftxt_parenthesise {s : Str} {v M : ℝ} {d : Nat} (h : FTxt ε env .sum s v M d) : FTxt ε env .term (parenthesise s) v M d := by
  unfold parenthesise
  by_cases hs : '+' ∈ s ∨ '-' ∈ s
  · rw [if_pos hs]
    exact h.paren.term
  · rw [if_neg hs]
    obtain ⟨ts, e, h1, h2, h3⟩ := h
    exact ⟨ts, e, h1, h2.term_of_sum (fun hm => hs (Or.inl (h1.sign (Or.inl ⟨rfl, rfl⟩) hm))) (fun hm => hs (Or.inr (h1.sign (Or.inr ⟨rfl, rfl⟩) hm))), h3⟩

theorem ftxt_hornerRec {x : ℝ} (hx : env "x".toList = some (.num x)) {l : List Str} {vs : List VM}
    (h : List.Forall₂ (fun s (v : VM) => FTxt ε env .term s v.1 v.2 2) l vs) :
    ∀ {a : Str} {c : VM}, FTxt ε env .term a c.1 c.2 2 →
      FTxt ε env .term (hornerRec a l) (hornerVal x c.1 (vs.map Prod.fst)) (hornerVal |x| c.2 (vs.map Prod.snd)) (2 * l.length + 3) := by
  induction h with
  | nil => intro a c h; exact (ftxt_strProduct (ftxt_x hx).term h).mono le_rfl (by simp)
  | @cons b v l vs h1 _ ih =>
    intro a c h
    have hn := ftxt_strSum (h.sum.mono le_rfl (show 2 ≤ 2 * l.length + 3 by omega)) (ih h1)
    simp only [hornerRec, hornerVal, List.map_cons]
    generalize strSum a (hornerRec _ _) = nested at hn ⊢
    generalize c.1 + hornerVal x _ _ = w at hn ⊢
    generalize c.2 + hornerVal |x| _ _ = W at hn ⊢
    by_cases h0 : nested ≠ "0".toList
    · rw [if_pos h0]
      by_cases h2 : nested = "1".toList
      · rw [if_pos h2]
        rw [h2] at hn
        rw [hn.one_eq.1, mul_one]
        exact (ftxt_x hx).term.mono (le_mul_of_one_le_right (abs_nonneg _) hn.one_eq.2) (by omega)
      · rw [if_neg h2]
        have hp := ftxt_strProduct (ftxt_x hx).term (ftxt_parenthesise hn)
        unfold parenthesise at hp
        rw [List.length_cons]
        by_cases h3 : '+' ∈ nested ∨ '-' ∈ nested
        · rw [if_pos h3] at hp ⊢
          exact hp.mono le_rfl (by omega)
        · rw [if_neg h3] at hp ⊢
          exact hp.mono le_rfl (by omega)
    · rw [if_neg h0]
      rw [not_not] at h0
      have hW := hn.nonneg
      rw [h0] at hn
      rw [hn.zero_eq, mul_zero]
      exact ftxt_zero.term.mono (mul_nonneg (abs_nonneg _) hW) (by omega)

theorem ftxt_horner {x : ℝ} (hx : env "x".toList = some (.num x)) {l : List Str} {vs : List VM}
    (h : List.Forall₂ (fun s (v : VM) => FTxt ε env .term s v.1 v.2 2) l vs) (hne : l ≠ []) :
    ∃ s, horner l = .ok s ∧ FTxt ε env .sum s (List.zipWith (fun (i : Nat) (a : VM) => x ^ i * a.1) (List.range vs.length) vs).sum
      (List.zipWith (fun (i : Nat) (a : VM) => |x| ^ i * a.2) (List.range vs.length) vs).sum (2 * l.length) := by
  cases h with
  | nil => exact absurd rfl hne
  | cons h1 h2 =>
    rename_i a c l vs
    cases h2 with
    | nil => exact ⟨a, rfl, by simpa [List.range_succ] using h1.sum⟩
    | cons h3 h4 =>
      rename_i b d l vs
      refine ⟨_, rfl, ?_⟩
      have := ftxt_strSum (h1.sum.mono le_rfl (show 2 ≤ 2 * l.length + 3 by omega)) (ftxt_hornerRec hx h4 h3)
      have hv := hornerVal_eq x (vs.map Prod.fst) d.1 0
      have hw := hornerVal_eq |x| (vs.map Prod.snd) d.2 0
      rw [pow_zero, one_mul] at hv hw
      rw [hv, hw] at this
      rw [List.length_cons, List.range_eq_range', List.range'_succ, List.zipWith_cons_cons, List.sum_cons, List.zipWith_cons_cons, List.sum_cons, pow_zero,
        pow_zero, one_mul, one_mul]
      rw [← List.map_cons (f := Prod.fst), ← List.map_cons (f := Prod.snd), List.zipWith_map_right, List.zipWith_map_right, List.length_map,
        List.length_map] at this
      exact this.mono le_rfl (by simp only [List.length_cons]; omega)

/-! ## Expressions -/

theorem zip_linComb (f : VM → ℝ) (b : List Nat → ℝ) (g : List Nat → VM) (hg : ∀ ν, f (g ν) = b ν) (νs : List (List Nat)) (vs : List VM) :
    (List.zipWith (fun (u v : VM) => f u * f v) vs (νs.map g)).sum = linComb b νs (vs.map f) := by
  rw [linComb_comm, List.zipWith_map, List.zipWith_map_right]
  congr 1
  congr 1
  funext u ν
  rw [hg]

theorem ftxt_monomialEval {x : List ℝ} (hx : env "x".toList = some (pointArg x)) {r : Nat} {l : List Str} {vs : List VM}
    (h : List.Forall₂ (fun s (v : VM) => FTxt ε env .term s v.1 v.2 2) l vs) (hlen : l.length = getDimension r x.length) :
    ∃ s, monomialEval x.length r l = .ok s ∧ FTxt ε env .sum s (linComb (monomial x) (mis x.length r) (vs.map Prod.fst))
      (linComb (monomial (x.map abs)) (mis x.length r) (vs.map Prod.snd)) (2 * getDimension r x.length + 2 * x.length + 4) := by
  have hne : l ≠ [] := by
    rintro rfl
    have := getDimension_pos r x.length
    simp at hlen
    omega
  unfold monomialEval
  rw [if_neg hne]
  by_cases h1 : x.length = 1
  · rw [if_pos h1]
    obtain ⟨v, rfl⟩ := List.length_eq_one_iff.1 h1
    obtain ⟨s, hs, ht⟩ := ftxt_horner (show env "x".toList = some (.num v) from hx) h hne
    refine ⟨s, hs, ?_⟩
    have hl : vs.length = r + 1 := by rw [← h.length_eq, hlen]; exact getDimension_one r
    have key : ∀ (f : VM → ℝ) (y : ℝ), linComb (monomial [y]) (mis [v].length r) (vs.map f) =
        (List.zipWith (fun (i : Nat) (a : VM) => y ^ i * f a) (List.range vs.length) vs).sum := by
      intro f y
      rw [show [v].length = 1 from rfl, mis_one, hl]
      unfold linComb
      rw [List.zipWith_map]
      congr 1
      congr 1
      funext i a
      simp [monomial]
    rw [key, show ([v].map abs) = [|v|] from rfl, key]
    exact ht.mono le_rfl (by omega)
  · rw [if_neg h1]
    have hb := fforall₂_monomialBasis (ε := ε) hx r
    obtain ⟨s, hs, ht⟩ := ftxt_strDotProduct h hb (by rw [hlen, hb.length_eq, List.length_map, length_mis_eq])
    refine ⟨s, hs, ?_⟩
    rw [zip_linComb Prod.fst (monomial x) _ (fun _ => rfl), zip_linComb Prod.snd (monomial (x.map abs)) _ (fun _ => rfl)] at ht
    exact ht.mono le_rfl (by omega)

theorem ftxt_barycentricEval {x : List ℝ} (hx : env "x".toList = some (pointArg x)) {r : Nat} {l : List Str} {vs : List VM}
    (h : List.Forall₂ (fun s (v : VM) => FTxt ε env .term s v.1 v.2 2) l vs) (hlen : l.length = getDimension r x.length) :
    ∃ s, barycentricEval x.length r l = .ok s ∧
      FTxt ε env .sum s (linComb (fun ν => monomial x ν * (1 - x.sum) ^ (r - ν.sum)) (mis x.length r) (vs.map Prod.fst))
        (linComb (baryMag r x) (mis x.length r) (vs.map Prod.snd)) (getDimension r x.length + (x.length + 2) * (r + 2) + 2) := by
  have hne : l ≠ [] := by
    rintro rfl
    have := getDimension_pos r x.length
    simp at hlen
    omega
  unfold barycentricEval
  rw [if_neg hne]
  have hb := fforall₂_barycentricBasis (ε := ε) hx r
  obtain ⟨s, hs, ht⟩ := ftxt_strDotProduct h hb (by rw [hlen, hb.length_eq, List.length_map, length_mis_eq])
  refine ⟨s, hs, ?_⟩
  rw [zip_linComb Prod.fst (fun ν => monomial x ν * (1 - x.sum) ^ (r - ν.sum)) _ (fun _ => rfl), zip_linComb Prod.snd (baryMag r x) _ (fun _ => rfl)] at ht
  refine ht.mono le_rfl ?_
  rw [Nat.mul_add]
  omega

/-! ## Numbers -/

theorem Literal.bound {e : Expr} {v : ℝ} (h : Literal ε e v) : Bound ε env e v |v| 2 := by
  induction h with
  | int n => exact .int (le_abs_self _) (by omega)
  | float h => exact .float h le_rfl le_rfl
  | neg _ ih => rw [abs_neg]; exact .neg ih rfl

theorem PrintsLiteral.ftxt {s : Str} {v : ℝ} (h : PrintsLiteral ε s v) : FTxt ε env .term s v |v| 2 := by
  obtain ⟨ts, e, h1, h2, h3⟩ := h
  exact ⟨ts, e, lx_of_tokens h1 h2.last, .term h2, h3.bound⟩

theorem fforall₂_num {num : ℝ → Str} {a : List ℝ} (h : ∀ v ∈ a, PrintsLiteral ε (num v) v) :
    List.Forall₂ (fun s (v : VM) => FTxt ε env .term s v.1 v.2 2) (a.map num) (a.map (fun v => ((v, |v|) : VM))) :=
  forall₂_map_mem (R := fun s (v : VM) => FTxt ε env .term s v.1 v.2 2) (f := num) (g := fun v => ((v, |v|) : VM)) a (fun v hv => (h v hv).ftxt)

theorem map_vm_fst (a : List ℝ) : (a.map (fun v => ((v, |v|) : VM))).map Prod.fst = a := by
  rw [List.map_map]
  exact List.map_id a

theorem map_vm_snd (a : List ℝ) : (a.map (fun v => ((v, |v|) : VM))).map Prod.snd = a.map abs := by simp

theorem fmonomialEval_num {m r : Nat} {num : ℝ → Str} {a : List ℝ} (h : ∀ v ∈ a, PrintsLiteral ε (num v) v) (hlen : a.length = getDimension r m) :
    ∃ s, monomialEval m r (a.map num) = .ok s ∧ ∀ (env : Env ℝ) (x : Fin m → ℝ), env "x".toList = some (pointArg (List.ofFn x)) →
      FTxt ε env .sum s (linComb (monomial (List.ofFn x)) (mis m r) a) (linComb (monomial ((List.ofFn x).map abs)) (mis m r) (a.map abs))
        (2 * getDimension r m + 2 * m + 4) := by
  have key : ∀ (env : Env ℝ) (x : Fin m → ℝ), env "x".toList = some (pointArg (List.ofFn x)) → ∃ s, monomialEval m r (a.map num) = .ok s ∧
      FTxt ε env .sum s (linComb (monomial (List.ofFn x)) (mis m r) a) (linComb (monomial ((List.ofFn x).map abs)) (mis m r) (a.map abs))
        (2 * getDimension r m + 2 * m + 4) := by
    intro env x hx
    have := ftxt_monomialEval hx (r := r) (fforall₂_num (env := env) h) (by simpa using hlen)
    rw [map_vm_fst, map_vm_snd, List.length_ofFn] at this
    exact this
  obtain ⟨s, hs, -⟩ := key (scope (pointArg (List.ofFn fun _ => 0))) (fun _ => 0) (scope_x _)
  refine ⟨s, hs, fun env x hx => ?_⟩
  obtain ⟨s', hs', ht⟩ := key env x hx
  rw [Except.ok.inj (hs.symm.trans hs')]
  exact ht

theorem fbarycentricEval_num {m r : Nat} {num : ℝ → Str} {a : List ℝ} (h : ∀ v ∈ a, PrintsLiteral ε (num v) v) (hlen : a.length = getDimension r m) :
    ∃ s, barycentricEval m r (a.map num) = .ok s ∧ ∀ (env : Env ℝ) (x : Fin m → ℝ), env "x".toList = some (pointArg (List.ofFn x)) →
      FTxt ε env .sum s (linComb (fun ν => monomial (List.ofFn x) ν * (1 - (List.ofFn x).sum) ^ (r - ν.sum)) (mis m r) a)
        (linComb (baryMag r (List.ofFn x)) (mis m r) (a.map abs)) (getDimension r m + (m + 2) * (r + 2) + 2) := by
  have key : ∀ (env : Env ℝ) (x : Fin m → ℝ), env "x".toList = some (pointArg (List.ofFn x)) → ∃ s, barycentricEval m r (a.map num) = .ok s ∧
      FTxt ε env .sum s (linComb (fun ν => monomial (List.ofFn x) ν * (1 - (List.ofFn x).sum) ^ (r - ν.sum)) (mis m r) a)
        (linComb (baryMag r (List.ofFn x)) (mis m r) (a.map abs)) (getDimension r m + (m + 2) * (r + 2) + 2) := by
    intro env x hx
    have := ftxt_barycentricEval hx (r := r) (fforall₂_num (env := env) h) (by simpa using hlen)
    rw [map_vm_fst, map_vm_snd, List.length_ofFn] at this
    exact this
  obtain ⟨s, hs, -⟩ := key (scope (pointArg (List.ofFn fun _ => 0))) (fun _ => 0) (scope_x _)
  refine ⟨s, hs, fun env x hx => ?_⟩
  obtain ⟨s', hs', ht⟩ := key env x hx
  rw [Except.ok.inj (hs.symm.trans hs')]
  exact ht

/-! ## Line breaks -/

theorem lx_wrapScalarLines (s : Str) : ∃ e, wrapScalarLines s = .ok ("return ".toList ++ e) ∧
    (e = s ∨ ∀ ts, Lx s ts → Lx e (.lpar :: ts ++ [.rpar])) := by
  unfold wrapScalarLines
  obtain ⟨parts, h1, h2⟩ := splitLongStr_parts s " +".toList (by decide)
  rw [h1, Py.bind_ok]
  simp only [join_eq]
  by_cases hp : parts.length > 1
  · simp only [decide_eq_true hp, if_true]
    refine ⟨"(".toList ++ joinWith "\n        +".toList parts ++ ")".toList, ?_, Or.inr ?_⟩
    · rw [Py.pure_eq]
      congr 1
    · intro ts h3
      rw [← h2] at h3
      exact (h3.breakLines _ _ break_plus).paren
  · simp only [decide_eq_false hp]
    have h5 : joinWith "\n        +".toList parts = s := by
      rw [← h2]
      cases parts with
      | nil => rfl
      | cons p l =>
        cases l with
        | nil => rfl
        | cons q l => exact absurd (by simp) hp
    rw [h5]
    exact ⟨s, rfl, Or.inl rfl⟩

theorem ftxt_wrap {s e : Str} (h : e = s ∨ ∀ ts, Lx s ts → Lx e (.lpar :: ts ++ [.rpar])) {v M : ℝ} {d : Nat} (hs : FTxt ε env .sum s v M d) :
    FTxt ε env .sum e v M d := by
  rcases h with rfl | h
  · exact hs
  · obtain ⟨ts, f, h1, h2, h3⟩ := hs
    exact ⟨_, f, h ts h1, .sum (.term (.factor (.power (.paren h2)))), h3⟩

theorem lx_scalarBody (s : Str) : ∃ e, scalarBody s = .ok ("return ".toList ++ e) ∧ (e = s ∨ ∀ ts, Lx s ts → Lx e (.lpar :: ts ++ [.rpar])) := by
  unfold scalarBody
  by_cases hl : s.length > 100
  · rw [if_pos hl]
    exact lx_wrapScalarLines s
  · rw [if_neg hl]
    exact ⟨s, rfl, Or.inl rfl⟩

theorem tokens_of_ftxt {l : Level} {s : Str} {v M : ℝ} {d : Nat} (h : FTxt ε env l s v M d) : ∃ ts, tokens s = some ts := by
  obtain ⟨ts, e, h1, -, -⟩ := h
  exact ⟨ts, h1.tokens⟩

/-- What a text with bounds evaluates to. -/
theorem FTxt.eval (hε : 0 ≤ ε) {s s' : Str} {v M : ℝ} {d : Nat} (h : FTxt ε env .sum s v M d) (hs : tokens s' = tokens s) :
    (∃ c, FloatDenotes ε env s' c) ∧ ∀ c, FloatDenotes ε env s' c → |c - v| ≤ ((1 + ε) ^ d - 1) * M := by
  obtain ⟨ts, e, h1, h2, h3⟩ := h
  constructor
  · obtain ⟨c, hc⟩ := h3.exists_floatVal hε
    exact ⟨c, ts, e, by rw [hs]; exact h1.tokens, h2, hc⟩
  · rintro c ⟨ts', e', h4, h5, h6⟩
    rw [hs, h1.tokens] at h4
    obtain rfl := Option.some.inj h4
    rw [h5.unique h2] at h6
    exact h3.error hε h6

/-! ## Polynomial objects -/

theorem fevalText_spec {p : Obj ℝ} {m : Nat} {f : (Fin m → ℝ) → ℝ} (h : Represents p m f) {num : ℝ → Str} {a : List ℝ}
    (ha : genCoeffs (K := ℝ) p = .ok a) (hnum : ∀ v ∈ a, PrintsLiteral ε (num v) v) :
    ∃ s, evalText num p = .ok s ∧ ∀ (env : Env ℝ) (x : Fin m → ℝ), env "x".toList = some (pointArg (List.ofFn x)) →
      FTxt ε env .sum s (f x) (magnitude p.basis p.r a x) (roundings p.basis m p.r) := by
  obtain ⟨c, hp, hf, -⟩ := h.exists_mk
  generalize p.r = r at hp hf ⊢
  generalize p.basis = b at hp hf ⊢
  subst hp hf
  have hval : ∀ x : Fin m → ℝ, val b m r c x = linComb (basisFn b r (List.ofFn x)) (mis m r) (tab m r c) := fun x => by rw [linComb_tab]; rfl
  cases b with
  | monomial =>
    obtain rfl : tab m r c = a := Except.ok.inj ha
    obtain ⟨s, h1, h2⟩ := fmonomialEval_num (m := m) (r := r) hnum (length_tab _ _ _)
    exact ⟨s, h1, fun env x hx => by rw [hval]; exact h2 env x hx⟩
  | bernstein =>
    have hA := bernsteinA_tab (K := ℝ) (mkObj .bernstein m r c) c rfl
    obtain rfl := Except.ok.inj (hA.symm.trans ha)
    obtain ⟨s, h1, h2⟩ := fbarycentricEval_num (m := m) (r := r) hnum (length_tab _ _ _)
    refine ⟨s, ?_, fun env x hx => ?_⟩
    · simp only [evalText, mkObj]
      simp only [mkObj] at hA
      rw [hA, Py.bind_ok]
      exact h1
    · rw [hval]
      have := h2 env x hx
      exact (basisFn_bernstein_sum m r c x) ▸ this
  | lagrange =>
    have hA : genCoeffs (K := ℝ) (mkObj .lagrange m r c) = .ok (tab m r (lagMono m r c)) := lagrange_coeffs m r c
    obtain rfl := Except.ok.inj (hA.symm.trans ha)
    obtain ⟨s, h1, h2⟩ := fmonomialEval_num (m := m) (r := r) hnum (length_tab _ _ _)
    refine ⟨s, ?_, fun env x hx => ?_⟩
    · simp only [evalText, mkObj]
      rw [lagrangeEval_eq]
      exact h1
    · rw [hval, show basisFn Basis.lagrange r (List.ofFn x) = lagrange r (List.ofFn x) from rfl, ← linComb_lagMono]
      exact h2 env x hx

theorem fobjCode_spec (hε : 0 ≤ ε) {p : Obj ℝ} {m : Nat} {f : (Fin m → ℝ) → ℝ} (h : Represents p m f) {num : ℝ → Str} (hash : Int) {a : List ℝ}
    (ha : genCoeffs (K := ℝ) p = .ok a) (hnum : ∀ v ∈ a, PrintsLiteral ε (num v) v) :
    ∃ code e, objCode num hash p = .ok (code, fnName (kindOf p.basis) m p.r hash) ∧ DefinesFunction code (fnName (kindOf p.basis) m p.r hash) e ∧
      ∀ (env : Env ℝ) (x : Fin m → ℝ), env "x".toList = some (pointArg (List.ofFn x)) →
        (∃ y, FloatDenotes ε env e y) ∧ ∀ y, FloatDenotes ε env e y →
          |y - f x| ≤ ((1 + ε) ^ roundings p.basis m p.r - 1) * magnitude p.basis p.r a x := by
  obtain ⟨s, h1, h2⟩ := fevalText_spec h ha hnum
  obtain ⟨e0, h3, h4⟩ := lx_scalarBody s
  have h4' := fun (env : Env ℝ) x hx => ftxt_wrap h4 (h2 env x hx)
  obtain ⟨ts, h5⟩ := tokens_of_ftxt (h4' (scope (pointArg (List.ofFn fun _ => 0))) (fun _ => 0) (scope_x _))
  obtain ⟨code, e, h6, h7, h8⟩ := functionSpecific_spec p.basis p.m p.r hash h5
  have hm : p.m = m := h.1
  refine ⟨code, e, ?_, by rw [← hm]; exact h7, fun env x hx => ?_⟩
  · unfold objCode
    rw [h1, Py.bind_ok, h3, Py.bind_ok, h6, hm]
  · exact (h4' env x hx).eval hε h8

/-! ## Vector valued polynomials -/

theorem Reads.comma {l : Level} {ts : List Tok} {e : Expr} (h : Reads l ts e) : Tok.comma ∉ ts := by
  induction h <;> simp_all

/-- Comma separated expressions with their bounds. -/
inductive BSeq (ε : ℝ) (env : Env ℝ) (d : Nat) : List Tok → List VM → Prop where
  | one {a : List Tok} {e : Expr} {v : VM} : Reads .sum a e → Bound ε env e v.1 v.2 d → BSeq ε env d a [v]
  | cons {a b : List Tok} {e : Expr} {v : VM} {vs : List VM} : Reads .sum a e → Bound ε env e v.1 v.2 d → BSeq ε env d b vs →
      BSeq ε env d (a ++ .comma :: b) (v :: vs)

theorem BSeq.error (hε : 0 ≤ ε) {d : Nat} {ts : List Tok} {vs : List VM} (h : BSeq ε env d ts vs) : ∀ {cs : List ℝ}, FloatSeq ε env ts cs →
    List.Forall₂ (fun c (v : VM) => |c - v.1| ≤ ((1 + ε) ^ d - 1) * v.2) cs vs := by
  induction h with
  | one h1 h2 =>
    intro cs hc
    cases hc with
    | one h3 h4 => rw [h3.unique h1] at h4; exact .cons (h2.error hε h4) .nil
    | cons h3 h4 h5 => exact absurd (by simp) h1.comma
  | @cons a b e v vs h1 h2 _ ih =>
    intro cs hc
    generalize hts : a ++ Tok.comma :: b = ts at hc
    cases hc with
    | one h3 h4 => exact absurd (by rw [← hts]; simp) h3.comma
    | cons h3 h4 h5 =>
      obtain ⟨rfl, rfl⟩ := comma_split h1.comma h3.comma hts
      rw [h3.unique h1] at h4
      exact .cons (h2.error hε h4) (ih h5)

theorem BSeq.exists_floatSeq (hε : 0 ≤ ε) {d : Nat} {ts : List Tok} {vs : List VM} (h : BSeq ε env d ts vs) : ∃ cs, FloatSeq ε env ts cs := by
  induction h with
  | one h1 h2 => exact ⟨_, .one h1 (h2.exists_floatVal hε).choose_spec⟩
  | cons h1 h2 _ ih => exact ⟨_, .cons h1 (h2.exists_floatVal hε).choose_spec ih.choose_spec⟩

/-- Texts separated by commas. -/
theorem bseq_join {d : Nat} {parts : List Str} {vs : List VM} (h : List.Forall₂ (fun s (v : VM) => FTxt ε env .sum s v.1 v.2 d) parts vs)
    (hne : parts ≠ []) : ∃ ts, Lx (joinWith ", ".toList parts) ts ∧ BSeq ε env d ts vs := by
  induction h with
  | nil => exact absurd rfl hne
  | cons h1 h2 ih =>
    rename_i p v ps vs
    obtain ⟨t1, e, ha, hb, hb'⟩ := h1
    cases h2 with
    | nil => exact ⟨t1, ha, .one hb hb'⟩
    | cons h3 h4 =>
      obtain ⟨t2, hc, hd⟩ := ih (by simp)
      rw [joinWith_cons _ _ _ (by simp)]
      refine ⟨_, ha.mid mid_comma hc, ?_⟩
      rw [List.append_assoc]
      exact BSeq.cons hb hb' hd

theorem lx_vectorBody (parts : List Str) :
    ∃ e, vectorBody ("np.array([".toList ++ joinWith ", ".toList parts ++ "])".toList) = .ok ("return ".toList ++ e) ∧
      ∀ ts, Lx (joinWith ", ".toList parts) ts → tokens e = some ([.name "np".toList, .dot, .name "array".toList, .lpar, .lbrk] ++ ts ++ [.rbrk, .rpar]) := by
  unfold vectorBody
  split
  · set s := "np.array([".toList ++ joinWith ", ".toList parts ++ "])".toList with hs
    obtain ⟨lines, h1, h2⟩ := splitLongStr_parts s ", ".toList (by decide)
    rw [h1, Py.bind_ok, join_eq]
    refine ⟨_, rfl, fun ts h6 => ?_⟩
    have hlne : lines ≠ [] := by
      rintro rfl
      rw [hs] at h2
      exact absurd h2 (by simp [joinWith])
    obtain ⟨l, ls, rfl⟩ := List.exists_cons_of_ne_nil hlne
    rw [hs, List.append_assoc] at h2
    obtain ⟨l', rfl, h3⟩ := first_line ',' [' '] "np.array([".toList _ (by decide) l ls h2
    obtain ⟨ls', -, h4, h5⟩ := last_line ' ' [','] "])".toList (by decide) ls l' _ h3
    rw [← h4] at h6
    have h8 := h6.breakLines ", ".toList ",\n                 ".toList break_comma
    have h9 : joinWith ",\n                 ".toList (("np.array([".toList ++ l') :: ls) =
        "np.array([".toList ++ joinWith ",\n                 ".toList ls' ++ "])".toList := by
      rw [List.append_assoc, ← h5]
      cases ls with
      | nil => rfl
      | cons q r => simp [joinWith]
    rw [h9]
    exact tokens_array h8
  · exact ⟨_, rfl, fun ts h => tokens_array h.deep⟩

theorem fobjCodeVector_spec (hε : 0 ≤ ε) {n : Nat} {p : Obj (Fin (n + 1) → ℝ)} {m : Nat} {f : (Fin m → ℝ) → Fin (n + 1) → ℝ} (h : Represents p m f)
    {num : ℝ → Str} (hash : Int) {a : List (Fin (n + 1) → ℝ)} (ha : genCoeffs (K := ℝ) p = .ok a) (hnum : ∀ v ∈ a, ∀ i, PrintsLiteral ε (num (v i)) (v i)) :
    ∃ code e, objCodeVector num hash p = .ok (code, fnName (kindOf p.basis) m p.r hash) ∧ DefinesFunction code (fnName (kindOf p.basis) m p.r hash) e ∧
      ∀ (env : Env ℝ) (x : Fin m → ℝ), env "x".toList = some (pointArg (List.ofFn x)) →
        (∃ ys, FloatArray ε env e ys) ∧ ∀ ys, FloatArray ε env e ys → ∃ y : Fin (n + 1) → ℝ, ys = List.ofFn y ∧
          ∀ i, |y i - f x i| ≤ ((1 + ε) ^ roundings p.basis m p.r - 1) * magnitude p.basis p.r (a.map (fun v => v i)) x := by
  obtain ⟨c, hp, hf, hfit⟩ := h.exists_mk
  obtain ⟨a', ha1, ha2⟩ := genCoeffs_component (K := ℝ) p.basis m p.r c
  obtain rfl : a' = a := by
    rw [hp] at ha
    exact Except.ok.inj (ha1.symm.trans ha)
  have key : ∀ i, ∃ s, evalText num (mkObj p.basis m p.r (fun ν => c ν i)) = .ok s ∧
      ∀ (env : Env ℝ) (x : Fin m → ℝ), env "x".toList = some (pointArg (List.ofFn x)) →
        FTxt ε env .sum s (f x i) (magnitude p.basis p.r (a'.map (fun v => v i)) x) (roundings p.basis m p.r) := by
    intro i
    obtain ⟨s, h1, h2⟩ := fevalText_spec (ε := ε) (rep_mk (K := ℝ) p.basis m p.r (fun ν => c ν i) hfit) (num := num) (ha2 i) (by
      intro v hv
      rw [List.mem_map] at hv
      obtain ⟨w, hw, rfl⟩ := hv
      exact hnum w hw i)
    refine ⟨s, h1, fun env x hx => ?_⟩
    rw [hf, val_comp]
    exact h2 env x hx
  choose g hg1 hg2 using key
  obtain ⟨scalar, a'', h1, h2⟩ := evalTextVector_eq num p.basis m p.r c g hg1
  rw [← hp] at h1
  obtain ⟨e0, h3, h4⟩ := lx_vectorBody (List.ofFn g)
  have hF : ∀ (env : Env ℝ) (x : Fin m → ℝ), env "x".toList = some (pointArg (List.ofFn x)) →
      List.Forall₂ (fun s (v : VM) => FTxt ε env .sum s v.1 v.2 (roundings p.basis m p.r)) (List.ofFn g)
        (List.ofFn (fun i => ((f x i, magnitude p.basis p.r (a'.map (fun v => v i)) x) : VM))) := by
    intro env x hx
    rw [List.forall₂_iff_get]
    refine ⟨by simp, fun i hi _ => ?_⟩
    rw [List.get_ofFn, List.get_ofFn]
    exact hg2 _ env x hx
  have hne : List.ofFn g ≠ [] := by rw [List.ofFn_succ]; simp
  have hB := fun (env : Env ℝ) x hx => bseq_join (hF env x hx) hne
  obtain ⟨ts, h5, -⟩ := hB (scope (pointArg (List.ofFn fun _ => 0))) (fun _ => 0) (scope_x _)
  obtain ⟨code, e, h6, h7, h8⟩ := functionSpecific_spec p.basis p.m p.r hash (h4 ts h5)
  have hm : p.m = m := h.1
  refine ⟨code, e, ?_, by rw [← hm]; exact h7, fun env x hx => ?_⟩
  · unfold objCodeVector
    rw [h1, vectorEval_ok h2, Py.bind_ok, h3, Py.bind_ok, h6, hm]
  · obtain ⟨ts', h9, h10⟩ := hB env x hx
    have ht : tokens e = some ([.name "np".toList, .dot, .name "array".toList, .lpar, .lbrk] ++ ts' ++ [.rbrk, .rpar]) := by rw [h8]; exact h4 _ h9
    constructor
    · obtain ⟨ys, hys⟩ := h10.exists_floatSeq hε
      exact ⟨ys, ts', ht, hys⟩
    · rintro ys ⟨ts'', h11, h12⟩
      rw [ht] at h11
      have h13 := Option.some.inj h11
      rw [List.append_cancel_right_eq, List.append_cancel_left_eq] at h13
      rw [← h13] at h12
      have h14 := h10.error hε h12
      rw [List.forall₂_iff_get] at h14
      obtain ⟨hl, h14⟩ := h14
      rw [List.length_ofFn] at hl
      refine ⟨fun i => ys.get (i.cast hl.symm), ?_, fun i => ?_⟩
      · apply List.ext_get
        · simp [hl]
        · intro i h15 h16
          rw [List.get_ofFn]
          rfl
      · have := h14 i (by rw [hl]; exact i.isLt) (by rw [List.length_ofFn]; exact i.isLt)
        rw [List.get_ofFn] at this
        exact this

/-! ## Functions of the coefficients and the point -/

theorem flagrangeBasisFnText_spec {num : ℝ → Str} {m r : Nat} {ν : List Nat} (hν : ν ∈ mis m r) {c : List ℝ}
    (hc : getLagrangeBasisFnCoefficients ℝ ν r = .ok c) (hnum : ∀ v ∈ c, PrintsLiteral ε (num v) v) :
    ∃ s, lagrangeBasisFnText num ν r = .ok s ∧ ∀ (env : Env ℝ) (x : Fin m → ℝ), env "x".toList = some (pointArg (List.ofFn x)) →
      FTxt ε env .sum s (lagrange r (List.ofFn x) ν) (linComb (monomial ((List.ofFn x).map abs)) (mis m r) (c.map abs))
        (getDimension r m + 2 * m + 4) := by
  obtain ⟨hl, hs⟩ := mem_mis.1 hν
  subst hl
  have hc' := getLagrangeBasisFnCoefficients_eq (K := ℝ) ν r hs
  obtain rfl := Except.ok.inj (hc'.symm.trans hc)
  have key : ∀ (env : Env ℝ) (x : Fin ν.length → ℝ), env "x".toList = some (pointArg (List.ofFn x)) → ∃ s, lagrangeBasisFnText num ν r = .ok s ∧
      FTxt ε env .sum s (lagrange r (List.ofFn x) ν)
        (linComb (monomial ((List.ofFn x).map abs)) (mis ν.length r) ((tab ν.length r (lagCoeff ℝ ν.length r ν)).map abs))
        (getDimension r ν.length + 2 * ν.length + 4) := by
    intro env x hx
    unfold lagrangeBasisFnText
    rw [hc, Py.bind_ok]
    have hb := fforall₂_monomialBasis (ε := ε) hx r
    rw [List.length_ofFn] at hb
    obtain ⟨s, h1, h2⟩ := ftxt_strDotProduct (fforall₂_num (env := env) hnum) hb
      (by rw [List.length_map, length_tab, hb.length_eq, List.length_map, length_mis_eq])
    refine ⟨s, h1, ?_⟩
    rw [zip_linComb Prod.fst (monomial (List.ofFn x)) _ (fun _ => rfl), zip_linComb Prod.snd (monomial ((List.ofFn x).map abs)) _ (fun _ => rfl),
      map_vm_fst, map_vm_snd] at h2
    rw [linComb_tab] at h2
    rw [lagCoeff_spec rfl hs]
    refine FTxt.mono (d := (List.map num (tab ν.length r (lagCoeff ℝ ν.length r ν))).length + 2 + (2 * ν.length + 1) + 1) ?_ le_rfl
      (by rw [List.length_map, length_tab]; omega)
    simpa only [monomial_ofFn] using h2
  obtain ⟨s, hs, -⟩ := key (scope (pointArg (List.ofFn fun _ => 0))) (fun _ => 0) (scope_x _)
  refine ⟨s, hs, fun env x hx => ?_⟩
  obtain ⟨s', hs', ht⟩ := key env x hx
  rw [Except.ok.inj (hs.symm.trans hs')]
  exact ht

end Verif.PyExpr
